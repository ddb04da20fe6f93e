import Verif.Spec.Memory
import Mathlib.Tactic

namespace Torchiva
namespace Memory

open Torchiva.Spec

section prim
variable {α β ι κ : Type}

@[simp] theorem bind_apply (m : Mem α) (k : α → Mem β) (h : Heap) :
    (m >>= k) h = match m h with
      | (.ok a, h') => k a h'
      | (.error e, h') => (.error e, h') := rfl

@[simp] theorem pure_apply (a : α) (h : Heap) : (pure a : Mem α) h = (.ok a, h) := rfl

@[simp] theorem read_apply (r : Ref ι) (h : Heap) : read r h = (.ok (h.read r), h) := rfl
@[simp] theorem readR_apply (r : Ref ι) (h : Heap) : readR r h = (.ok (h.readR r), h) := rfl
@[simp] theorem out_apply [Encodable ι] (ids : List ℕ) (f : ι → ℂ) (h : Heap) :
    out ids f h = (.ok ⟨h.next, Encodable.encode⟩, h.out ids f) := rfl
@[simp] theorem set_apply (r : Ref ι) (g : κ → ι) (v : κ → ℂ) (h : Heap) :
    set r g v h = (.ok (), h.set r g v) := rfl
@[simp] theorem outE_ok [Encodable ι] (ids : List ℕ) (f : ι → ℂ) :
    outE ids (.ok f) = out ids f := rfl
@[simp] theorem outE_err [Encodable ι] (ids : List ℕ) (e : Err) (h : Heap) :
    outE (ι := ι) ids (.error e) h = (.error e, h) := rfl

@[simp] theorem view_id (r : Ref ι) (g : κ → ι) : (r.view g).id = r.id := rfl
@[simp] theorem read_view (h : Heap) (r : Ref ι) (g : κ → ι) (k : κ) :
    h.read (r.view g) k = h.read r (g k) := rfl

@[simp] theorem out_next [Encodable ι] (h : Heap) (ids : List ℕ) (f : ι → ℂ) :
    (h.out ids f).next = h.next + 1 := rfl
@[simp] theorem out_saved [Encodable ι] (h : Heap) (ids : List ℕ) (f : ι → ℂ) :
    (h.out ids f).saved = ids.map (fun i => (i, h.ver i)) ++ h.saved := rfl
@[simp] theorem set_next (h : Heap) (r : Ref ι) (g : κ → ι) (v : κ → ℂ) :
    (h.set r g v).next = h.next := rfl
@[simp] theorem set_saved (h : Heap) (r : Ref ι) (g : κ → ι) (v : κ → ℂ) :
    (h.set r g v).saved = h.saved := rfl

theorem out_read_new [Encodable ι] (h : Heap) (ids : List ℕ) (f : ι → ℂ) :
    (h.out ids f).read ⟨h.next, Encodable.encode⟩ = f := by
  funext i
  simp [Heap.read, Heap.out]

theorem out_read_old [Encodable ι] (h : Heap) (ids : List ℕ) (f : ι → ℂ) (r : Ref κ)
    (hr : r.id < h.next) : (h.out ids f).read r = h.read r := by
  funext i
  simp [Heap.read, Heap.out, Function.update_of_ne hr.ne]

theorem out_untouched [Encodable ι] (h : Heap) (ids : List ℕ) (f : ι → ℂ) :
    Untouched h (h.out ids f) := by
  refine ⟨by simp, fun i hi => ?_, fun i hi => ?_⟩ <;> simp [Heap.out, Function.update_of_ne hi.ne]

theorem out_back [Encodable ι] {h : Heap} {ids : List ℕ} {f : ι → ℂ} (hb : BackwardRuns h)
    (hi : ∀ i ∈ ids, i < h.next) : BackwardRuns (h.out ids f) := by
  intro p hp
  rw [out_saved, List.mem_append, List.mem_map] at hp
  have u := out_untouched h ids f
  rcases hp with ⟨i, h1, rfl⟩ | hp
  · exact ⟨by have := hi i h1; simp; omega, u.version i (hi i h1)⟩
  · obtain ⟨h1, h2⟩ := hb p hp
    exact ⟨by simp; omega, by rw [u.version _ h1, h2]⟩

theorem set_read_other {κ' : Type} (h : Heap) (r : Ref ι) (g : κ → ι) (v : κ → ℂ) (r' : Ref κ')
    (hr : r'.id ≠ r.id) : (h.set r g v).read r' = h.read r' := by
  funext i
  simp [Heap.read, Heap.set, Function.update_of_ne hr]

theorem set_read_in (h : Heap) (r : Ref ι) (g : κ → ι) (v : κ → ℂ) (hp : Function.Injective r.pos)
    (hg : Function.Injective g) (k : κ) : (h.set r g v).read r (g k) = v k := by
  classical
  have e : ∃ k', r.pos (g k') = r.pos (g k) := ⟨k, rfl⟩
  simp only [Heap.read, Heap.set, Function.update_self, dif_pos e]
  rw [hg (hp e.choose_spec)]

theorem set_read_out (h : Heap) (r : Ref ι) (g : κ → ι) (v : κ → ℂ) (hp : Function.Injective r.pos)
    (i : ι) (hi : ∀ k, g k ≠ i) : (h.set r g v).read r i = h.read r i := by
  classical
  have e : ¬ ∃ k', r.pos (g k') = r.pos i := fun ⟨k, hk⟩ => hi k (hp hk)
  simp only [Heap.read, Heap.set, Function.update_self, dif_neg e]

theorem _root_.Torchiva.Spec.Untouched.refl (h : Heap) : Untouched h h := ⟨le_rfl, fun _ _ => rfl, fun _ _ => rfl⟩

theorem _root_.Torchiva.Spec.Untouched.trans {a b c : Heap} (h1 : Untouched a b) (h2 : Untouched b c) : Untouched a c :=
  ⟨h1.alive.trans h2.alive,
   fun i hi => (h2.same i (hi.trans_le h1.alive)).trans (h1.same i hi),
   fun i hi => (h2.version i (hi.trans_le h1.alive)).trans (h1.version i hi)⟩

theorem _root_.Torchiva.Spec.Untouched.read {a b : Heap} (h : Untouched a b) (r : Ref ι) (hr : r.id < a.next) :
    b.read r = a.read r := by
  funext i
  simp [Heap.read, h.same _ hr]

theorem set_untouched {h0 h : Heap} {r : Ref ι} {g : κ → ι} {v : κ → ℂ} (u : Untouched h0 h)
    (hr : h0.next ≤ r.id) : Untouched h0 (h.set r g v) := by
  refine ⟨by simpa using u.alive, fun i hi => ?_, fun i hi => ?_⟩
  · simp [Heap.set, Function.update_of_ne (show i ≠ r.id by omega), u.same i hi]
  · simp [Heap.set, Function.update_of_ne (show i ≠ r.id by omega), u.version i hi]

theorem set_back {h : Heap} {r : Ref ι} {g : κ → ι} {v : κ → ℂ} (hb : BackwardRuns h)
    (hr : ∀ p ∈ h.saved, p.1 ≠ r.id) : BackwardRuns (h.set r g v) := by
  intro p hp
  rw [set_saved] at hp
  obtain ⟨h1, h2⟩ := hb p hp
  refine ⟨by simpa using h1, ?_⟩
  simp [Heap.set, Function.update_of_ne (hr p hp), h2]

/-- The computation returns, and its result and the final heap satisfy `Q`. -/
def Ok (Q : α → Heap → Prop) (x : Except Err α × Heap) : Prop := ∃ a h, x = (.ok a, h) ∧ Q a h

theorem Ok.pure {Q : α → Heap → Prop} {a : α} {h : Heap} (hq : Q a h) : Ok Q ((pure a : Mem α) h) :=
  ⟨a, h, rfl, hq⟩

theorem Ok.bind {Q' : α → Heap → Prop} {Q : β → Heap → Prop} {m : Mem α} {k : α → Mem β} {h : Heap}
    (hm : Ok Q' (m h)) (hk : ∀ a h', Q' a h' → Ok Q (k a h')) : Ok Q ((m >>= k) h) := by
  obtain ⟨a, h', e, q⟩ := hm
  obtain ⟨b, h'', e', q'⟩ := hk a h' q
  exact ⟨b, h'', by simp [e, e'], q'⟩

theorem Ok.read {Q : β → Heap → Prop} {r : Ref ι} {k : (ι → ℂ) → Mem β} {h : Heap}
    (hk : Ok Q (k (h.read r) h)) : Ok Q ((Memory.read r >>= k) h) := hk

theorem Ok.readR {Q : β → Heap → Prop} {r : Ref ι} {k : (ι → ℝ) → Mem β} {h : Heap}
    (hk : Ok Q (k (h.readR r) h)) : Ok Q ((Memory.readR r >>= k) h) := hk

/-- What `out` does, as a relation. -/
structure IsOut [Encodable ι] (h : Heap) (ids : List ℕ) (f : ι → ℂ) (r : Ref ι) (h' : Heap) : Prop where
  un : Untouched h h'
  id : r.id = h.next
  next : h'.next = h.next + 1
  inj : Function.Injective r.pos
  val : h'.read r = f
  saved : ∀ p ∈ h'.saved, p ∈ h.saved ∨ p.1 ∈ ids
  back : BackwardRuns h → (∀ i ∈ ids, i < h.next) → BackwardRuns h'

theorem isOut [Encodable ι] (h : Heap) (ids : List ℕ) (f : ι → ℂ) :
    IsOut h ids f ⟨h.next, Encodable.encode⟩ (h.out ids f) where
  un := out_untouched h ids f
  id := rfl
  next := rfl
  inj := Encodable.encode_injective
  val := out_read_new h ids f
  saved := by
    intro p hp
    rw [out_saved, List.mem_append, List.mem_map] at hp
    rcases hp with ⟨i, h1, rfl⟩ | hp
    · exact .inr h1
    · exact .inl hp
  back := fun hb hi => out_back hb hi

theorem Ok.out [Encodable ι] {Q : β → Heap → Prop} {ids : List ℕ} {f : ι → ℂ} {k : Ref ι → Mem β} {h : Heap}
    (hk : ∀ r h', IsOut h ids f r h' → Ok Q (k r h')) : Ok Q ((Memory.out ids f >>= k) h) :=
  hk _ _ (isOut h ids f)

theorem Ok.out' [Encodable ι] {Q : Ref ι → Heap → Prop} {ids : List ℕ} {f : ι → ℂ} {h : Heap}
    (hk : ∀ r h', IsOut h ids f r h' → Q r h') : Ok Q (Memory.out ids f h) :=
  ⟨_, _, rfl, hk _ _ (isOut h ids f)⟩

/-- What `set` does, as a relation. -/
structure IsSet (h : Heap) (r : Ref ι) (g : κ → ι) (v : κ → ℂ) (h' : Heap) : Prop where
  next : h'.next = h.next
  saved : h'.saved = h.saved
  un : ∀ h0, Untouched h0 h → h0.next ≤ r.id → Untouched h0 h'
  back : BackwardRuns h → (∀ p ∈ h.saved, p.1 ≠ r.id) → BackwardRuns h'
  inside : Function.Injective r.pos → Function.Injective g → ∀ k, h'.read r (g k) = v k
  outside : Function.Injective r.pos → ∀ i, (∀ k, g k ≠ i) → h'.read r i = h.read r i
  other : ∀ {κ' : Type} (r' : Ref κ'), r'.id ≠ r.id → h'.read r' = h.read r'

theorem isSet (h : Heap) (r : Ref ι) (g : κ → ι) (v : κ → ℂ) : IsSet h r g v (h.set r g v) where
  next := rfl
  saved := rfl
  un := fun _ u hr => set_untouched u hr
  back := fun hb hr => set_back hb hr
  inside := fun hp hg k => set_read_in h r g v hp hg k
  outside := fun hp i hi => set_read_out h r g v hp i hi
  other := fun r' hr => set_read_other h r g v r' hr

theorem Ok.set {Q : β → Heap → Prop} {r : Ref ι} {g : κ → ι} {v : κ → ℂ} {k : Unit → Mem β} {h : Heap}
    (hk : ∀ h', IsSet h r g v h' → Ok Q (k () h')) : Ok Q ((Memory.set r g v >>= k) h) :=
  hk _ (isSet h r g v)

theorem Ok.mono {Q Q' : α → Heap → Prop} {x : Except Err α × Heap} (h : Ok Q x)
    (hq : ∀ a h, Q a h → Q' a h) : Ok Q' x := by
  obtain ⟨a, h', e, q⟩ := h
  exact ⟨a, h', e, hq a h' q⟩

theorem forEach_inv {l : List ι} {f : α → ι → Mem α} {P : Heap → α → β → Prop} {step : β → ι → β}
    (hstep : ∀ h a b i, i ∈ l → P h a b → Ok (fun a' h' => P h' a' (step b i)) (f a i h)) :
    ∀ h a b, P h a b → Ok (fun a' h' => P h' a' (l.foldl step b)) (forEach l a f h) := by
  induction l with
  | nil => intro h a b hP; exact ⟨a, h, rfl, hP⟩
  | cons i l ih =>
    intro h a b hP
    obtain ⟨a1, h1, e1, P1⟩ := hstep h a b i (by simp) hP
    obtain ⟨a2, h2, e2, P2⟩ := ih (fun h a b j hj => hstep h a b j (by simp [hj])) h1 a1 _ P1
    refine ⟨a2, h2, ?_, P2⟩
    simp [forEach, e1, e2]

end prim


section tiss
variable {s C F N T : ℕ}

/-- Only storages in `L` and new ones have been recorded since. -/
def SavedIn (h h' : Heap) (L : List ℕ) : Prop :=
  ∀ p ∈ h'.saved, p ∈ h.saved ∨ p.1 ∈ L ∨ h.next ≤ p.1

/-- What an update vector computation does. -/
structure IsVec (h : Heap) (L : List ℕ) (val : Fin s → Fin F → ℂ) (v : Ref (I2 s F)) (h' : Heap) : Prop where
  un : Untouched h h'
  back : BackwardRuns h'
  lo : h.next ≤ v.id
  hi : v.id < h'.next
  saved : SavedIn h h' L
  val : ∀ c f, h'.read v (c, f) = val c f

theorem type2_spec {h : Heap} (hb : BackwardRuns h) (X : Ref (I3 s F N)) (Zs : Ref (I2 F N))
    (w : Ref (I3 s F N)) (eps : ℝ) (hX : X.id < h.next) (hZ : Zs.id < h.next) (hw : w.id < h.next) :
    Ok (IsVec h [w.id, X.id, Zs.id] (issType2 (fun c f n => h.read X (c, f, n))
        (fun f n => h.read Zs (f, n)) (fun c f n => h.readR w (c, f, n)) eps)) (type2 X Zs w eps h) := by
  refine Ok.read (Ok.readR (Ok.read (Ok.out fun r1 h1 o1 => Ok.out fun r2 h2 o2 => Ok.read (Ok.readR
    (Ok.out' fun r3 h3 o3 => ?_)))))
  have b1 := o1.back hb (by simp; omega)
  have b2 := o2.back b1 (by simp [o1.next]; omega)
  have b3 := o3.back b2 (by simp [o1.next, o2.next, o1.id, o2.id])
  refine ⟨o1.un.trans (o2.un.trans o3.un), b3, by rw [o3.id, o2.next, o1.next]; omega,
    by rw [o3.id, o3.next]; omega, ?_, ?_⟩
  · intro p hp
    rcases o3.saved p hp with hp | hp
    · rcases o2.saved p hp with hp | hp
      · rcases o1.saved p hp with hp | hp
        · exact .inl hp
        · exact .inr (.inl hp)
      · simp at hp ⊢; tauto
    · simp [o1.id, o2.id, o1.next] at hp ⊢; omega
  · intro c f
    rw [o3.val]
    simp only [Heap.readR]
    rw [o2.val, o2.un.read r1 (by rw [o1.id, o1.next]; omega), o1.val]
    simp [issType2, Heap.readR]

theorem type1_spec {h : Heap} (hb : BackwardRuns h) (src : Fin s) (X : Ref (I3 s F N))
    (w : Ref (I3 s F N)) (eps : ℝ) (hX : X.id < h.next) (hw : w.id < h.next) :
    Ok (IsVec h [w.id, X.id] (issType1 src (fun c f n => h.read X (c, f, n))
        (fun c f n => h.readR w (c, f, n)) eps)) (type1 src X w eps h) := by
  refine Ok.read (Ok.readR (Ok.read (Ok.out fun r1 h1 o1 => Ok.out fun r2 h2 o2 => Ok.read (Ok.readR
    (Ok.out fun r3 h3 o3 => Ok.out fun r4 h4 o4 => Ok.read (Ok.set fun h5 s5 => Ok.pure ?_))))))
  have b1 := o1.back hb (by simp; omega)
  have b2 := o2.back b1 (by simp [o1.next]; omega)
  have b3 := o3.back b2 (by simp [o1.next, o2.next, o1.id, o2.id])
  have b4 := o4.back b3 (by simp [o1.next, o2.next, o3.next, o2.id])
  have sv : ∀ p ∈ h4.saved, p ∈ h.saved ∨ p.1 = w.id ∨ p.1 = X.id ∨ p.1 = h.next ∨ p.1 = h.next + 1 := by
    intro p hp
    rcases o4.saved p hp with hp | hp
    · rcases o3.saved p hp with hp | hp
      · rcases o2.saved p hp with hp | hp
        · rcases o1.saved p hp with hp | hp
          · exact .inl hp
          · simp at hp; tauto
        · simp at hp; tauto
      · simp [o1.id, o2.id, o1.next] at hp; tauto
    · simp [o2.id, o1.next] at hp; tauto
  have id3 : r3.id = h.next + 2 := by rw [o3.id, o2.next, o1.next]
  have fresh : ∀ p ∈ h4.saved, p.1 ≠ r3.id := by
    intro p hp
    rcases sv p hp with hp | hp | hp | hp | hp
    · have := (hb p hp).1; omega
    all_goals omega
  have u4 : Untouched h h4 := o1.un.trans (o2.un.trans (o3.un.trans o4.un))
  refine ⟨s5.un h u4 (by omega), s5.back b4 fresh, by omega,
    by rw [s5.next, o4.next, o3.next, o2.next, o1.next]; omega, ?_, ?_⟩
  · intro p hp
    rw [s5.saved] at hp
    rcases sv p hp with hp | hp | hp | hp | hp
    · exact .inl hp
    · exact .inr (.inl (by simp [hp]))
    · exact .inr (.inl (by simp [hp]))
    · exact .inr (.inr (by omega))
    · exact .inr (.inr (by omega))
  · intro c f
    have inj : Function.Injective (fun f : Fin F => ((src, f) : I2 s F)) := fun a b e => by simpa using e
    by_cases hc : c = src
    · subst hc
      rw [s5.inside o3.inj inj f, o4.val]
      simp only [Heap.readR]
      rw [o2.val]
      simp [issType1, Heap.readR]
    · rw [s5.outside o3.inj (c, f) (fun k e => hc (by simp at e; exact e.1.symm)),
        o4.un.read r3 (by rw [o3.id, o3.next]; omega), o3.val]
      simp only [Heap.readR]
      rw [o2.val, o2.un.read r1 (by rw [o1.id, o1.next]; omega), o1.val]
      simp [issType1, Heap.readR, hc]

/-- Invariant of the loops of `iss_updates_with_H`, started on the heap `h0`. -/
structure Own (h0 : Heap) (x0 : ℕ) (h : Heap) (r : Names s C F N T) (v : IssState s C F N T) : Prop where
  un : Untouched h0 h
  back : BackwardRuns h
  xin : r.X.id < h.next
  xor : r.X.id = x0 ∨ h0.next ≤ r.X.id
  win : r.W.id < h.next
  hin : r.H.id < h.next
  wnew : h0.next ≤ r.W.id
  hnew : h0.next ≤ r.H.id
  xw : r.X.id ≠ r.W.id
  xh : r.X.id ≠ r.H.id
  wh : r.W.id ≠ r.H.id
  wsaved : ∀ p ∈ h.saved, p.1 ≠ r.W.id
  hsaved : ∀ p ∈ h.saved, p.1 ≠ r.H.id
  wpos : Function.Injective r.W.pos
  hpos : Function.Injective r.H.pos
  xv : ∀ c f n, h.read r.X (c, f, n) = v.Y c f n
  wv : ∀ c f d, h.read r.W (c, f, d) = v.W c f d
  hv : ∀ c f d t, h.read r.H (c, f, d, t) = v.H c f d t

theorem srcStep_spec {h0 : Heap} {x0 : ℕ} {h : Heap} {r : Names s C F N T} {v : IssState s C F N T} (o : Own h0 x0 h r v)
    (w : Ref (I3 s F N)) (eps : ℝ) (hw : w.id < h0.next) (src : Fin s) :
    Ok (fun r' h' => Own h0 x0 h' r' (issSrcStep (fun c f n => h0.readR w (c, f, n)) eps v src))
      (srcStep w eps r src h) := by
  have hal := o.un.alive
  refine Ok.bind (type1_spec o.back src r.X w eps o.xin (by omega)) fun vec h1 q => ?_
  refine Ok.read (Ok.read (Ok.out fun r1 h2 o1 => Ok.read (Ok.out fun r2 h3 o2 => Ok.read
    (Ok.out fun r3 h4 o3 => Ok.pure ?_))))
  have a1 := q.un.alive
  have := q.hi
  have := q.lo
  have := o.xin
  have := o.win
  have := o.hin
  have b2 := o1.back q.back (by simp; omega)
  have b3 := o2.back b2 (by simp [o1.next]; omega)
  have b4 := o3.back b3 (by simp [o1.next, o2.next]; omega)
  have n1 := o1.id
  have n2 : r2.id = h1.next + 1 := by rw [o2.id, o1.next]
  have n3 : r3.id = h1.next + 2 := by rw [o3.id, o2.next, o1.next]
  have n4 : h4.next = h1.next + 3 := by rw [o3.next, o2.next, o1.next]
  have sv : ∀ p ∈ h4.saved, p.1 < h1.next := by
    intro p hp
    rcases o3.saved p hp with hp | hp
    · rcases o2.saved p hp with hp | hp
      · rcases o1.saved p hp with hp | hp
        · exact (q.back p hp).1
        · simp at hp; omega
      · simp at hp; omega
    · simp at hp; omega
  have ew : h.readR w = h0.readR w := by
    funext i; simp only [Heap.readR]; rw [o.un.read w hw]
  have ev : ∀ c f, h1.read vec (c, f) = issType1 src v.Y (fun c f n => h0.readR w (c, f, n)) eps c f := by
    intro c f
    rw [q.val, ew]
    have : (fun c f n => h.read r.X (c, f, n)) = v.Y := by funext c f n; exact o.xv c f n
    rw [this]
  refine ⟨o.un.trans (q.un.trans (o1.un.trans (o2.un.trans o3.un))), b4, ?_, Or.inr ?_, ?_, ?_, ?_, ?_, ?_, ?_, ?_,
    ?_, ?_, o2.inj, o3.inj, ?_, ?_, ?_⟩
  any_goals first | (simp only []; omega) | (intro p hp; have := sv p hp; simp only []; omega)
  · intro c f n
    simp only
    rw [o3.un.read r1 (by rw [o2.next, o1.next]; omega), o2.un.read r1 (by rw [o1.next]; omega), o1.val]
    simp only
    rw [ev, q.un.read r.X o.xin, o.xv, o.xv]
    rfl
  · intro c f d
    simp only
    rw [o3.un.read r2 (by rw [o2.next, o1.next]; omega), o2.val]
    simp only
    rw [ev, o1.un.read r.W (by omega), q.un.read r.W o.win, o.wv, o.wv]
    rfl
  · intro c f d t
    simp only
    rw [o3.val]
    simp only
    rw [ev, o2.un.read r.H (by rw [o1.next]; omega), o1.un.read r.H (by omega), q.un.read r.H o.hin,
      o.hv, o.hv]
    rfl


theorem SavedIn.ne {h h' : Heap} {L : List ℕ} (q : SavedIn h h' L) {i : ℕ} (hi : i < h.next)
    (h1 : ∀ p ∈ h.saved, p.1 ≠ i) (h2 : i ∉ L) : ∀ p ∈ h'.saved, p.1 ≠ i := by
  intro p hp e
  rcases q p hp with hp | hp | hp
  · exact h1 p hp e
  · exact h2 (e ▸ hp)
  · omega

theorem IsOut.ne {ι : Type} [Encodable ι] {h h' : Heap} {ids : List ℕ} {f : ι → ℂ} {r : Ref ι}
    (q : IsOut h ids f r h') {i : ℕ} (h1 : ∀ p ∈ h.saved, p.1 ≠ i) (h2 : i ∉ ids) :
    ∀ p ∈ h'.saved, p.1 ≠ i := by
  intro p hp e
  rcases q.saved p hp with hp | hp
  · exact h1 p hp e
  · exact h2 (e ▸ hp)

theorem bakStep_spec (hs : s ≤ C) {h0 : Heap} {x0 : ℕ} {h : Heap} {r : Names s C F N T} {v : IssState s C F N T} (o : Own h0 x0 h r v)
    (w : Ref (I3 s F N)) (eps : ℝ) (hw : w.id < h0.next) (Z : Ref (I3 (C - s) F N)) (hZ : Z.id < h0.next)
    (J : Ref (I3 (C - s) F s)) (hJ : J.id < h0.next) (bak : Fin (C - s)) :
    Ok (fun r' h' => Own h0 x0 h' r' (issBakStep (fun c f n => h0.readR w (c, f, n)) eps
        (fun c f n => h0.read Z (c, f, n)) (fun c f d => h0.read J (c, f, d)) v bak))
      (bakStep hs w eps Z J r bak h) := by
  have hal := o.un.alive
  refine Ok.bind (type2_spec o.back r.X (Z.view fun i => (bak, i.1, i.2)) w eps o.xin (by simp; omega) (by omega))
    fun vec h1 q => ?_
  refine Ok.read (Ok.read (Ok.read (Ok.out fun r1 h2 o1 => Ok.read (Ok.read (Ok.out fun r2 h3 o2 => Ok.read
    (Ok.set fun h4 s4 => Ok.read (Ok.out fun r3 h5 o3 => Ok.read (Ok.set fun h6 s6 => Ok.pure ?_))))))))
  have a1 := q.un.alive
  have := q.hi
  have := q.lo
  have := o.xin
  have := o.win
  have := o.hin
  have := o.wnew
  have := o.hnew
  have xw := o.xw
  have xh := o.xh
  have wh := o.wh
  have n1 := o1.id
  have n2 : r2.id = h1.next + 1 := by rw [o2.id, o1.next]
  have n3 : r3.id = h1.next + 2 := by rw [o3.id, s4.next, o2.next, o1.next]
  have n6 : h6.next = h1.next + 3 := by rw [s6.next, o3.next, s4.next, o2.next, o1.next]
  have b2 := o1.back q.back (by simp; omega)
  have b3 := o2.back b2 (by simp [o1.next]; omega)
  have w1 := q.saved.ne o.win o.wsaved (by simp; omega)
  have w2 := o1.ne w1 (by simp; omega)
  have w3 := o2.ne w2 (by simp; omega)
  have b4 := s4.back b3 w3
  have w4 : ∀ p ∈ h4.saved, p.1 ≠ r.W.id := by rw [s4.saved]; exact w3
  have b5 := o3.back b4 (by simp)
  have w5 := o3.ne w4 (by simp)
  have b6 := s6.back b5 w5
  have g1 := q.saved.ne o.hin o.hsaved (by simp; omega)
  have g2 := o1.ne g1 (by simp; omega)
  have g3 := o2.ne g2 (by simp; omega)
  have g4 : ∀ p ∈ h4.saved, p.1 ≠ r.H.id := by rw [s4.saved]; exact g3
  have g5 := o3.ne g4 (by simp)
  have u3 : Untouched h0 h3 := o.un.trans (q.un.trans (o1.un.trans o2.un))
  have u5 : Untouched h0 h5 := (s4.un h0 u3 o.wnew).trans o3.un
  have ew : h.readR w = h0.readR w := by
    funext i; simp only [Heap.readR]; rw [o.un.read w hw]
  have ev : ∀ c f, h1.read vec (c, f) = issType2 v.Y (fun f n => h0.read Z (bak, f, n))
      (fun c f n => h0.readR w (c, f, n)) eps c f := by
    intro c f
    rw [q.val, ew]
    have e1 : (fun c f n => h.read r.X (c, f, n)) = v.Y := by funext c f n; exact o.xv c f n
    have e2 : (fun f n => h.read (Z.view fun i : I2 F N => (bak, i.1, i.2)) (f, n))
        = fun f n => h0.read Z (bak, f, n) := by
      funext f n; rw [read_view, o.un.read Z hZ]
    rw [e1, e2]
  refine ⟨s6.un h0 u5 o.wnew, b6, ?_, Or.inr ?_, ?_, ?_, o.wnew, o.hnew, ?_, ?_, wh, ?_, ?_, o.wpos, o.hpos, ?_, ?_, ?_⟩
  any_goals (simp only []; omega)
  · rw [s6.saved]; exact w5
  · rw [s6.saved]; exact o3.ne g4 (by simp)
  · intro c f n
    simp only
    rw [s6.other r1 (by omega), o3.un.read r1 (by rw [s4.next, o2.next, o1.next]; omega),
      s4.other r1 (by omega), o2.un.read r1 (by rw [o1.next]; omega), o1.val]
    simp only
    rw [ev, q.un.read r.X o.xin, o.xv, read_view, (o.un.trans q.un).read Z hZ]
    rfl
  · intro c f d
    have inj1 : Function.Injective (fun i : I3 s F s => ((i.1, i.2.1, Fin.castLE hs i.2.2) : I3 s F C)) := by
      rintro ⟨a, b, c⟩ ⟨a', b', c'⟩ e
      simp at e
      simp [e]
    have inj2 : Function.Injective (fun i : I2 s F => ((i.1, i.2, ⟨s + bak, by omega⟩) : I3 s F C)) := by
      rintro ⟨a, b⟩ ⟨a', b'⟩ e
      simp at e
      simp [e]
    have wold : ∀ c f d, h3.read r.W (c, f, d) = v.W c f d := by
      intro c f d
      rw [o2.un.read r.W (by rw [o1.next]; omega), o1.un.read r.W (by omega), q.un.read r.W o.win, o.wv]
    have wmid : ∀ c f d, h4.read r.W (c, f, d) = if h : d.1 < s then v.W c f d -
        issType2 v.Y (fun f n => h0.read Z (bak, f, n)) (fun c f n => h0.readR w (c, f, n)) eps c f *
          h0.read J (bak, f, ⟨d, h⟩) else v.W c f d := by
      intro c f d
      by_cases hd : d.1 < s
      · rw [dif_pos hd]
        have := s4.inside o.wpos inj1 (c, f, ⟨d.1, hd⟩)
        simp only at this
        have e : Fin.castLE hs ⟨d.1, hd⟩ = d := by ext; rfl
        rw [e] at this
        rw [this, o2.val]
        simp only
        rw [e, ev, o1.un.read r.W (by omega), q.un.read r.W o.win, o.wv,
          (o.un.trans (q.un.trans o1.un)).read J hJ]
      · rw [dif_neg hd, s4.outside o.wpos (c, f, d) (fun k e => hd (by simp at e; rw [← e.2.2]; simp)), wold]
    simp only
    by_cases hd : d.1 = s + bak
    · have := s6.inside o.wpos inj2 (c, f)
      simp only at this
      have e : (⟨s + bak, by omega⟩ : Fin C) = d := by ext; exact hd.symm
      rw [e] at this
      rw [this, o3.val]
      simp only
      rw [e, wmid, ev]
      simp [issBakStep, hd]
    · rw [s6.outside o.wpos (c, f, d) (fun k e => hd (by simp at e; rw [← e.2.2])),
        o3.un.read r.W (by rw [s4.next, o2.next, o1.next]; omega), wmid]
      simp [issBakStep, hd]
  · intro c f d t
    simp only
    rw [s6.other r.H (by omega), o3.un.read r.H (by rw [s4.next, o2.next, o1.next]; omega),
      s4.other r.H (by omega), o2.un.read r.H (by rw [o1.next]; omega), o1.un.read r.H (by omega),
      q.un.read r.H o.hin, o.hv]
    rfl

theorem tapStep_spec {h0 : Heap} {x0 : ℕ} {h : Heap} {r : Names s C F N T} {v : IssState s C F N T} (o : Own h0 x0 h r v)
    (w : Ref (I3 s F N)) (eps : ℝ) (hw : w.id < h0.next) (Xbar : Ref (I4 C F T N)) (hB : Xbar.id < h0.next)
    (src : Fin C) (tap : Fin T) :
    Ok (fun r' h' => Own h0 x0 h' r' (issTapStep (fun c f n => h0.readR w (c, f, n)) eps
        (fun c f t n => h0.read Xbar (c, f, t, n)) v src tap))
      (tapStep w eps Xbar r src tap h) := by
  have hal := o.un.alive
  refine Ok.bind (type2_spec o.back r.X (Xbar.view fun i => (src, i.1, tap, i.2)) w eps o.xin
    (by simp; omega) (by omega)) fun vec h1 q => ?_
  refine Ok.read (Ok.read (Ok.read (Ok.out fun r1 h2 o1 => Ok.read (Ok.out fun r2 h3 o2 => Ok.read
    (Ok.set fun h4 s4 => Ok.pure ?_)))))
  have a1 := q.un.alive
  have := q.hi
  have := q.lo
  have := o.xin
  have := o.win
  have := o.hin
  have := o.wnew
  have := o.hnew
  have xw := o.xw
  have xh := o.xh
  have wh := o.wh
  have n1 := o1.id
  have n2 : r2.id = h1.next + 1 := by rw [o2.id, o1.next]
  have n4 : h4.next = h1.next + 2 := by rw [s4.next, o2.next, o1.next]
  have b2 := o1.back q.back (by simp; omega)
  have b3 := o2.back b2 (by simp)
  have w1 := q.saved.ne o.win o.wsaved (by simp; omega)
  have w2 := o1.ne w1 (by simp; omega)
  have w3 := o2.ne w2 (by simp)
  have g1 := q.saved.ne o.hin o.hsaved (by simp; omega)
  have g2 := o1.ne g1 (by simp; omega)
  have g3 := o2.ne g2 (by simp)
  have b4 := s4.back b3 g3
  have u3 : Untouched h0 h3 := o.un.trans (q.un.trans (o1.un.trans o2.un))
  have ew : h.readR w = h0.readR w := by
    funext i; simp only [Heap.readR]; rw [o.un.read w hw]
  have ev : ∀ c f, h1.read vec (c, f) = issType3 src tap v.Y (fun c f t n => h0.read Xbar (c, f, t, n))
      (fun c f n => h0.readR w (c, f, n)) eps c f := by
    intro c f
    rw [q.val, ew]
    have e1 : (fun c f n => h.read r.X (c, f, n)) = v.Y := by funext c f n; exact o.xv c f n
    have e2 : (fun f n => h.read (Xbar.view fun i : I2 F N => (src, i.1, tap, i.2)) (f, n))
        = fun f n => h0.read Xbar (src, f, tap, n) := by
      funext f n; rw [read_view, o.un.read Xbar hB]
    rw [e1, e2]
    rfl
  refine ⟨s4.un h0 u3 o.hnew, b4, ?_, Or.inr ?_, ?_, ?_, o.wnew, o.hnew, ?_, ?_, wh, ?_, ?_, o.wpos, o.hpos, ?_, ?_, ?_⟩
  any_goals (simp only []; omega)
  · rw [s4.saved]; exact w3
  · rw [s4.saved]; exact g3
  · intro c f n
    simp only
    rw [s4.other r1 (by omega), o2.un.read r1 (by rw [o1.next]; omega), o1.val]
    simp only
    rw [ev, q.un.read r.X o.xin, o.xv, (o.un.trans q.un).read Xbar hB]
    rfl
  · intro c f d
    simp only
    rw [s4.other r.W (by omega), o2.un.read r.W (by rw [o1.next]; omega), o1.un.read r.W (by omega),
      q.un.read r.W o.win, o.wv]
    rfl
  · intro c f d t
    have inj : Function.Injective (fun i : I2 s F => ((i.1, i.2, src, tap) : I4 s F C T)) := by
      rintro ⟨a, b⟩ ⟨a', b'⟩ e
      simp at e
      simp [e]
    simp only
    by_cases hd : d = src ∧ t = tap
    · obtain ⟨rfl, rfl⟩ := hd
      have := s4.inside o.hpos inj (c, f)
      simp only at this
      rw [this, o2.val]
      simp only
      rw [ev, o1.un.read r.H (by omega), q.un.read r.H o.hin, o.hv]
      simp [issTapStep]
    · rw [s4.outside o.hpos (c, f, d, t) (fun k e => hd (by simp at e; exact ⟨e.2.2.1.symm, e.2.2.2.symm⟩)),
        o2.un.read r.H (by rw [o1.next]; omega), o1.un.read r.H (by omega), q.un.read r.H o.hin, o.hv]
      simp [issTapStep, hd]

/-- `iss_updates_with_H` on the heap refines the functional model. -/
theorem issUpdatesMem_spec (hs : s ≤ C) {h : Heap} (hb : BackwardRuns h) (X : Ref (I3 s F N))
    (Xbar : Ref (I4 C F T N)) (W : Ref (I3 s F C)) (H : Ref (I4 s F C T)) (w : Ref (I3 s F N)) (eps : ℝ)
    (ZJ : Option (Ref (I3 (C - s) F N) × Ref (I3 (C - s) F s)))
    (hX : X.id < h.next) (hB : Xbar.id < h.next) (hW : W.id < h.next) (hH : H.id < h.next) (hw : w.id < h.next)
    (hZJ : ∀ z ∈ ZJ, z.1.id < h.next ∧ z.2.id < h.next) :
    Ok (fun r h' => Own h X.id h' r (issUpdates (fun c f t n => h.read Xbar (c, f, t, n))
        (fun c f n => h.readR w (c, f, n)) eps
        (ZJ.map fun z => (fun c f n => h.read z.1 (c, f, n), fun c f d => h.read z.2 (c, f, d)))
        ⟨fun c f n => h.read X (c, f, n), fun c f d => h.read W (c, f, d), fun c f d t => h.read H (c, f, d, t)⟩))
      (issUpdatesMem hs X Xbar W H w eps ZJ h) := by
  refine Ok.read (Ok.out fun H1 h1 o1 => Ok.read (Ok.out fun W1 h2 o2 => ?_))
  have b1 := o1.back hb (by simp)
  have b2 := o2.back b1 (by simp)
  have n1 := o1.next
  have n2 := o2.next
  have i1 := o1.id
  have i2 := o2.id
  have start : Own h X.id h2 ⟨X, W1, H1⟩ ⟨fun c f n => h.read X (c, f, n), fun c f d => h.read W (c, f, d),
      fun c f d t => h.read H (c, f, d, t)⟩ := by
    refine ⟨o1.un.trans o2.un, b2, ?_, Or.inl rfl, ?_, ?_, ?_, ?_, ?_, ?_, ?_, ?_, ?_, o2.inj, o1.inj, ?_, ?_, ?_⟩
    any_goals (simp only []; omega)
    · refine o2.ne (o1.ne (fun p hp => ?_) (by simp)) (by simp)
      have := (hb p hp).1
      simp only []; omega
    · refine o2.ne (o1.ne (fun p hp => ?_) (by simp)) (by simp)
      have := (hb p hp).1
      simp only []; omega
    · intro c f n
      simp only
      rw [(o1.un.trans o2.un).read X hX]
    · intro c f n
      simp only
      rw [o2.val, o1.un.read W hW]
    · intro c f d t
      simp only
      rw [o2.un.read H1 (by omega), o1.val]
  refine Ok.bind (forEach_inv (P := fun h' r v => Own h X.id h' r v)
    (step := issSrcStep (fun c f n => h.readR w (c, f, n)) eps)
    (fun h' r v i _ o => srcStep_spec o w eps hw i) h2 _ _ start) fun r2 h3 s2 => ?_
  have tapLoop : ∀ (r3 : Names s C F N T) h4 v, Own h X.id h4 r3 v → Ok (fun r' h' => Own h X.id h' r'
      ((List.finRange C).foldl (fun st src => (List.finRange T).foldl
        (fun st tap => issTapStep (fun c f n => h.readR w (c, f, n)) eps
          (fun c f t n => h.read Xbar (c, f, t, n)) st src tap) st) v))
      (forEach (List.finRange C) r3 (fun r src =>
        forEach (List.finRange T) r fun r tap => tapStep w eps Xbar r src tap) h4) := by
    intro r3 h4 v o4
    refine forEach_inv (P := fun h' r v => Own h X.id h' r v) (fun h' r v src _ o => ?_) h4 r3 v o4
    exact forEach_inv (P := fun h' r v => Own h X.id h' r v)
      (fun h' r v tap _ o => tapStep_spec o w eps hw Xbar hB src tap) h' r v o
  cases ZJ with
  | none => exact Ok.bind (Ok.pure s2) fun r3 h4 s3 => tapLoop r3 h4 _ s3
  | some zj =>
    obtain ⟨hz, hj⟩ := hZJ zj rfl
    refine Ok.bind (forEach_inv (P := fun h' r v => Own h X.id h' r v)
      (fun h' r v i _ o => bakStep_spec hs o w eps hw zj.1 hz zj.2 hj i) h3 _ _ s2) fun r3 h4 s3 => ?_
    exact tapLoop r3 h4 _ s3

end tiss
end Memory
end Torchiva
