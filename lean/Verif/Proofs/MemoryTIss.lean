import Verif.Proofs.Memory
import Verif.Model.MemoryTIss
import Verif.Spec.MemoryCalls
import Verif.Proofs.Shape
import Verif.Props.Hankel

namespace Torchiva
namespace Memory

open Torchiva.Spec

section sim
variable {α β α' β' ι : Type}

/-- The computation leaves `h0` untouched, the backward pass runs, and it returns or raises as `y` does. -/
def Sim (h0 : Heap) (Q : α → Heap → β → Prop) (x : Except Err α × Heap) (y : Except Err β) : Prop :=
  Untouched h0 x.2 ∧ BackwardRuns x.2 ∧ match y with
    | .ok b => ∃ a, x.1 = .ok a ∧ Q a x.2 b
    | .error e => x.1 = .error e

theorem Sim.bindOk {h0 : Heap} {Q : α → Heap → β → Prop} {Q' : α' → Heap → Prop} {m : Mem α'} {k : α' → Mem α}
    {h : Heap} {y : Except Err β} (hm : Ok Q' (m h)) (hk : ∀ a h', Q' a h' → Sim h0 Q (k a h') y) :
    Sim h0 Q ((m >>= k) h) y := by
  obtain ⟨a, h', e, q⟩ := hm
  have := hk a h' q
  simpa [bind_apply, e] using this

theorem Sim.bind {h0 : Heap} {Q : α → Heap → β → Prop} {Q' : α' → Heap → β' → Prop} {m : Mem α'}
    {k : α' → Mem α} {h : Heap} {y : Except Err β'} {f : β' → Except Err β} (hm : Sim h0 Q' (m h) y)
    (hk : ∀ a h' b, Untouched h0 h' → BackwardRuns h' → Q' a h' b → Sim h0 Q (k a h') (f b)) :
    Sim h0 Q ((m >>= k) h) (y >>= f) := by
  obtain ⟨u, b, q⟩ := hm
  rcases hx : m h with ⟨x1, h1⟩
  rw [hx] at u b q
  simp only at u b q
  cases y with
  | error e =>
    simp only at q
    subst q
    simp only [bind_apply, hx]
    exact ⟨u, b, rfl⟩
  | ok y =>
    obtain ⟨a, rfl, q⟩ := q
    have := hk a h1 y u b q
    rw [ok_bind']
    simpa [bind_apply, hx] using this

theorem Sim.pure {h0 h : Heap} {Q : α → Heap → β → Prop} {a : α} {b : β} (u : Untouched h0 h)
    (hb : BackwardRuns h) (q : Q a h b) : Sim h0 Q ((pure a : Mem α) h) (.ok b) := ⟨u, hb, a, rfl, q⟩

theorem Sim.read {h0 h : Heap} {Q : α → Heap → β → Prop} {r : Ref ι} {k : (ι → ℂ) → Mem α} {y : Except Err β}
    (hk : Sim h0 Q (k (h.read r) h) y) : Sim h0 Q ((Memory.read r >>= k) h) y := hk

theorem Sim.readR {h0 h : Heap} {Q : α → Heap → β → Prop} {r : Ref ι} {k : (ι → ℝ) → Mem α} {y : Except Err β}
    (hk : Sim h0 Q (k (h.readR r) h) y) : Sim h0 Q ((Memory.readR r >>= k) h) y := hk

theorem Sim.out [Encodable ι] {h0 h : Heap} {Q : α → Heap → β → Prop} {ids : List ℕ} {f : ι → ℂ}
    {k : Ref ι → Mem α} {y : Except Err β}
    (hk : ∀ r h', IsOut h ids f r h' → Sim h0 Q (k r h') y) : Sim h0 Q ((Memory.out ids f >>= k) h) y :=
  hk _ _ (isOut h ids f)

theorem Sim.set {κ : Type} {h0 h : Heap} {Q : α → Heap → β → Prop} {r : Ref ι} {g : κ → ι} {v : κ → ℂ}
    {k : Unit → Mem α} {y : Except Err β}
    (hk : ∀ h', IsSet h r g v h' → Sim h0 Q (k () h') y) : Sim h0 Q ((Memory.set r g v >>= k) h) y :=
  hk _ (isSet h r g v)

theorem Sim.outE [Encodable ι] {h0 h : Heap} {Q : α → Heap → β → Prop} {ids : List ℕ} {e : Except Err β'}
    {g : β' → ι → ℂ} {k : Ref ι → Mem α} {f : β' → Except Err β} (u : Untouched h0 h) (hb : BackwardRuns h)
    (hk : ∀ b r h', IsOut h ids (g b) r h' → Sim h0 Q (k r h') (f b)) :
    Sim h0 Q ((Memory.outE ids (e.map g) >>= k) h) (e >>= f) := by
  cases e with
  | error e => exact ⟨u, hb, rfl⟩
  | ok b => exact hk b _ _ (isOut h ids (g b))

/-- What `record` does, as a relation. -/
structure IsRecord (h : Heap) (ids : List ℕ) (h' : Heap) : Prop where
  next : h'.next = h.next
  un : Untouched h h'
  read : ∀ {κ : Type} (r : Ref κ), h'.read r = h.read r
  saved : ∀ p ∈ h'.saved, p ∈ h.saved ∨ p.1 ∈ ids
  back : BackwardRuns h → (∀ i ∈ ids, i < h.next) → BackwardRuns h'

theorem isRecord (h : Heap) (ids : List ℕ) :
    IsRecord h ids { h with saved := ids.map (fun i => (i, h.ver i)) ++ h.saved } where
  next := rfl
  un := ⟨le_rfl, fun _ _ => rfl, fun _ _ => rfl⟩
  read := fun _ => rfl
  saved := by
    intro p hp
    simp only [List.mem_append, List.mem_map] at hp
    rcases hp with ⟨i, h1, rfl⟩ | hp
    · exact .inr h1
    · exact .inl hp
  back := by
    intro hb hi p hp
    simp only [List.mem_append, List.mem_map] at hp
    rcases hp with ⟨i, h1, rfl⟩ | hp
    · exact ⟨hi i h1, rfl⟩
    · exact hb p hp

theorem Sim.record {h0 h : Heap} {Q : α → Heap → β → Prop} {ids : List ℕ} {k : Unit → Mem α} {y : Except Err β}
    (hk : ∀ h', IsRecord h ids h' → Sim h0 Q (k () h') y) : Sim h0 Q ((Memory.record ids >>= k) h) y :=
  hk _ (isRecord h ids)

theorem Sim.weaken {h0 h1 : Heap} {Q : α → Heap → β → Prop} {x : Except Err α × Heap} {y : Except Err β}
    (u : Untouched h0 h1) (s : Sim h1 Q x y) : Sim h0 Q x y := ⟨u.trans s.1, s.2⟩

theorem Sim.mono {h0 : Heap} {Q Q' : α → Heap → β → Prop} {x : Except Err α × Heap} {y : Except Err β}
    (s : Sim h0 Q x y) (hq : ∀ a h b, Q a h b → Q' a h b) : Sim h0 Q' x y := by
  refine ⟨s.1, s.2.1, ?_⟩
  have := s.2.2
  cases y with
  | error e => exact this
  | ok b =>
    obtain ⟨a, ha, q⟩ := this
    exact ⟨a, ha, hq _ _ _ q⟩

theorem Sim.result {h0 : Heap} {Q : α → Heap → β → Prop} {x : Except Err α × Heap} {y : Except Err β} {P : Prop}
    (s : Sim h0 Q x y) {a : α} (ha : x.1 = .ok a) (hq : ∀ b, Q a x.2 b → P) : P := by
  have := s.2.2
  cases y with
  | error e => simp only [ha] at this; exact absurd this (by simp)
  | ok b =>
    obtain ⟨a', ha', q⟩ := this
    rw [ha] at ha'
    cases ha'
    exact hq b q

theorem times_sim {h0 : Heap} {Q : α → Heap → β → Prop} {f : α → Mem α} {g : β → Except Err β}
    (hstep : ∀ h a b, Untouched h0 h → BackwardRuns h → Q a h b → Sim h0 Q (f a h) (g b)) :
    ∀ n h a b, Untouched h0 h → BackwardRuns h → Q a h b → Sim h0 Q (times f n a h) (iterM g n b) := by
  intro n
  induction n with
  | zero => intro h a b u hb q; exact Sim.pure u hb q
  | succ n ih =>
    intro h a b u hb q
    exact Sim.bind (hstep h a b u hb q) fun a' h' b' u' hb' q' => ih h' a' b' u' hb' q'

end sim

section tiss
variable {s C F N T : ℕ} {σ : Type}

/-- The background filter on the heap. -/
def JRel (hB h : Heap) : Option (Ref (I3 (C - s) F s)) → Option (BackJ (C - s) F s) → Prop
  | some J, some j => J.id < h.next ∧ hB.next ≤ J.id ∧ ∀ c f d, h.read J (c, f, d) = j c f d
  | none, none => True
  | _, _ => False

/-- Loop invariant of `T_ISS.forward`. -/
structure TRel (hB : Heap) (r : TNames σ s C F N T) (h : Heap) (st : TissState σ s C F N T) : Prop where
  yin : r.Y.id < h.next
  win : r.W.id < h.next
  hin : r.H.id < h.next
  ynew : hB.next ≤ r.Y.id
  wnew : hB.next ≤ r.W.id
  j : JRel hB h r.J st.J
  ms : r.ms = st.ms
  yv : ∀ c f n, h.read r.Y (c, f, n) = st.Y c f n
  wv : ∀ c f d, h.read r.W (c, f, d) = st.W c f d
  hv : ∀ c f d t, h.read r.H (c, f, d, t) = st.H c f d t

/-- The inputs of the loop body. -/
structure Ins (hB : Heap) (X : Ref (I3 C F N)) (Xbar : Ref (I4 C F T N)) (cov : Option (Covs C F T))
    (xv : Sig C F N) (xb : Taps C F T N) (cXX : Fin C → Fin F → Fin C → ℂ)
    (cXbarX : Fin C → Fin T → Fin F → Fin C → ℂ) : Prop where
  xin : X.id < hB.next
  bin : Xbar.id < hB.next
  xv : ∀ c f n, hB.read X (c, f, n) = xv c f n
  bv : ∀ c f t n, hB.read Xbar (c, f, t, n) = xb c f t n
  cov : ∀ c ∈ cov, c.XX.id < hB.next ∧ c.XbarX.id < hB.next ∧ (∀ a f d, hB.read c.XX (a, f, d) = cXX a f d) ∧
    ∀ a t f d, hB.read c.XbarX (a, t, f, d) = cXbarX a t f d

theorem demixDerevMem_spec {hB h : Heap} {X : Ref (I3 C F N)} {Xbar : Ref (I4 C F T N)} {cov : Option (Covs C F T)}
    {xv : Sig C F N} {xb : Taps C F T N} {cXX : Fin C → Fin F → Fin C → ℂ}
    {cXbarX : Fin C → Fin T → Fin F → Fin C → ℂ} (i : Ins hB X Xbar cov xv xb cXX cXbarX)
    (u : Untouched hB h) (hb : BackwardRuns h) {W : Ref (I3 s F C)} {H : Ref (I4 s F C T)}
    (hW : W.id < h.next) (hH : H.id < h.next) (w : DemixW s F C) (hh : DemixH s F C T)
    (wv : ∀ c f d, h.read W (c, f, d) = w c f d) (hv : ∀ c f d t, h.read H (c, f, d, t) = hh c f d t) :
    Ok (fun Y h' => Untouched h h' ∧ BackwardRuns h' ∧ h.next ≤ Y.id ∧ Y.id < h'.next ∧
        ∀ k f n, h'.read Y (k, f, n) = demixDerev xv xb w hh k f n)
      (demixDerevMem X Xbar W H h) := by
  have := u.alive
  have := i.xin
  have := i.bin
  refine Ok.read (Ok.read (Ok.read (Ok.read (Ok.out' fun r h' o => ⟨o.un, o.back hb (by simp; omega),
    by rw [o.id], by rw [o.id, o.next]; omega, fun k f n => ?_⟩))))
  rw [o.val]
  simp only [demixDerev, u.read X i.xin, u.read Xbar i.bin, i.xv, i.bv, wv, hv]

set_option maxHeartbeats 1000000 in
theorem oneIter_spec (hs : s ≤ C) {hB : Heap} {X : Ref (I3 C F N)} {Xbar : Ref (I4 C F T N)}
    {cov : Option (Covs C F T)} {xv : Sig C F N} {xb : Taps C F T N} {cXX : Fin C → Fin F → Fin C → ℂ}
    {cXbarX : Fin C → Fin T → Fin F → Fin C → ℂ} (i : Ins hB X Xbar cov xv xb cXX cXbarX)
    {m : MemModel σ F N} {model : SourceModel σ F N} (hm : ActsAs m model) (eps : ℝ) {h : Heap}
    {r : TNames σ s C F N T} {st : TissState σ s C F N T} (u : Untouched hB h) (hb : BackwardRuns h)
    (q : TRel hB r h st) (hcov : st.J.isSome → cov.isSome) :
    Sim h (TRel hB) (oneIterMem hs X Xbar cov m eps r h)
      (tissOneIter hs xv xb cXX cXbarX model eps st) := by
  obtain ⟨wm, h1, e1, u1, b1, ex1, ev1⟩ := hm s r.ms r.Y h q.yin hb
  have hY : (fun k f n => h.read r.Y (k, f, n)) = st.Y := by funext k f n; exact q.yv k f n
  rw [hY, q.ms] at ev1
  rw [hY, q.ms] at e1
  have e1' : m s r.ms r.Y h = (.ok (wm, (model s st.ms st.Y).2), h1) := by rw [q.ms]; exact e1
  unfold oneIterMem tissOneIter
  refine Sim.bindOk (Q' := fun a h' => a = (wm, (model s st.ms st.Y).2) ∧ h' = h1) ⟨_, _, e1', rfl, rfl⟩ ?_
  rintro _ h1' ⟨rfl, hh1⟩
  rw [hh1]
  refine Sim.read (Sim.out fun g h2 o2 => Sim.readR (Sim.out fun gs h3 o3 => Sim.record fun h4 o4 => Sim.readR
    (Sim.out fun Y h5 o5 => Sim.read (Sim.out fun W h6 o6 => Sim.read (Sim.out fun H h7 o7 => Sim.readR
    (Sim.out fun w h8 o8 => ?_))))))
  have := q.yin
  have := q.win
  have := q.hin
  have := u.alive
  have := u1.alive
  have := i.xin
  have := i.bin
  have ex1' : wm.id < h1.next := ex1
  have n2 := o2.next
  have n3 := o3.next
  have n4 := o4.next
  have n5 := o5.next
  have n6 := o6.next
  have n7 := o7.next
  have n8 := o8.next
  have i2 := o2.id
  have i3 := o3.id
  have i5 := o5.id
  have i6 := o6.id
  have i7 := o7.id
  have i8 := o8.id
  have b2 := o2.back b1 (by simp; omega)
  have b3 := o3.back b2 (by simp)
  have b4 := o4.back b3 (by simp; omega)
  have b5 := o5.back b4 (by simp; omega)
  have b6 := o6.back b5 (by simp; omega)
  have b7 := o7.back b6 (by simp; omega)
  have b8 := o8.back b7 (by simp; omega)
  have u14 : Untouched h1 h4 := o2.un.trans (o3.un.trans o4.un)
  have gval : ∀ k, h2.readR g k = sourceGain st.Y eps k := by
    intro k
    simp only [Heap.readR]
    rw [o2.val]
    have : (fun k f n => h1.read r.Y (k, f, n)) = st.Y := by
      funext k f n; rw [u1.read r.Y (by omega)]; exact q.yv k f n
    simp only [this, Complex.ofReal_re]
  have gsval : ∀ k, h4.readR gs k = √(sourceGain st.Y eps k) := by
    intro k
    simp only [Heap.readR]
    rw [o4.read, o3.val]
    simp only [Complex.ofReal_re, gval]
  have Yv : ∀ k f n, h8.read Y (k, f, n) = divide (st.Y k f n) (√(sourceGain st.Y eps k)) eps := by
    intro k f n
    rw [(o6.un.trans (o7.un.trans o8.un)).read Y (by omega), o5.val]
    simp only
    rw [gsval, u1.read r.Y (by omega), q.yv]
  have Wv : ∀ k f c, h8.read W (k, f, c) = divide (st.W k f c) (√(sourceGain st.Y eps k)) eps := by
    intro k f c
    rw [(o7.un.trans o8.un).read W (by omega), o6.val]
    simp only
    rw [gsval, (u1.trans (u14.trans o5.un)).read r.W (by omega), q.wv]
  have Hv : ∀ k f c t, h8.read H (k, f, c, t) = divide (st.H k f c t) (√(sourceGain st.Y eps k)) eps := by
    intro k f c t
    rw [o8.un.read H (by omega), o7.val]
    simp only
    rw [gsval, (u1.trans (u14.trans (o5.un.trans o6.un))).read r.H (by omega), q.hv]
  have wv : ∀ k f n, h8.readR w (k, f, n) = (model s st.ms st.Y).1 k f n * sourceGain st.Y eps k := by
    intro k f n
    simp only [Heap.readR]
    rw [o8.val]
    simp only [Complex.ofReal_re]
    rw [gval]
    congr 1
    simp only [Heap.readR]
    rw [(u14.trans (o5.un.trans (o6.un.trans o7.un))).read wm ex1']
    exact ev1 k f n
  have u8h : Untouched h h8 := u1.trans (u14.trans (o5.un.trans (o6.un.trans (o7.un.trans o8.un))))
  have u8 : Untouched hB h8 := u.trans u8h
  have WvF : (fun k f c => h8.read W (k, f, c)) = fun k f c => divide (st.W k f c) (√(sourceGain st.Y eps k)) eps := by
    funext k f c; exact Wv k f c
  have HvF : (fun k f c t => h8.read H (k, f, c, t))
      = fun k f c t => divide (st.H k f c t) (√(sourceGain st.Y eps k)) eps := by
    funext k f c t; exact Hv k f c t
  have hj := q.j
  have finish : ∀ (ZJ : Option (Ref (I3 (C - s) F N) × Ref (I3 (C - s) F s))) (zj : Option (Sig (C - s) F N × BackJ (C - s) F s))
      (h9 : Heap) (u9 : Untouched h8 h9) (b9 : BackwardRuns h9)
      (hZJ : ∀ z ∈ ZJ, z.1.id < h9.next ∧ z.2.id < h9.next)
      (hzj : ZJ.map (fun z => ((fun c f n => h9.read z.1 (c, f, n)), (fun c f d => h9.read z.2 (c, f, d)))) = zj),
      Ok (fun r' h' => ∃ x0, hB.next ≤ x0 ∧ Own h9 x0 h' r' (issUpdates xb
        (fun k f n => (model s st.ms st.Y).1 k f n * sourceGain st.Y eps k) eps zj
        ⟨fun k f n => divide (st.Y k f n) (√(sourceGain st.Y eps k)) eps,
         fun k f c => divide (st.W k f c) (√(sourceGain st.Y eps k)) eps,
         fun k f c t => divide (st.H k f c t) (√(sourceGain st.Y eps k)) eps⟩))
        (issUpdatesMem hs Y Xbar W H w eps ZJ h9) := by
    intro ZJ zj h9 u9 b9 hZJ hzj
    have a9 := u9.alive
    have := issUpdatesMem_spec hs b9 Y Xbar W H w eps ZJ (by omega) (by omega) (by omega) (by omega) (by omega) hZJ
    refine this.mono fun r' h' o => ⟨Y.id, by omega, ?_⟩
    have e1 : (fun c f t n => h9.read Xbar (c, f, t, n)) = xb := by
      funext c f t n; rw [(u8.trans u9).read Xbar i.bin, i.bv]
    have e2 : (fun c f n => h9.readR w (c, f, n)) = fun k f n => (model s st.ms st.Y).1 k f n * sourceGain st.Y eps k := by
      funext c f n
      simp only [Heap.readR]
      rw [u9.read w (by omega)]
      exact wv c f n
    have e3 : (fun c f n => h9.read Y (c, f, n)) = fun k f n => divide (st.Y k f n) (√(sourceGain st.Y eps k)) eps := by
      funext c f n; rw [u9.read Y (by omega), Yv]
    have e4 : (fun c f d => h9.read W (c, f, d)) = fun k f c => divide (st.W k f c) (√(sourceGain st.Y eps k)) eps := by
      funext c f n; rw [u9.read W (by omega), Wv]
    have e5 : (fun c f d t => h9.read H (c, f, d, t))
        = fun k f c t => divide (st.H k f c t) (√(sourceGain st.Y eps k)) eps := by
      funext c f d t; rw [u9.read H (by omega), Hv]
    rw [e1, e2, e3, e4, e5, hzj] at o
    exact o
  rcases hrJ : r.J with _ | J0 <;> rcases hsJ : st.J with _ | j0 <;> rw [hrJ, hsJ] at hj
  · -- determined
    refine Sim.bindOk (finish none none h8 (Untouched.refl _) b8 (by simp) rfl) ?_
    rintro u' h9 ⟨x0, hx0, o⟩
    refine Sim.pure (u8h.trans o.un) o.back ?_
    refine ⟨o.xin, o.win, o.hin, ?_, ?_, ?_, rfl, o.xv, o.wv, o.hv⟩
    · have := u8.alive
      rcases o.xor with h | h <;> simp only [] <;> omega
    · have := o.wnew; have := u8.alive; simp only []; omega
    · trivial
  · exact hj.elim
  · exact hj.elim
  · obtain ⟨cv, hcv⟩ := Option.isSome_iff_exists.1 (hcov (by simp [hsJ]))
    subst hcv
    obtain ⟨c1, c2, c3, c4⟩ := i.cov cv rfl
    have := u8.alive
    refine Sim.read (Sim.read (Sim.read (Sim.read ?_)))
    have eC : (fun a f d => h8.read cv.XX (a, f, d)) = cXX := by
      funext a f d; rw [u8.read cv.XX c1, c3]
    have eD : (fun a t f d => h8.read cv.XbarX (a, t, f, d)) = cXbarX := by
      funext a t f d; rw [u8.read cv.XbarX c2, c4]
    rw [WvF, HvF, eC, eD]
    refine Sim.outE u8h b8 fun j J h9 o9 => Sim.read (Sim.read (Sim.out fun Z h10 o10 => ?_))
    have i9 := o9.id
    have n9 := o9.next
    have i10 := o10.id
    have n10 := o10.next
    have b9 := o9.back b8 (by simp; omega)
    have b10 := o10.back b9 (by simp; omega)
    have Jv : (fun c f d => h9.read J (c, f, d)) = j := by
      funext c f d; rw [o9.val]
    have Xv : (fun c f n => h9.read X (c, f, n)) = xv := by
      funext c f n; rw [(u8.trans o9.un).read X i.xin, i.xv]
    refine Sim.bindOk (finish (some (Z, J)) (some (demixBackground hs xv j, j)) h10 (o9.un.trans o10.un) b10
      (by simp; omega) ?_) ?_
    · simp only [Option.map_some, Option.some.injEq, Prod.mk.injEq]
      constructor
      · funext c f n
        rw [o10.val]
        simp only
        rw [Xv, Jv]
      · rw [← Jv]
        funext c f d
        rw [o10.un.read J (by omega)]
    · rintro u' h11 ⟨x0, hx0, o⟩
      have u10 := u8.trans (o9.un.trans o10.un)
      refine Sim.pure (u8h.trans (o9.un.trans (o10.un.trans o.un))) o.back ?_
      refine ⟨o.xin, o.win, o.hin, ?_, ?_, ?_, rfl, o.xv, o.wv, o.hv⟩
      · have := u10.alive
        rcases o.xor with h | h <;> simp only [] <;> omega
      · have := o.wnew; have := u10.alive; simp only []; omega
      · have := o.un.alive
        refine ⟨by omega, by omega, fun c f d => ?_⟩
        rw [(o10.un.trans o.un).read J (by omega), ← Jv]

theorem checkpointed_sim {α β : Type} {h : Heap} {ids : List ℕ} {m : Mem α} {Q : α → Heap → β → Prop}
    {y : Except Err β} (hb : BackwardRuns h) (hi : ∀ i ∈ ids, i < h.next)
    (hQ : ∀ a h b l, Q a h b → Q a { h with saved := l } b)
    (hm : ∀ h1, IsRecord h ids h1 → Sim h1 Q (m h1) y) : Sim h Q (checkpointed ids m h) y := by
  have rec1 := isRecord h ids
  have sim := hm _ rec1
  have b1 := rec1.back hb hi
  obtain ⟨u, -, q⟩ := sim
  refine ⟨rec1.un.trans ⟨u.alive, u.same, u.version⟩, ?_, ?_⟩
  · intro p hp
    obtain ⟨p1, p2⟩ := b1 p hp
    exact ⟨p1.trans_le u.alive, (u.version p.1 p1).trans p2⟩
  · cases y with
    | error e => exact q
    | ok b =>
      obtain ⟨a, e, q⟩ := q
      exact ⟨a, e, hQ _ _ _ _ q⟩

theorem TRel.saved {hB h : Heap} {r : TNames σ s C F N T} {st : TissState σ s C F N T} (q : TRel hB r h st)
    (l : List (ℕ × ℕ)) : TRel hB r { h with saved := l } st :=
  ⟨q.yin, q.win, q.hin, q.ynew, q.wnew, q.j, q.ms, q.yv, q.wv, q.hv⟩

theorem JRel.keep {hB h h' : Heap} {J : Option (Ref (I3 (C - s) F s))} {j : Option (BackJ (C - s) F s)}
    (u : Untouched h h') (q : JRel hB h J j) : JRel hB h' J j := by
  rcases J with _ | J <;> rcases j with _ | j
  · trivial
  · exact q.elim
  · exact q.elim
  · obtain ⟨q1, q2, q3⟩ := q
    exact ⟨q1.trans_le u.alive, q2, fun c f d => by rw [u.read J q1, q3]⟩

theorem oneIterDmc_spec (hs : s ≤ C) {hB : Heap} {X : Ref (I3 C F N)} {Xbar : Ref (I4 C F T N)}
    {cov : Option (Covs C F T)} {xv : Sig C F N} {xb : Taps C F T N} {cXX : Fin C → Fin F → Fin C → ℂ}
    {cXbarX : Fin C → Fin T → Fin F → Fin C → ℂ} (i : Ins hB X Xbar cov xv xb cXX cXbarX)
    {m : MemModel σ F N} {model : SourceModel σ F N} (hm : ActsAs m model) (eps : ℝ) {h : Heap}
    {r : TNames σ s C F N T} {st : TissState σ s C F N T} (u : Untouched hB h) (hb : BackwardRuns h)
    (q : TRel hB r h st) (hcov : st.J.isSome → cov.isSome) :
    Sim h (TRel hB) (oneIterDmcMem hs X Xbar cov m eps r h)
      (tissOneIterDmc hs xv xb cXX cXbarX model eps st) := by
  have hal := u.alive
  have := i.xin
  have := i.bin
  have := q.yin
  have := q.win
  have := q.hin
  have ids : ∀ j ∈ (match r.J with
      | some J => [X.id, Xbar.id, r.W.id, r.H.id, J.id]
      | none => [X.id, Xbar.id, r.W.id, r.H.id]), j < h.next := by
    have hj := q.j
    rcases hrJ : r.J with _ | J0 <;> rcases hsJ : st.J with _ | j0 <;> rw [hrJ, hsJ] at hj
    · simp; omega
    · exact hj.elim
    · exact hj.elim
    · have := hj.1
      simp; omega
  unfold oneIterDmcMem tissOneIterDmc
  refine checkpointed_sim hb ids (fun a h b l q => q.saved l) fun h1 rec1 => ?_
  have b1 := rec1.back hb ids
  have n1 := rec1.next
  refine Sim.bindOk (demixDerevMem_spec i (u.trans rec1.un) b1 (W := r.W) (H := r.H) (by omega) (by omega) st.W st.H
    (fun c f d => by rw [rec1.read, q.wv]) (fun c f d t => by rw [rec1.read, q.hv])) ?_
  rintro Y h2 ⟨u2, b2, lo, hi, val⟩
  have q2 : TRel hB ⟨Y, r.W, r.H, r.J, r.ms⟩ h2 ⟨demixDerev xv xb st.W st.H, st.W, st.H, st.J, st.ms⟩ := by
    have u12 := rec1.un.trans u2
    have := u12.alive
    refine ⟨hi, by simp only []; omega, by simp only []; omega, by simp only []; omega, q.wnew, q.j.keep u12, q.ms, val, fun c f d => ?_,
      fun c f d t => ?_⟩
    · simp only; rw [u12.read r.W q.win, q.wv]
    · simp only; rw [u12.read r.H q.hin, q.hv]
  refine Sim.bind (Sim.weaken u2 (oneIter_spec hs i hm eps (u.trans (rec1.un.trans u2)) b2 q2 hcov)) ?_
  intro a h3 b u3 b3 q3
  have u13 := rec1.un.trans u3
  have := u13.alive
  refine Sim.pure u3 b3 ⟨by simp only []; omega, q3.win, q3.hin, q.ynew, q3.wnew, q3.j, q3.ms, fun c f n => ?_,
    q3.wv, q3.hv⟩
  simp only; rw [u13.read r.Y q.yin, q.yv]

/-- What a call hands out. -/
structure OutRel (h0 : Heap) (o : TOut σ s C F N) (h : Heap) (v : TissOut σ s C F N) : Prop where
  yin : o.Y.id < h.next
  ynew : h0.next ≤ o.Y.id
  wnew : h0.next ≤ o.W.id
  j : JRel h0 h o.J v.J
  ms : o.ms = v.ms
  yv : ∀ c f n, h.read o.Y (c, f, n) = v.Y c f n
  wv : ∀ c f d, h.read o.W (c, f, d) = v.W c f d

theorem xbar_val {h : Heap} (T D : ℕ) (Xpad : Ref (I3 C F (T + D + N))) (x : Sig C F N)
    (hx : ∀ c f n, h.read Xpad (c, f, n) = if hn : T + D ≤ n.1 then x c f ⟨n.1 - (T + D), by omega⟩ else 0) (c : Fin C)
    (f : Fin F) (t : Fin T) (n : Fin N) :
    h.read (xbarView (N := N) T D Xpad) (c, f, t, n) = delayedTaps x T D c f t n := by
  have := t.2
  unfold xbarView delayedTaps
  rw [read_view, Props.xbarRow_eq, hx]
  simp only
  by_cases hn : T + D ≤ t.1 + n.1
  · rw [dif_pos hn, dif_pos (by omega)]
    congr 2
    omega
  · rw [dif_neg hn, dif_neg (by omega)]

theorem JRel.lower {h0 hB h : Heap} {J : Option (Ref (I3 (C - s) F s))} {j : Option (BackJ (C - s) F s)}
    (u : Untouched h0 hB) (q : JRel hB h J j) : JRel h0 h J j := by
  rcases J with _ | J <;> rcases j with _ | j
  · trivial
  · exact q.elim
  · exact q.elim
  · obtain ⟨q1, q2, q3⟩ := q
    exact ⟨q1, u.alive.trans q2, q3⟩

theorem tissOneIter_J (hs : s ≤ C) {xv : Sig C F N} {xb : Taps C F T N} {cXX : Fin C → Fin F → Fin C → ℂ}
    {cXbarX : Fin C → Fin T → Fin F → Fin C → ℂ} {model : SourceModel σ F N} {eps : ℝ}
    {st st' : TissState σ s C F N T} (e : tissOneIter hs xv xb cXX cXbarX model eps st = .ok st') :
    st'.J.isSome → st.J.isSome := by
  unfold tissOneIter at e
  rcases hJ : st.J with _ | j
  · rw [hJ] at e
    simp only [pure_ok', Except.ok.injEq] at e
    rw [← e]; simp
  · simp

theorem tissOneIterDmc_J (hs : s ≤ C) {xv : Sig C F N} {xb : Taps C F T N} {cXX : Fin C → Fin F → Fin C → ℂ}
    {cXbarX : Fin C → Fin T → Fin F → Fin C → ℂ} {model : SourceModel σ F N} {eps : ℝ}
    {st st' : TissState σ s C F N T} (e : tissOneIterDmc hs xv xb cXX cXbarX model eps st = .ok st') :
    st'.J.isSome → st.J.isSome := by
  intro hj
  unfold tissOneIterDmc at e
  dsimp only at e
  generalize hst : (⟨demixDerev xv xb st.W st.H, st.W, st.H, st.J, st.ms⟩ : TissState σ s C F N T) = st1 at e
  have hJ1 : st1.J = st.J := by rw [← hst]
  rcases e2 : tissOneIter hs xv xb cXX cXbarX model eps st1 with e' | st2
  · rw [e2, err_bind'] at e; cases e
  · rw [e2, ok_bind', pure_ok'] at e
    simp only [Except.ok.injEq] at e
    rw [← e] at hj
    have := tissOneIter_J hs e2 hj
    rw [← hJ1]; exact this

set_option maxHeartbeats 1000000 in
/-- The tail of `T_ISS.forward`. -/
theorem tissTail (hs : s ≤ C) (p : TissParams) {h0 hB : Heap} {X : Ref (I3 C F N)} {Xbar : Ref (I4 C F p.nTaps N)}
    {cov : Option (Covs C F p.nTaps)} {xv : Sig C F N}
    (i : Ins hB X Xbar cov xv (delayedTaps xv p.nTaps p.nDelay) (covXX xv) (covXbarX xv (delayedTaps xv p.nTaps p.nDelay)))
    {m : MemModel σ F N} {model : SourceModel σ F N} (hm : ActsAs m model) {h : Heap}
    {r : TNames σ s C F N p.nTaps} {st : TissState σ s C F N p.nTaps} (u0 : Untouched h0 hB) (u : Untouched hB h)
    (hb : BackwardRuns h) (q : TRel hB r h st) (hcov : st.J.isSome → cov.isSome) :
    Sim h0 (OutRel h0) (tissTailMem hs p X Xbar cov m r h)
    (do
      let st ← tissLoop hs xv p.nTaps p.nDelay model p.eps p.useDmc p.nIter st
      let Y := if p.useDmc then demixDerev xv (delayedTaps xv p.nTaps p.nDelay) st.W st.H else st.Y
      match p.projBackMic with
      | some m =>
        if 0 < p.nIter then
          let a ← projectionBackWeights hs st.W st.J m
          return ⟨fun k f n => a k f * Y k f n, st.W, st.J, st.ms⟩
        else return ⟨Y, st.W, st.J, st.ms⟩
      | none => return ⟨Y, st.W, st.J, st.ms⟩) := by
  have loop : Sim hB (fun r h st => TRel hB r h st ∧ (st.J.isSome → cov.isSome))
      (times (if p.useDmc then oneIterDmcMem hs X Xbar cov m p.eps
        else oneIterMem hs X Xbar cov m p.eps) p.nIter r h)
      (tissLoop hs xv p.nTaps p.nDelay model p.eps p.useDmc p.nIter st) := by
    unfold tissLoop
    refine times_sim (fun h a b u hb q => ?_) p.nIter h r st u hb ⟨q, hcov⟩
    have strengthen : ∀ (x : Except Err (TNames σ s C F N p.nTaps) × Heap) (y : Except Err (TissState σ s C F N p.nTaps)),
        Sim h (TRel hB) x y → (∀ st', y = .ok st' → st'.J.isSome → b.J.isSome) →
        Sim hB (fun r h st => TRel hB r h st ∧ (st.J.isSome → cov.isSome)) x y := by
      intro x y sx hy
      refine ⟨u.trans sx.1, sx.2.1, ?_⟩
      have := sx.2.2
      cases y with
      | error e => exact this
      | ok st' =>
        obtain ⟨a, e, qa⟩ := this
        exact ⟨a, e, qa, fun hj => q.2 (hy st' rfl hj)⟩
    by_cases hd : p.useDmc
    · rw [if_pos hd, if_pos hd]
      refine strengthen _ _ (oneIterDmc_spec hs i hm p.eps u hb q.1 q.2) fun st' e hj => ?_
      exact tissOneIterDmc_J hs e hj
    · rw [if_neg hd, if_neg hd]
      exact strengthen _ _ (oneIter_spec hs i hm p.eps u hb q.1 q.2) fun st' e hj => tissOneIter_J hs e hj
  have loop' : Sim h0 (fun r h st => Untouched hB h ∧ TRel hB r h st)
      (times (if p.useDmc then oneIterDmcMem hs X Xbar cov m p.eps
        else oneIterMem hs X Xbar cov m p.eps) p.nIter r h)
      (tissLoop hs xv p.nTaps p.nDelay model p.eps p.useDmc p.nIter st) := by
    refine ⟨u0.trans loop.1, loop.2.1, ?_⟩
    have l1 := loop.1
    have l2 := loop.2.2
    revert l2
    cases tissLoop hs xv p.nTaps p.nDelay model p.eps p.useDmc p.nIter st with
    | error e => exact fun l2 => l2
    | ok b =>
      rintro ⟨a, ha, q⟩
      exact ⟨a, ha, l1, q.1⟩
  unfold tissTailMem
  refine Sim.bind loop' fun r' h2 st' _ b2 q2 => ?_
  obtain ⟨uB, q2⟩ := q2
  have sig : Ok (fun Y h3 => Untouched h2 h3 ∧ BackwardRuns h3 ∧ Y.id < h3.next ∧ hB.next ≤ Y.id ∧
      ∀ k f n, h3.read Y (k, f, n) = (if p.useDmc then
        demixDerev xv (delayedTaps xv p.nTaps p.nDelay) st'.W st'.H else st'.Y) k f n)
      ((if p.useDmc then demixDerevMem X Xbar r'.W r'.H else pure r'.Y : Mem (Ref (I3 s F N))) h2) := by
    by_cases hd : p.useDmc
    · simp only [if_pos hd]
      refine (demixDerevMem_spec i uB b2 (W := r'.W) (H := r'.H) q2.win q2.hin st'.W st'.H q2.wv q2.hv).mono ?_
      rintro Y h3 ⟨u3, b3, lo, hi, val⟩
      have := uB.alive
      refine ⟨u3, b3, hi, by omega, val⟩
    · simp only [if_neg hd]
      refine Ok.pure ⟨Untouched.refl _, b2, q2.yin, q2.ynew, q2.yv⟩
  refine Sim.bindOk sig ?_
  rintro Y h3 ⟨u3, b3, yin, ynew, yval⟩
  have uB3 := uB.trans u3
  have a0 := u0.alive
  have a3 := uB3.alive
  have wv3 : ∀ c f d, h3.read r'.W (c, f, d) = st'.W c f d := fun c f d => by
    rw [u3.read r'.W q2.win, q2.wv]
  have win3 : r'.W.id < h3.next := q2.win.trans_le u3.alive
  have J3 : JRel hB h3 r'.J st'.J := q2.j.keep u3
  have base : OutRel h0 (⟨Y, r'.W, r'.J, r'.ms⟩ : TOut σ s C F N) h3
      ⟨if p.useDmc then demixDerev xv (delayedTaps xv p.nTaps p.nDelay) st'.W st'.H else st'.Y, st'.W, st'.J, st'.ms⟩ :=
    ⟨yin, by simp only []; omega, by have := q2.wnew; simp only []; omega, J3.lower u0, q2.ms, yval, wv3⟩
  dsimp only
  rcases p.projBackMic with _ | mic
  · exact Sim.pure (u0.trans uB3) b3 base
  · dsimp only
    by_cases hn : 0 < p.nIter
    · rw [if_pos hn, if_pos hn]
      refine Sim.read ?_
      have jval : Ok (fun j h' => j = st'.J ∧ h' = h3) ((match r'.J with
          | some J => do
            let j ← read J
            return some fun c f d => j (c, f, d)
          | none => pure none : Mem (Option (BackJ (C - s) F s))) h3) := by
        rcases hrJ : r'.J with _ | J0 <;> rcases hsJ : st'.J with _ | j0 <;> rw [hrJ, hsJ] at J3
        · exact Ok.pure ⟨rfl, rfl⟩
        · exact J3.elim
        · exact J3.elim
        · refine Ok.read (Ok.pure ⟨?_, rfl⟩)
          congr 1
          funext c f d
          exact J3.2.2 c f d
      refine Sim.bindOk jval ?_
      rintro j h4 ⟨rfl, rfl⟩
      have eW : (fun k f c => h4.read r'.W (k, f, c)) = st'.W := by funext k f c; exact wv3 k f c
      rw [eW]
      refine Sim.outE (u0.trans uB3) b3 fun a ar h5 o5 => Sim.read (Sim.read (Sim.out fun Y' h6 o6 => ?_))
      have ids : ∀ j ∈ (r'.W.id :: (match r'.J with
          | some J => [J.id]
          | none => [])), j < h4.next := by
        rcases hrJ : r'.J with _ | J0 <;> rcases hsJ : st'.J with _ | j0 <;> rw [hrJ, hsJ] at J3
        · simp; exact win3
        · exact J3.elim
        · exact J3.elim
        · have := J3.1
          simp; omega
      have b5 := o5.back b3 ids
      have n5 := o5.next
      have i5 := o5.id
      have n6 := o6.next
      have i6 := o6.id
      have b6 := o6.back b5 (by simp; omega)
      have u46 := o5.un.trans o6.un
      refine Sim.pure (u0.trans (uB3.trans u46)) b6 ⟨by simp only []; omega, by simp only []; omega,
        base.wnew, base.j.keep u46, base.ms, fun k f n => ?_, fun c f d => ?_⟩
      · simp only
        rw [o6.val]
        simp only
        rw [o5.val, o5.un.read Y yin, yval]
      · simp only
        rw [u46.read r'.W win3, wv3]
    · rw [if_neg hn, if_neg hn]
      exact Sim.pure (u0.trans uB3) b3 base

set_option maxHeartbeats 1000000 in
theorem tissMem_spec (hs : s ≤ C) (p : TissParams) {h : Heap} (hb : BackwardRuns h) (X : Ref (I3 C F N))
    (hX : X.id < h.next) {m : MemModel σ F N} {model : SourceModel σ F N} (hm : ActsAs m model) (ms : σ) :
    Sim h (OutRel h) (tissMem hs p X m ms h)
      (tissCore hs p (fun c f n => h.read X (c, f, n)) model ms) := by
  unfold tissMem tissCore
  refine Sim.read (Sim.out fun Xpad h1 o1 => Sim.read ?_)
  have n1 := o1.next
  have i1 := o1.id
  have b1 := o1.back hb (by simp)
  generalize hxv : (fun c f n => h.read X (c, f, n) : Sig C F N) = xv
  have xval : ∀ c f n, h.read X (c, f, n) = xv c f n := fun c f n => by rw [← hxv]
  have xbv : ∀ c f t n, h1.read (xbarView (N := N) p.nTaps p.nDelay Xpad) (c, f, t, n)
      = delayedTaps xv p.nTaps p.nDelay c f t n := by
    intro c f t n
    refine xbar_val p.nTaps p.nDelay Xpad xv (fun c f n => ?_) c f t n
    rw [o1.val]
    simp only [xval]
  have xbF : (fun c f t n => h1.read (xbarView (N := N) p.nTaps p.nDelay Xpad) (c, f, t, n))
      = delayedTaps xv p.nTaps p.nDelay := by funext c f t n; exact xbv c f t n
  generalize hXb : xbarView (N := N) p.nTaps p.nDelay Xpad = Xbar at *
  have iB : Xbar.id = h.next := by rw [← hXb]; exact i1
  simp only [xbF]
  -- the covariances
  have covs : Ok (fun cov h2 => Untouched h1 h2 ∧ BackwardRuns h2 ∧ (cov.isSome ↔ s < C) ∧
      Ins h2 X Xbar cov xv (delayedTaps xv p.nTaps p.nDelay) (covXX xv)
        (covXbarX xv (delayedTaps xv p.nTaps p.nDelay)))
      ((if s < C then do
        let XX ← out (ι := I3 C F C) [X.id] fun i => covXX xv i.1 i.2.1 i.2.2
        let XbarX ← out (ι := I4 C p.nTaps F C) [Xbar.id, X.id] fun i =>
          covXbarX xv (delayedTaps xv p.nTaps p.nDelay) i.1 i.2.1 i.2.2.1 i.2.2.2
        return some ⟨XX, XbarX⟩
      else pure none : Mem (Option (Covs C F p.nTaps))) h1) := by
    by_cases hsC : s < C
    · rw [if_pos hsC]
      refine Ok.out fun XX h2 o2 => Ok.out fun XbarX h3 o3 => Ok.pure ?_
      have n2 := o2.next
      have i2 := o2.id
      have n3 := o3.next
      have i3 := o3.id
      have b2 := o2.back b1 (by simp; omega)
      have u23 := o2.un.trans o3.un
      refine ⟨u23, o3.back b2 (by simp; omega), by simp [hsC], ⟨by omega, by omega, fun c f n => ?_,
        fun c f t n => ?_, ?_⟩⟩
      · rw [(o1.un.trans u23).read X hX, xval]
      · rw [u23.read Xbar (by omega), xbv]
      · rintro c hc
        simp only [Option.mem_def, Option.some.injEq] at hc
        subst hc
        refine ⟨by simp only []; omega, by simp only []; omega, fun a f d => ?_, fun a t f d => ?_⟩
        · simp only; rw [o3.un.read XX (by omega), o2.val]
        · simp only; rw [o3.val]
    · rw [if_neg hsC]
      refine Ok.pure ⟨Untouched.refl _, b1, by simp [hsC], ⟨by omega, by omega, fun c f n => ?_, xbv, by simp⟩⟩
      rw [o1.un.read X hX, xval]
  refine Sim.bindOk covs ?_
  rintro cov hB ⟨uB, bB, hcov, ins⟩
  have u0 : Untouched h hB := o1.un.trans uB
  have a0 := u0.alive
  refine Sim.out fun W h3 o3 => Sim.out fun eye h4 o4 => Sim.read (Sim.set fun h5 s5 => Sim.out fun H h6 o6 => ?_)
  have n3 := o3.next
  have i3 := o3.id
  have n4 := o4.next
  have i4 := o4.id
  have n5 := s5.next
  have n6 := o6.next
  have i6 := o6.id
  have b3 := o3.back bB (by simp)
  have b4 := o4.back b3 (by simp)
  have w4 : ∀ q ∈ h4.saved, q.1 ≠ W.id := by
    refine o4.ne (o3.ne (fun q hq => ?_) (by simp)) (by simp)
    have := (bB q hq).1
    omega
  have b5 := s5.back b4 w4
  have b6 := o6.back b5 (by simp)
  have uB5 : Untouched hB h5 := s5.un hB (o3.un.trans o4.un) (by omega)
  have uB6 : Untouched hB h6 := uB5.trans o6.un
  have wv : ∀ k f c, h6.read W (k, f, c) = (if k.1 = c.1 then 1 else 0 : ℂ) := by
    intro k f c
    rw [o6.un.read W (by omega)]
    have := s5.inside o3.inj (fun _ _ e => e) (k, f, c)
    rw [this, o4.val]
  have hv : ∀ k f c t, h6.read H (k, f, c, t) = 0 := by
    intro k f c t
    rw [o6.val]
  have wF : (fun k f c => h6.read W (k, f, c)) = fun (k : Fin s) (_ : Fin F) (c : Fin C) => (if k.1 = c.1 then 1 else 0 : ℂ) := by
    funext k f c; exact wv k f c
  have hF : (fun k f c t => h6.read H (k, f, c, t)) = fun (_ : Fin s) (_ : Fin F) (_ : Fin C) (_ : Fin p.nTaps) => (0 : ℂ) := by
    funext k f c t; exact hv k f c t
  have start : Sim h (fun J h7 (st : TissState σ s C F N p.nTaps) => Untouched hB h7 ∧ Untouched h6 h7 ∧ JRel hB h7 J st.J ∧
      (st.J.isSome → cov.isSome) ∧
      st.W = (fun k _ c => if k.1 = c.1 then 1 else 0) ∧ st.H = (fun _ _ _ _ => 0) ∧ st.ms = ms ∧
      st.Y = demixDerev xv (delayedTaps xv p.nTaps p.nDelay) st.W st.H)
      ((match (generalizing := false) cov with
      | some cov => do
        let w ← read W
        let hh ← read H
        let cXX ← read cov.XX
        let cXbarX ← read cov.XbarX
        let J ← outE (ι := I3 (C - s) F s) [W.id, H.id, cov.XX.id, cov.XbarX.id]
          ((backgroundUpdate hs (fun k f c => w (k, f, c)) (fun k f c t => hh (k, f, c, t))
            (fun c f d => cXX (c, f, d)) (fun c t f d => cXbarX (c, t, f, d)) p.eps).map
              fun J i => J i.1 i.2.1 i.2.2)
        return some J
      | none => pure none : Mem (Option (Ref (I3 (C - s) F s)))) h6)
      (tissInit hs xv p.nTaps p.nDelay p.eps ms) := by
    unfold tissInit
    dsimp only
    rcases cov with _ | cov
    · have hsC : ¬ s < C := by simpa using hcov
      rw [if_neg hsC]
      exact Sim.pure (u0.trans uB6) b6 ⟨uB6, Untouched.refl _, trivial, by simp, rfl, rfl, rfl, rfl⟩
    · have hsC : s < C := by simpa using hcov
      rw [if_pos hsC]
      obtain ⟨c1, c2, c3, c4⟩ := ins.cov cov rfl
      have eC : (fun a f d => h6.read cov.XX (a, f, d)) = covXX xv := by
        funext a f d; rw [uB6.read cov.XX c1, c3]
      have eD : (fun a t f d => h6.read cov.XbarX (a, t, f, d))
          = covXbarX xv (delayedTaps xv p.nTaps p.nDelay) := by
        funext a t f d; rw [uB6.read cov.XbarX c2, c4]
      refine Sim.read (Sim.read (Sim.read (Sim.read ?_)))
      rw [wF, hF, eC, eD]
      refine Sim.outE (u0.trans uB6) b6 fun j J h7 o7 => ?_
      have n7 := o7.next
      have i7 := o7.id
      refine Sim.pure (u0.trans (uB6.trans o7.un)) (o7.back b6 (by simp; omega))
        ⟨uB6.trans o7.un, o7.un, ⟨by omega, by omega, fun c f d => ?_⟩, by simp, rfl, rfl, rfl, rfl⟩
      rw [o7.val]
  refine Sim.bind start ?_
  rintro J h7 st - b7 ⟨uB7, u67, hJ, hJc, eW, eH, ems, eY⟩
  have a7 := u67.alive
  refine Sim.bindOk (demixDerevMem_spec ins uB7 b7 (W := W) (H := H) (by omega) (by omega) st.W st.H
    (fun c f d => by rw [u67.read W (by omega), wv, eW]) (fun c f d t => by rw [u67.read H (by omega), hv, eH])) ?_
  rintro Y h8 ⟨u78, b8, ylo, yhi, yval⟩
  have a8 := u78.alive
  refine tissTail hs p ins hm u0 (uB7.trans u78) b8 ⟨yhi, by simp only []; omega, by simp only []; omega,
    by simp only []; omega, by simp only []; omega, hJ.keep u78, ems.symm, fun c f n => ?_, fun c f d => ?_,
    fun c f d t => ?_⟩ hJc
  · simp only; rw [yval, eY]
  · simp only; rw [(u67.trans u78).read W (by omega), wv, eW]
  · simp only; rw [(u67.trans u78).read H (by omega), hv, eH]

end tiss
end Memory
end Torchiva
