import Verif.Proofs.MemoryTIss
import Verif.Model.MemoryAlgos

namespace Torchiva
namespace Memory

open Torchiva.Spec

variable {s C F N : ℕ} {σ : Type}

theorem actsAs_ok {m : MemModel σ F N} {model : SourceModel σ F N} (hm : ActsAs m model) {h : Heap} (ms : σ)
    {Y : Ref (I3 s F N)} (hY : Y.id < h.next) (hb : BackwardRuns h) (y : Sig s F N)
    (hy : ∀ k f n, h.read Y (k, f, n) = y k f n) :
    Ok (fun a h' => Untouched h h' ∧ BackwardRuns h' ∧ a.1.id < h'.next ∧
        (∀ k f n, h'.readR a.1 (k, f, n) = (model s ms y).1 k f n) ∧ a.2 = (model s ms y).2) (m s ms Y h) := by
  obtain ⟨r, h', e, u, b, ex, v⟩ := hm s ms Y h hY hb
  have : (fun k f n => h.read Y (k, f, n)) = y := by funext k f n; exact hy k f n
  rw [this] at e v
  exact ⟨_, _, e, u, b, ex, v, rfl⟩

theorem Sim.out' {ι β : Type} [Encodable ι] {h0 h : Heap} {Q : Ref ι → Heap → β → Prop} {ids : List ℕ} {f : ι → ℂ}
    {b : β} (hk : ∀ r h', IsOut h ids f r h' → Untouched h0 h' ∧ BackwardRuns h' ∧ Q r h' b) :
    Sim h0 Q (Memory.out ids f h) (.ok b) := by
  obtain ⟨u, hb, q⟩ := hk _ _ (isOut h ids f)
  exact ⟨u, hb, _, rfl, q⟩

theorem Sim.outV {ι α β β' : Type} [Encodable ι] {h0 h : Heap} {Q : α → Heap → β → Prop} {ids : List ℕ}
    {e : Except Err β'} {g : β' → ι → ℂ} {k : Ref ι × β' → Mem α} {f : β' → Except Err β} (u : Untouched h0 h)
    (hb : BackwardRuns h) (hk : ∀ b r h', IsOut h ids (g b) r h' → Sim h0 Q (k (r, b) h') (f b)) :
    Sim h0 Q ((Memory.outV ids e g >>= k) h) (e >>= f) := by
  cases e with
  | error e => exact ⟨u, hb, rfl⟩
  | ok b => exact hk b _ _ (isOut h ids (g b))

theorem Sim.lift {α β β' : Type} {h0 h : Heap} {Q : α → Heap → β → Prop} {e : Except Err β'}
    {k : β' → Mem α} {f : β' → Except Err β} (u : Untouched h0 h) (hb : BackwardRuns h)
    (hk : ∀ b, Sim h0 Q (k b h) (f b)) :
    Sim h0 Q ((Memory.lift e >>= k) h) (e >>= f) := by
  cases e with
  | error e => exact ⟨u, hb, rfl⟩
  | ok b => exact hk b

theorem laplaceMem_actsAs (eps : ℝ) : ActsAs (laplaceMem eps : MemModel Unit F N) (laplaceModel eps) := by
  intro s ms Y h hY hb
  have o := isOut h [Y.id] fun i : I3 s F N =>
    (laplaceForward eps (fun k f n => h.read Y (k, f, n)) i.1 i.2.1 i.2.2 : ℂ)
  refine ⟨_, _, rfl, o.un, o.back hb (by simpa using (show Y.id < h.next from hY)), ?_, fun k f n => ?_⟩
  · show _ < _
    rw [o.next]; exact Nat.lt_succ_self _
  · simp only [Heap.readR]
    rw [o.val]
    simp [laplaceModel]

theorem gaussMem_actsAs (eps : ℝ) : ActsAs (gaussMem eps : MemModel Unit F N) (gaussModel eps) := by
  intro s ms Y h hY hb
  have o := isOut h [Y.id] fun i : I3 s F N =>
    (gaussForward eps (fun k f n => h.read Y (k, f, n)) i.1 i.2.1 i.2.2 : ℂ)
  refine ⟨_, _, rfl, o.un, o.back hb (by simpa using (show Y.id < h.next from hY)), ?_, fun k f n => ?_⟩
  · show _ < _
    rw [o.next]; exact Nat.lt_succ_self _
  · simp only [Heap.readR]
    rw [o.val]
    simp [gaussModel]

/-- Loop invariant of `AuxIVA_IP2.forward`. -/
structure Ip2Rel (h0 : Heap) (fresh : Prop) (r : Ip2Names σ F N) (h : Heap) (st : Ip2State σ F N) : Prop where
  xin : r.X.id < h.next
  ain : r.A.id < h.next
  new : fresh → h0.next ≤ r.X.id
  ms : r.ms = st.ms
  xv : ∀ c f n, h.read r.X (c, f, n) = st.X c f n
  av : ∀ f a b, h.read r.A (f, a, b) = st.A f a b

theorem ip2Epoch_spec {h0 h : Heap} {Xo : Ref (I3 2 F N)} (hX : Xo.id < h0.next) {xv : Sig 2 F N}
    (xval : ∀ c f n, h0.read Xo (c, f, n) = xv c f n) {m : MemModel σ F N} {model : SourceModel σ F N}
    (hm : ActsAs m model) (eps : ℝ) {p : Prop} {r : Ip2Names σ F N} {st : Ip2State σ F N} (u : Untouched h0 h)
    (hb : BackwardRuns h) (q : Ip2Rel h0 p r h st) :
    Sim h0 (Ip2Rel h0 True) (ip2EpochMem Xo m eps r h) (ip2Epoch xv model eps st) := by
  unfold ip2EpochMem ip2Epoch
  refine Sim.bindOk (actsAs_ok hm r.ms q.xin hb st.X q.xv) ?_
  rintro ⟨wm, ms'⟩ h1 ⟨u1, b1, win, wval, ems⟩
  dsimp only at win wval ems ⊢
  refine Sim.read (Sim.out fun g h2 o2 => Sim.readR (Sim.out fun Xn h3 o3 => Sim.readR (Sim.out fun w h4 o4 =>
    Sim.readR (Sim.read ?_))))
  have := q.xin
  have := q.ain
  have := u.alive
  have := u1.alive
  have n2 := o2.next
  have n3 := o3.next
  have n4 := o4.next
  have i2 := o2.id
  have i3 := o3.id
  have i4 := o4.id
  have b2 := o2.back b1 (by simp; omega)
  have b3 := o3.back b2 (by simp; omega)
  have b4 := o4.back b3 (by simp; omega)
  have u4 : Untouched h0 h4 := u.trans (u1.trans (o2.un.trans (o3.un.trans o4.un)))
  have gval : ∀ k, h2.readR g k = clampMin ((∑ f, ∑ n, magSq (st.X k f n)) / (F * N)) 1e-5 := by
    intro k
    simp only [Heap.readR]
    rw [o2.val]
    simp only [Complex.ofReal_re, u1.read r.X q.xin, q.xv]
  have wv : ∀ k f n, h4.readR w (k, f, n) = (model 2 st.ms st.X).1 k f n *
      clampMin ((∑ f, ∑ n, magSq (st.X k f n)) / (F * N)) 1e-5 := by
    intro k f n
    simp only [Heap.readR]
    rw [o4.val]
    simp only [Complex.ofReal_re, gval]
    congr 1
    simp only [Heap.readR]
    rw [(o2.un.trans o3.un).read wm win, ← q.ms]
    exact wval k f n
  have xo : ∀ c f n, h4.read Xo (c, f, n) = xv c f n := fun c f n => by rw [u4.read Xo hX, xval]
  simp only [wv, xo]
  refine Sim.outE u4 b4 fun W Wr h5 o5 => Sim.read (Sim.out fun A h6 o6 => Sim.out fun X h7 o7 => ?_)
  have n5 := o5.next
  have i5 := o5.id
  have n6 := o6.next
  have i6 := o6.id
  have n7 := o7.next
  have i7 := o7.id
  have b5 := o5.back b4 (by simp; omega)
  have b6 := o6.back b5 (by simp; omega)
  have b7 := o7.back b6 (by simp; omega)
  refine Sim.pure (u4.trans (o5.un.trans (o6.un.trans o7.un))) b7 ⟨by simp only []; omega, by simp only []; omega,
    fun _ => by simp only []; omega, by simp only []; rw [ems, q.ms], fun c f n => ?_, fun f a b => ?_⟩
  · simp only
    rw [o7.val]
    simp only [o5.val, xo]
  · simp only
    rw [o7.un.read A (by omega), o6.val]
    simp only [o5.val]
    rfl

theorem ip2Mem_spec (nIter : ℕ) (mic : Option (Fin 2)) (eps : ℝ) {h : Heap} (hb : BackwardRuns h) (X : Ref (I3 2 F N))
    (hX : X.id < h.next) {m : MemModel σ F N} {model : SourceModel σ F N} (hm : ActsAs m model) (reset : σ → σ)
    (ms : σ) :
    Sim h (fun Y h' y => Y.id < h'.next ∧ (0 < nIter → h.next ≤ Y.id) ∧ (nIter = 0 → Y = X) ∧
        ∀ c f n, h'.read Y (c, f, n) = y c f n)
      (ip2Mem nIter mic eps X m reset ms h)
      (auxiva2Forward nIter (mic.map fun i => (i.1 : ℤ)) eps (fun c f n => h.read X (c, f, n)) model reset ms) := by
  unfold ip2Mem auxiva2Forward
  rw [dif_pos rfl, if_pos (by
    intro i hi
    simp only [Option.mem_def, Option.map_eq_some_iff] at hi
    obtain ⟨j, -, rfl⟩ := hi
    have := j.2
    constructor <;> norm_num <;> omega)]
  refine Sim.out fun W h1 o1 => Sim.set fun h2 s2 => Sim.read (Sim.out fun A h3 o3 => ?_)
  have n1 := o1.next
  have i1 := o1.id
  have n2 := s2.next
  have n3 := o3.next
  have i3 := o3.id
  have b1 := o1.back hb (by simp)
  have b2 := s2.back b1 (o1.ne (fun p hp => by have := (hb p hp).1; omega) (by simp))
  have b3 := o3.back b2 (by simp)
  have u2 : Untouched h h2 := s2.un h o1.un (by omega)
  have u3 := u2.trans o3.un
  generalize hxv : (fun c f n => h.read X (Fin.cast rfl c, f, n) : Sig 2 F N) = xv
  have xval : ∀ c f n, h.read X (c, f, n) = xv c f n := fun c f n => by rw [← hxv]; rfl
  have start : Ip2Rel h False (⟨X, A, reset ms⟩ : Ip2Names σ F N) h3 ⟨xv, fun _ => 1, fun _ => 1, reset ms⟩ := by
    refine ⟨by simp only []; omega, by simp only []; omega, False.elim, rfl, fun c f n => ?_, fun f a b => ?_⟩
    · simp only; rw [u3.read X hX, xval]
    · simp only
      rw [o3.val]
      have := s2.inside o1.inj (fun _ _ e => e) (f, a, b)
      rw [this]
      simp [Matrix.one_apply]
  have hxv' : (fun c => (fun c f n => h.read X (c, f, n)) (Fin.cast rfl c) : Sig 2 F N) = xv := by
    rw [← hxv]
  simp only [hxv']
  have loop : Sim h (fun r h' st => Ip2Rel h (0 < nIter) r h' st ∧ (nIter = 0 → r.X = X))
      (times (ip2EpochMem X m eps) nIter ⟨X, A, reset ms⟩ h3)
      (iterM (ip2Epoch xv model eps) nIter ⟨xv, fun _ => 1, fun _ => 1, reset ms⟩) := by
    cases nIter with
    | zero => exact Sim.pure u3 b3 ⟨⟨start.xin, start.ain, by simp, start.ms, start.xv, start.av⟩, fun _ => rfl⟩
    | succ n =>
      refine Sim.bind (ip2Epoch_spec hX xval hm eps u3 b3 start) fun a h' b u' b' q' => ?_
      refine (times_sim (Q := Ip2Rel h True) (fun h a b u hb q => ip2Epoch_spec hX xval hm eps u hb q) n h' a b u' b'
        q').mono fun a h b q => ⟨⟨q.xin, q.ain, fun _ => q.new trivial, q.ms, q.xv, q.av⟩, by simp⟩
  refine Sim.bind loop ?_
  rintro r h4 st u4 b4 ⟨q, qX⟩
  cases mic with
  | none => exact Sim.pure u4 b4 ⟨q.xin, q.new, qX, q.xv⟩
  | some i =>
    simp only [Option.map_some]
    by_cases hn : 0 < nIter
    · simp only [if_pos hn]
      refine Sim.read (Sim.read (Sim.out' fun r' h' o => ?_))
      have := q.xin
      have := q.ain
      have := u4.alive
      have e1 := o.id
      have e2 := o.next
      refine ⟨u4.trans o.un, o.back b4 (by simp; omega), by omega, fun _ => by omega, fun h0 => by omega,
        fun c f n => ?_⟩
      rw [o.val]
      simp only [q.av, q.xv]
      congr 2
      fin_cases i <;> simp
    · simp only [if_neg hn]
      exact Sim.pure u4 b4 ⟨q.xin, q.new, qX, q.xv⟩

/-! ## AuxIVA_IP -/

/-- Loop invariant of `AuxIVA_IP.forward`. -/
structure IpRel (h0 : Heap) (r : IpNames σ s C F N) (h : Heap) (st : IpState σ s C F N) : Prop where
  yin : r.Y.id < h.next
  win : r.W.id < h.next
  new : h0.next ≤ r.Y.id
  ms : r.ms = st.ms
  j : r.J = st.J
  yv : ∀ k f n, h.read r.Y (k, f, n) = st.Y k f n
  wv : ∀ f k c, h.read r.W (f, k, c) = st.W f k c

theorem ipEpoch_spec (hs : s ≤ C) {h0 h : Heap} {X : Ref (I3 C F N)} (hX : X.id < h0.next) {xv : Sig C F N}
    (xval : ∀ c f n, h0.read X (c, f, n) = xv c f n) {m : MemModel σ F N} {model : SourceModel σ F N}
    (hm : ActsAs m model) (eps : ℝ) {r : IpNames σ s C F N} {st : IpState σ s C F N} (u : Untouched h0 h)
    (hb : BackwardRuns h) (q : IpRel h0 r h st) :
    Sim h0 (IpRel h0) (ipEpochMem hs X m eps r h) (ipEpoch hs xv model eps st) := by
  unfold ipEpochMem ipEpoch
  refine Sim.bindOk (actsAs_ok hm r.ms q.yin hb st.Y q.yv) ?_
  rintro ⟨wm, ms'⟩ h1 ⟨u1, b1, wmin, wval, ems⟩
  dsimp only at wmin wval ems ⊢
  refine Sim.read (Sim.out fun g h2 o2 => Sim.readR (Sim.read (Sim.out fun W h3 o3 => Sim.readR (Sim.out fun w h4 o4 =>
    Sim.read (Sim.readR (Sim.read ?_))))))
  have := q.yin
  have := q.win
  have := u.alive
  have := u1.alive
  have n2 := o2.next
  have n3 := o3.next
  have n4 := o4.next
  have i2 := o2.id
  have i3 := o3.id
  have i4 := o4.id
  have b2 := o2.back b1 (by simp; omega)
  have b3 := o3.back b2 (by simp; omega)
  have b4 := o4.back b3 (by simp; omega)
  have u4 : Untouched h0 h4 := u.trans (u1.trans (o2.un.trans (o3.un.trans o4.un)))
  have gval : ∀ k, h2.readR g k = sourceGain st.Y eps k := by
    intro k
    simp only [Heap.readR]
    rw [o2.val]
    simp only [Complex.ofReal_re, u1.read r.Y q.yin, q.yv]
  have wv : ∀ k f n, h4.readR w (k, f, n) = (model s st.ms st.Y).1 k f n * sourceGain st.Y eps k := by
    intro k f n
    simp only [Heap.readR]
    rw [o4.val]
    simp only [Complex.ofReal_re, gval]
    congr 1
    simp only [Heap.readR]
    rw [(o2.un.trans o3.un).read wm wmin, ← q.ms]
    exact wval k f n
  have Wv : ∀ f k c, h4.read W (f, k, c) = st.W f k c / (clampMin (√(sourceGain st.Y eps k)) eps : ℝ) := by
    intro f k c
    rw [o4.un.read W (by omega), o3.val]
    simp only [gval]
    rw [(u1.trans o2.un).read r.W q.win, q.wv]
  have xo : ∀ c f n, h4.read X (c, f, n) = xv c f n := fun c f n => by rw [u4.read X hX, xval]
  simp only [wv, xo, Wv, q.j]
  refine Sim.outV u4 b4 fun rr Wr h5 o5 => Sim.read (Sim.out fun Y h6 o6 => ?_)
  have n5 := o5.next
  have i5 := o5.id
  have n6 := o6.next
  have i6 := o6.id
  have b5 := o5.back b4 (by simp; omega)
  have b6 := o6.back b5 (by simp; omega)
  refine Sim.pure (u4.trans (o5.un.trans o6.un)) b6 ⟨by simp only []; omega, by simp only []; omega,
    by simp only []; omega, by simp only []; rw [ems, q.ms], rfl, fun k f n => ?_, fun f k c => ?_⟩
  · simp only
    rw [o6.val]
    simp only [o5.val, xo, demix]
  · simp only
    rw [o6.un.read Wr (by omega), o5.val]

theorem ipMem_spec (hs : s ≤ C) (p : IpParams) {h : Heap} (hb : BackwardRuns h) (X : Ref (I3 C F N))
    (hX : X.id < h.next) {m : MemModel σ F N} {model : SourceModel σ F N} (hm : ActsAs m model) (reset : σ → σ)
    (ms : σ) :
    Sim h (fun Y h' o => Y.id < h'.next ∧ h.next ≤ Y.id ∧
        ∃ y ms', o = ⟨s, y, ms'⟩ ∧ ∀ c f n, h'.read Y (c, f, n) = y c f n)
      (ipMem hs p X m reset ms h)
      (auxivaForward p (some s) (fun c f n => h.read X (c, f, n)) model reset ms) := by
  unfold ipMem auxivaForward
  dsimp only
  rw [dif_pos hs]
  refine Sim.out fun W h1 o1 => Sim.set fun h2 s2 => Sim.read (Sim.out fun Y h3 o3 => Sim.read ?_)
  have n1 := o1.next
  have i1 := o1.id
  have n2 := s2.next
  have n3 := o3.next
  have i3 := o3.id
  have b1 := o1.back hb (by simp)
  have b2 := s2.back b1 (o1.ne (fun p hp => by have := (hb p hp).1; omega) (by simp))
  have b3 := o3.back b2 (by simp)
  have u2 : Untouched h h2 := s2.un h o1.un (by omega)
  have u3 := u2.trans o3.un
  generalize hxv : (fun c f n => h.read X (c, f, n) : Sig C F N) = xv
  have xval : ∀ c f n, h.read X (c, f, n) = xv c f n := fun c f n => by rw [← hxv]
  have Wv : ∀ f k c, h3.read W (f, k, c) = if k.1 = c.1 then 1 else 0 := by
    intro f k c
    rw [o3.un.read W (by omega)]
    exact s2.inside o1.inj (fun _ _ e => e) (f, k, c)
  simp only [Wv, u2.read X hX, xval]
  refine Sim.lift u3 b3 fun J0 => Sim.record fun h4 r4 => ?_
  have n4 := r4.next
  have b4 := r4.back b3 (by simp; omega)
  have u4 := u3.trans r4.un
  refine Sim.bind (times_sim (Q := IpRel h) (fun h a b u hb q => ipEpoch_spec hs hX xval hm p.eps u hb q) p.nIter h4 _
    ⟨fun k => xv (Fin.castLE hs k), fun _ => Matrix.of fun k c => if k.1 = c.1 then 1 else 0, J0, reset ms⟩ u4 b4
    ⟨by simp only []; omega, by simp only []; omega, by simp only []; omega, rfl, rfl, fun k f n => ?_, fun f k c => ?_⟩) ?_
  · simp only
    rw [r4.read, o3.val]
    simp only [u2.read X hX, xval]
  · simp only
    rw [r4.read, Wv]
    rfl
  · rintro r h5 st u5 b5 q
    have := q.yin
    have := q.win
    have := q.new
    cases hp : p.projBackMic with
    | none => exact Sim.pure u5 b5 ⟨q.yin, q.new, _, _, rfl, q.yv⟩
    | some i =>
      refine Sim.read (Sim.read ?_)
      simp only [q.wv, q.j]
      refine Sim.outE u5 b5 fun a A h6 o6 => Sim.read (Sim.out' fun r' h7 o7 => ?_)
      have i6 := o6.id
      have n6 := o6.next
      have i7 := o7.id
      have n7 := o7.next
      have b6 := o6.back b5 (by simp; omega)
      refine ⟨u5.trans (o6.un.trans o7.un), o7.back b6 (by simp; omega), by omega, by omega, _, _, rfl, fun c f n => ?_⟩
      rw [o7.val]
      simp only [q.yv, o6.val]

/-! ## WPE -/

/-- Loop invariant of `WPE.forward`. -/
structure WpeRel (h0 : Heap) (r : WpeNames σ C F N) (h : Heap) (st : WpeState σ C F N) : Prop where
  yin : r.Y.id < h.next
  new : h0.next ≤ r.Y.id
  ms : r.ms = st.ms
  yv : ∀ c f n, h.read r.Y (c, f, n) = st.Y c f n

theorem wpeStep_spec {T : ℕ} {hB h0 h : Heap} {X : Ref (I3 C F N)} {Xbar : Ref (I4 C F T N)} (u0 : Untouched h0 hB)
    (hX : X.id < hB.next) (hXb : Xbar.id < hB.next) {xv : Sig C F N} {xb : Taps C F T N}
    (xval : ∀ c f n, hB.read X (c, f, n) = xv c f n)
    (xbval : ∀ c f t n, hB.read Xbar (c, f, t, n) = xb c f t n) {m : Option (MemWpeModel σ C F N)}
    {model : Option (WpeModel σ C F N)} (hm : Spec.ActsAsWpeOption m model) (eps : ℝ) {r : WpeNames σ C F N}
    {st : WpeState σ C F N} (u : Untouched hB h) (hb : BackwardRuns h) (q : WpeRel h0 r h st) :
    Sim hB (WpeRel h0) (wpeStepMem X Xbar m eps r h) (wpeStep xv xb model eps st) := by
  have e : wpeStep xv xb model eps st = ((match model with
      | none => (wpeDefaultWeights st.Y eps).map fun w => (w, st.ms)
      | some m => .ok (m st.ms st.Y) : Except Err _) >>= fun p =>
        wpeFilter p.1 xv xb eps >>= fun H => .ok ⟨wpeDerev H xv xb, p.2⟩) := by
    unfold wpeStep
    cases model <;> rfl
  rw [e]
  unfold wpeStepMem
  have := u0.alive
  have := u.alive
  refine Sim.bind (Q' := fun (a : Ref (I2 F N) × σ) h' (b : (Fin F → Fin N → ℝ) × σ) => a.1.id < h'.next ∧ (∀ f n, h'.readR a.1 (f, n) = b.1 f n) ∧ a.2 = b.2) ?_ ?_
  · match m, model, hm with
    | none, none, _ =>
      refine Sim.read ?_
      simp only [q.yv]
      rw [show (Except.map (fun w => (w, st.ms)) (wpeDefaultWeights st.Y eps)) =
        (wpeDefaultWeights st.Y eps >>= fun w => .ok (w, st.ms)) from by cases wpeDefaultWeights st.Y eps <;> rfl]
      refine Sim.outE u hb fun w W h1 o1 => ?_
      have := q.yin
      have i1 := o1.id
      have n1 := o1.next
      refine Sim.pure (u.trans o1.un) (o1.back hb (by simp; omega)) ⟨by simp only []; omega, fun f n => ?_, q.ms⟩
      simp only [Heap.readR]
      rw [o1.val]
      simp
    | some m, some model, hm =>
      obtain ⟨w, h', e, u1, b1, ex, v⟩ := hm r.ms r.Y h q.yin hb
      have ey : (fun c f n => h.read r.Y (c, f, n)) = st.Y := by funext c f n; exact q.yv c f n
      rw [ey, q.ms] at e v
      refine ⟨?_, ?_, ?_⟩
      · simp only [q.ms]; rw [e]; exact u.trans u1
      · simp only [q.ms]; rw [e]; exact b1
      · simp only [q.ms]; rw [e]
        exact ⟨_, rfl, ex, v, rfl⟩
  · rintro ⟨wm, ms'⟩ h1 ⟨w, ms2⟩ u1 b1 ⟨win, wval, ems⟩
    dsimp only at win wval ems ⊢
    refine Sim.readR (Sim.read (Sim.read ?_))
    have xo : ∀ c f n, h1.read X (c, f, n) = xv c f n := fun c f n => by rw [u1.read X hX, xval]
    have xbo : ∀ c f t n, h1.read Xbar (c, f, t, n) = xb c f t n := fun c f t n => by rw [u1.read Xbar hXb, xbval]
    simp only [wval, xo, xbo]
    refine Sim.outE u1 b1 fun H Hr h2 o2 => Sim.read (Sim.out fun Y h3 o3 => ?_)
    have := u1.alive
    have i2 := o2.id
    have n2 := o2.next
    have i3 := o3.id
    have n3 := o3.next
    have b2 := o2.back b1 (by simp; omega)
    refine Sim.pure (u1.trans (o2.un.trans o3.un)) (o3.back b2 (by simp; omega)) ⟨by simp only []; omega,
      by simp only []; omega, ems, fun c f n => ?_⟩
    simp only
    rw [o3.val]
    simp only [o2.val]
    rfl

theorem wpeMem_spec (nIter T D : ℕ) (eps : ℝ) {h : Heap} (hb : BackwardRuns h) (X : Ref (I3 C F N))
    (hX : X.id < h.next) {m : Option (MemWpeModel σ C F N)} {model : Option (WpeModel σ C F N)} (hm : Spec.ActsAsWpeOption m model)
    (ms : σ) :
    Sim h (fun Y h' y => Y.id < h'.next ∧ h.next ≤ Y.id ∧ ∀ c f n, h'.read Y (c, f, n) = y c f n)
      (wpeMem nIter T D eps X m ms h) (wpeForward nIter T D eps (fun c f n => h.read X (c, f, n)) model ms) := by
  unfold wpeMem wpeForward wpeRun
  generalize hxv : (fun c f n => h.read X (c, f, n) : Sig C F N) = xv
  have xval : ∀ c f n, h.read X (c, f, n) = xv c f n := fun c f n => by rw [← hxv]
  refine Sim.read (Sim.out fun Xpad h1 o1 => Sim.out fun Y h2 o2 => ?_)
  have i1 := o1.id
  have n1 := o1.next
  have i2 := o2.id
  have n2 := o2.next
  have b1 := o1.back hb (by simp)
  have b2 := o2.back b1 (by simp)
  have u2 := o1.un.trans o2.un
  rw [show ∀ e : Except Err (WpeState σ C F N), Except.map (·.Y) e = (e >>= fun st => .ok st.Y) from by
    intro e; cases e <;> rfl]
  have hbar := xbar_val (h := h2) T D Xpad xv fun c f n => by
    rw [o2.un.read Xpad (by omega), o1.val]
    simp only [xval]
  have step := fun h' a b u hb q => wpeStep_spec (h0 := h) (hB := h2) (h := h') (X := X) (Xbar := xbarView (N := N) T D Xpad)
    (r := a) (st := b) u2 (by omega) (by show Xpad.id < _; omega) (xv := xv) (xb := delayedTaps xv T D)
    (fun c f n => by rw [u2.read X hX, xval]) hbar hm eps u hb q
  refine Sim.bind (Sim.weaken u2 (times_sim (Q := WpeRel h) step nIter h2 ⟨Y, ms⟩ ⟨xv, ms⟩ (Untouched.refl _) b2
    ⟨by simp only []; omega, by simp only []; omega, rfl, fun c f n => ?_⟩)) fun r h3 st u3 b3 q => ?_
  · simp only
    rw [o2.val, xval]
  · exact Sim.pure u3 b3 ⟨q.yin, q.new, q.yv⟩

/-! ## FIVE -/

/-- Loop invariant of `FIVE.forward`. -/
structure FiveRel (r : FiveNames σ F N) (h : Heap) (st : FiveState σ F N) : Prop where
  yin : r.Y.id < h.next
  ms : r.ms = st.ms
  yv : ∀ f n, h.read r.Y (f, n) = st.Y f n

theorem fiveEpoch_spec [NeZero C] (solver : Matrix (Fin C) (Fin C) ℂ → EigRes (Fin C)) (nPower : Option ℕ)
    {hB h : Heap} {Xw : Ref (I3 C F N)} {qref : Ref (I2 F C)} (hX : Xw.id < hB.next) (hq : qref.id < hB.next)
    {xv : Sig C F N} {qv : Fin F → Fin C → ℂ} (xval : ∀ c f n, hB.read Xw (c, f, n) = xv c f n)
    (qval : ∀ f c, hB.read qref (f, c) = qv f c) {m : MemModel σ F N} {model : SourceModel σ F N}
    (hm : ActsAs m model) {r : FiveNames σ F N} {st : FiveState σ F N} (u : Untouched hB h) (hb : BackwardRuns h)
    (q : FiveRel r h st) :
    Sim hB FiveRel (fiveEpochMem solver nPower Xw qref m r h) (fiveEpoch solver nPower xv qv model st) := by
  unfold fiveEpochMem fiveEpoch
  refine Sim.bindOk (actsAs_ok hm (Y := r.Y.view fun i : I3 1 F N => i.2) r.ms q.yin hb (fun _ => st.Y)
    fun k f n => q.yv f n) ?_
  rintro ⟨wm, ms'⟩ h1 ⟨u1, b1, win, wval, ems⟩
  dsimp only at win wval ems ⊢
  refine Sim.readR (Sim.read (Sim.out fun V h2 o2 => Sim.read ?_))
  have := q.yin
  have := u.alive
  have := u1.alive
  have n2 := o2.next
  have i2 := o2.id
  have b2 := o2.back b1 (by simp; omega)
  have u2 := u.trans (u1.trans o2.un)
  have x1 : ∀ c f n, h1.read Xw (c, f, n) = xv c f n := fun c f n => by rw [(u.trans u1).read Xw hX, xval]
  simp only [o2.val, x1, wval, q.ms]
  refine Sim.outE u2 b2 fun e ev h3 o3 => Sim.read (Sim.read (Sim.out fun z h4 o4 => Sim.read (Sim.out fun dw h5 o5 =>
    Sim.read (Sim.out fun Y h6 o6 => ?_))))
  have n3 := o3.next
  have i3 := o3.id
  have n4 := o4.next
  have i4 := o4.id
  have n5 := o5.next
  have i5 := o5.id
  have n6 := o6.next
  have i6 := o6.id
  have b3 := o3.back b2 (by simp; omega)
  have b4 := o4.back b3 (by simp; omega)
  have b5 := o5.back b4 (by simp; omega)
  have b6 := o6.back b5 (by simp; omega)
  refine Sim.pure (u2.trans (o3.un.trans (o4.un.trans (o5.un.trans o6.un)))) b6 ⟨by simp only []; omega,
    by simp only []; rw [ems, q.ms], fun f n => ?_⟩
  simp only
  rw [o6.val]
  simp only [o5.val, o4.val, o3.val, (u2.trans o3.un).read qref hq, qval]

theorem fiveMem_spec [NeZero C] (solver : Matrix (Fin C) (Fin C) ℂ → EigRes (Fin C)) (nIter : ℕ) (ref : Fin C)
    (nPower : Option ℕ) {h : Heap} (hb : BackwardRuns h) (X : Ref (I3 C (F + 1) N))
    (hX : X.id < h.next) {m : MemModel σ F N} {model : SourceModel σ F N} (hm : ActsAs m model) (reset : σ → σ)
    (ms : σ) :
    Sim h (fun Y h' y => Y.id < h'.next ∧ h.next ≤ Y.id ∧ ∀ c f n, h'.read Y (c, f, n) = y c f n)
      (fiveMem solver nIter ref nPower X m reset ms h)
      (fiveForward solver nIter ref nPower (fun c f n => h.read X (c, f, n)) model reset ms) := by
  unfold fiveMem fiveForward
  generalize hxv : (fun c f n => h.read X (c, f, n) : Sig C (F + 1) N) = xv
  have xval : ∀ c f n, h.read X (c, f, n) = xv c f n := fun c f n => by rw [← hxv]
  refine Sim.read (Sim.out fun Cx h1 o1 => Sim.read ?_)
  have i1 := o1.id
  have n1 := o1.next
  have b1 := o1.back hb (by simp; omega)
  simp only [o1.val, read_view, xval]
  refine Sim.outE o1.un b1 fun wh QQ h2 o2 => Sim.read (Sim.out fun Xw h3 o3 => Sim.read (Sim.out fun z h4 o4 => Sim.read
    (Sim.out fun Y h5 o5 => ?_)))
  have i2 := o2.id
  have n2 := o2.next
  have i3 := o3.id
  have n3 := o3.next
  have i4 := o4.id
  have n4 := o4.next
  have i5 := o5.id
  have n5 := o5.next
  have b2 := o2.back b1 (by simp; omega)
  have b3 := o3.back b2 (by simp; omega)
  have b4 := o4.back b3 (by simp; omega)
  have b5 := o5.back b4 (by simp; omega)
  have u5 := o1.un.trans (o2.un.trans (o3.un.trans (o4.un.trans o5.un)))
  have xwv : ∀ c f n, h3.read Xw (c, f, n) = ∑ d, (wh f).Q c d * xv d f.succ n := by
    intro c f n
    rw [o3.val]
    simp only [o2.val, if_true]
  refine Sim.bind (Sim.weaken u5 (times_sim (Q := FiveRel) (fun h a b u hb q => fiveEpoch_spec solver nPower (hB := h5)
    (Xw := Xw) (qref := QQ.view fun i => (1, i.1, ref, i.2)) (by omega) (by show QQ.id < _; omega)
    (xv := fun c f n => ∑ d, (wh f).Q c d * xv d f.succ n) (qv := fun f c => (wh f).Qinv ref c)
    (fun c f n => by rw [(o4.un.trans o5.un).read Xw (by omega), xwv]) (fun f c => ?_) hm u hb q) nIter h5
    ⟨Y, reset ms⟩ ⟨_, reset ms⟩ (Untouched.refl _) b5
    ⟨by simp only []; omega, rfl, fun f n => ?_⟩)) fun r h6 st u6 b6 q => Sim.read (Sim.out fun o h7 o7 => ?_)
  · rw [read_view, (o3.un.trans (o4.un.trans o5.un)).read QQ (by omega), o2.val]
    simp
  · simp only
    rw [o5.val]
    simp only [o4.val, xwv, o2.val, if_true]
  · have i7 := o7.id
    have n7 := o7.next
    have := q.yin
    have := u6.alive
    refine Sim.pure (u6.trans o7.un) (o7.back b6 (by simp)) ⟨by show o.id < _; omega, by show _ ≤ o.id; omega,
      fun c f n => ?_⟩
    rw [read_view, o7.val]
    simp only [q.yv]

/-! ## T_ISS -/

theorem tissForwardMem_spec (p : TissParams) (nSrc : Option ℕ) {h : Heap} (hb : BackwardRuns h) (X : Ref (I3 C F N))
    (hX : X.id < h.next) {m : MemModel σ F N} {model : SourceModel σ F N} (hm : ActsAs m model) (reset : σ → σ)
    (ms : σ) :
    Sim h (fun o h' v => ∃ (s : ℕ) (o' : TOut σ s C F N) (v' : TissOut σ s C F N), o = ⟨s, o'⟩ ∧ v = ⟨s, v'⟩ ∧
        OutRel h o' h' v')
      (tissForwardMem p nSrc X m reset ms h) (tissForward p nSrc (fun c f n => h.read X (c, f, n)) model reset ms) := by
  unfold tissForwardMem tissForward
  by_cases hs : nSrc.getD C ≤ C
  · rw [dif_pos hs, dif_pos hs]
    rw [show ∀ e : Except Err (TissOut σ (nSrc.getD C) C F N), Except.map (fun o => (⟨nSrc.getD C, o⟩ : Σ s, TissOut σ s C F N)) e =
      (e >>= fun o => .ok ⟨nSrc.getD C, o⟩) from by intro e; cases e <;> rfl]
    exact Sim.bind (tissMem_spec hs p hb X hX hm (reset ms)) fun o h' v u b q => Sim.pure u b ⟨_, o, v, rfl, rfl, q⟩
  · rw [dif_neg hs, dif_neg hs]
    exact ⟨Untouched.refl _, hb, rfl⟩

end Memory
end Torchiva
