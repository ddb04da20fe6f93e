import Verif.Proofs.TensorEigh
import Verif.Spec.TensorBeamformer

/-! Beamformers on tensors. -/

namespace Torchiva

open Matrix

set_option linter.unusedSimpArgs false

attribute [local simp] ok_bind' err_bind' pure_ok' comb_self comb_one_left comb_one_right bcast_self
  bcast_nil_left bcast_nil_right bcast_cons bcastTo sel pick onDim unsq swap01 swap12 move13
  reduceKeep maxKeep reduce bindLabel bindOp bindOps einsum matmul List.lookup catS
  Ten.map Ten.map2 Ten.read bIdx sumOver opIdx einsumT bnat bIdx_inside Ten.swapIdx01 Ten.swapIdx12

/-! ## Comparison -/

section ok
variable {b : Shape}

theorem Batched.toOk {ρ A : Type} {R : ρ → (List ℕ → A) → Prop} {x : Except Err ρ} {y : List ℕ → Except Err A}
    (h : Batched b R x y) : BatchedOk b R x y := by
  cases x with
  | ok t => exact h
  | error e => exact ⟨h.choose, e, h.choose_spec⟩

theorem BatchedOk.pure {ρ A : Type} {R : ρ → (List ℕ → A) → Prop} {t : ρ} {a : List ℕ → A} (h : R t a) :
    BatchedOk b R (.ok t) fun β => .ok (a β) := ⟨a, fun _ _ => rfl, h⟩

theorem BatchedOk.bind {ρ ρ' A A' : Type} {R : ρ → (List ℕ → A) → Prop}
    {S : ρ' → (List ℕ → A') → Prop} {x : Except Err ρ} {y : List ℕ → Except Err A}
    {k : ρ → Except Err ρ'} {k' : List ℕ → A → Except Err A'} (h : BatchedOk b R x y)
    (hk : ∀ t a, R t a → BatchedOk b S (k t) fun β => k' β (a β)) :
    BatchedOk b S (x >>= k) fun β => y β >>= k' β := by
  cases x with
  | error e =>
    obtain ⟨β, e', hβ, h⟩ := h
    exact ⟨β, e', hβ, by beta_reduce; rw [h]; rfl⟩
  | ok t =>
    obtain ⟨a, ha, hr⟩ := h
    have h2 := hk t a hr
    rw [ok_bind']
    cases hx : k t with
    | ok t' =>
      rw [hx] at h2
      obtain ⟨a', ha', hr'⟩ := h2
      exact ⟨a', fun β hβ => by beta_reduce; rw [ha β hβ, ok_bind']; exact ha' β hβ, hr'⟩
    | error e =>
      rw [hx] at h2
      obtain ⟨β, e', hβ, h2⟩ := h2
      exact ⟨β, e', hβ, by beta_reduce; rw [ha β hβ, ok_bind']; exact h2⟩

theorem BatchedOk.congr {ρ A : Type} {R : ρ → (List ℕ → A) → Prop} {x : Except Err ρ} {y y' : List ℕ → Except Err A}
    (h : BatchedOk b R x y) (e : ∀ β, Inside β b → y β = y' β) : BatchedOk b R x y' := by
  cases x with
  | ok t =>
    obtain ⟨a, ha, hr⟩ := h
    exact ⟨a, fun β hβ => (e β hβ).symm.trans (ha β hβ), hr⟩
  | error er =>
    obtain ⟨β, e', hβ, h⟩ := h
    exact ⟨β, e', hβ, (e β hβ).symm.trans h⟩

theorem BatchedOk.seqPre {φ ρ A : Type} {p : Shape} (e : φ → List ℕ) (he : ∀ i, Inside (e i) p)
    (hsurj : ∀ l, Inside l p → ∃ i, e i = l) {R : ρ → (List ℕ → A) → Prop} {R' : ρ → (List ℕ → φ → A) → Prop}
    {x : Except Err ρ} {y : List ℕ → Except Err A} (h : BatchedOk (p ++ b) R x y)
    (hR : ∀ t a, R t a → R' t fun β i => a (e i ++ β)) :
    BatchedOk b R' x fun β => seqAll fun i => y (e i ++ β) := by
  cases x with
  | ok t =>
    obtain ⟨a, ha, hr⟩ := h
    exact ⟨fun β i => a (e i ++ β), fun β hβ => seqAll_ok_iff.2 fun i => ha _ (inside_append (he i) hβ), hR t a hr⟩
  | error er =>
    obtain ⟨γ, e', hγ, hr⟩ := h
    obtain ⟨l, β, rfl, hl, hβ⟩ := inside_split hγ
    obtain ⟨i, rfl⟩ := hsurj l hl
    cases hs : seqAll fun i => y (e i ++ β) with
    | error er' => exact ⟨β, er', hβ, hs⟩
    | ok a =>
      have := seqAll_ok_iff.1 hs i
      rw [hr] at this
      cases this

/-- Sources and frequencies. -/
theorem BatchedOk.seq2 {ρ A : Type} {S F : ℕ} {R : ρ → (List ℕ → A) → Prop}
    {R' : ρ → (List ℕ → Fin S × Fin F → A) → Prop}
    {x : Except Err ρ} {y : List ℕ → Except Err A} (h : BatchedOk (F :: S :: b) R x y)
    (hR : ∀ t a, R t a → R' t fun β p => a ((p.2 : ℕ) :: (p.1 : ℕ) :: β)) :
    BatchedOk b R' x fun β => seqAll fun p : Fin S × Fin F => y ((p.2 : ℕ) :: (p.1 : ℕ) :: β) :=
  BatchedOk.seqPre (p := [F, S]) (fun p : Fin S × Fin F => [(p.2 : ℕ), (p.1 : ℕ)])
    (fun p => ⟨p.2.2, p.1.2, trivial⟩)
    (fun l hl => by
      match l, hl with
      | [i, j], hl => exact ⟨(⟨j, hl.2.1⟩, ⟨i, hl.1⟩), rfl⟩) h hR

/-- Sources, frequencies and frames. -/
theorem BatchedOk.seq3 {ρ A : Type} {S F N : ℕ} {R : ρ → (List ℕ → A) → Prop}
    {R' : ρ → (List ℕ → (Fin S × Fin F) × Fin N → A) → Prop}
    {x : Except Err ρ} {y : List ℕ → Except Err A} (h : BatchedOk (N :: F :: S :: b) R x y)
    (hR : ∀ t a, R t a → R' t fun β p => a ((p.2 : ℕ) :: (p.1.2 : ℕ) :: (p.1.1 : ℕ) :: β)) :
    BatchedOk b R' x fun β => seqAll fun p : (Fin S × Fin F) × Fin N => y ((p.2 : ℕ) :: (p.1.2 : ℕ) :: (p.1.1 : ℕ) :: β) :=
  BatchedOk.seqPre (p := [N, F, S]) (fun p : (Fin S × Fin F) × Fin N => [(p.2 : ℕ), (p.1.2 : ℕ), (p.1.1 : ℕ)])
    (fun p => ⟨p.2.2, p.1.2.2, p.1.1.2, trivial⟩)
    (fun l hl => by
      match l, hl with
      | [n, i, j], hl => exact ⟨((⟨j, hl.2.2.1⟩, ⟨i, hl.2.1⟩), ⟨n, hl.1⟩), rfl⟩) h hR

theorem BatchedOk.total {ρ A : Type} {R : ρ → (List ℕ → A) → Prop} {x : Except Err ρ} {y : List ℕ → Except Err A}
    (h : BatchedOk b R x y) (hy : ∀ β, Inside β b → ∃ a, y β = .ok a) : ∃ t, x = .ok t := by
  cases x with
  | ok t => exact ⟨t, rfl⟩
  | error e =>
    obtain ⟨β, e', hβ, h⟩ := h
    obtain ⟨a, ha⟩ := hy β hβ
    rw [h] at ha
    cases ha

theorem BatchedOk.alone {ρ A : Type} {R R1 : ρ → (List ℕ → A) → Prop} {x : Except Err ρ}
    {y : List ℕ → Except Err A} {x1 : List ℕ → Except Err ρ} {y1 : List ℕ → List ℕ → Except Err A}
    {Q : List ℕ → ρ → ρ → Prop} (h : BatchedOk b R x y)
    (h1 : ∀ β, Inside β b → BatchedOk [] R1 (x1 β) (y1 β)) (hy : ∀ β, y1 β [] = y β)
    (hQ : ∀ β t t1 a a1, Inside β b → R t a → R1 t1 a1 → a1 [] = a β → Q β t t1) :
    AsAloneOk b Q x x1 := by
  cases x with
  | error e =>
    obtain ⟨β, e', hβ, h⟩ := h
    have h2 := h1 β hβ
    cases hx : x1 β with
    | error e2 => exact ⟨β, e2, hβ, hx⟩
    | ok r1 =>
      rw [hx] at h2
      obtain ⟨a1, ha1, -⟩ := h2
      have h4 := ha1 [] trivial
      rw [hy, h] at h4
      cases h4
  | ok t =>
    obtain ⟨a, ha, h⟩ := h
    intro β hβ
    have h2 := h1 β hβ
    cases hx : x1 β with
    | error e =>
      rw [hx] at h2
      obtain ⟨β', e', hβ', h2⟩ := h2
      obtain rfl := inside_nil hβ'
      rw [hy, ha β hβ] at h2
      cases h2
    | ok r1 =>
      rw [hx] at h2
      obtain ⟨a1, ha1, h2⟩ := h2
      have h4 := ha1 [] trivial
      rw [hy, ha β hβ] at h4
      exact ⟨r1, rfl, hQ β t r1 a a1 hβ h h2 (Except.ok.inj h4).symm⟩

end ok

/-! ## One matrix per source and frequency -/

section mats
variable {b : Shape} {C : ℕ} {A B : Ten ℂ} {AA : List ℕ → Matrix (Fin C) (Fin C) ℂ} {k : ℕ}

theorem solveLoadedT_mat' (hC : 0 < C) {AB : List ℕ → Matrix (Fin C) (Fin k) ℂ}
    (hA : Rep2 b C C A fun β i j => AA β i j) (hB : Rep2 b C k B fun β i j => AB β i j) (load : ℝ) :
    Batched b (fun t (a : List ℕ → Matrix (Fin C) (Fin k) ℂ) => Rep2 b C k t fun β i j => a β i j)
      (solveLoadedT A B load) fun β => solveLoaded (AA β) (AB β) load := by
  obtain ⟨L, e, r⟩ := loadT_rep hC hA load
  by_cases hb : ∃ β, Inside β b
  · exact solveLoadedT_mat hb hA hB load
  · simp only [solveLoadedT, e, ok_bind']
    refine (solveT_mat r hB).congr fun β hβ => absurd ⟨β, hβ⟩ hb

theorem solveLoadedT_vec' (hC : 0 < C) {AB : List ℕ → Fin C → ℂ}
    (hA : Rep2 b C C A fun β i j => AA β i j) (hB : Rep1 b C B AB) (load : ℝ) :
    Batched b (fun t (a : List ℕ → Matrix (Fin C) Unit ℂ) => Rep1 b C t fun β i => a β i ())
      (solveLoadedT A B load) fun β => solveLoaded (AA β) (colVec (AB β)) load := by
  obtain ⟨L, e, r⟩ := loadT_rep hC hA load
  by_cases hb : ∃ β, Inside β b
  · exact solveLoadedT_vec hb hA hB load
  · simp only [solveLoadedT, e, ok_bind']
    refine (solveT_vec r hB).congr fun β hβ => absurd ⟨β, hβ⟩ hb

theorem sel0_rep2 {α : Type} {p q : ℕ} {T : Ten α} {TT : List ℕ → Fin p → Fin q → α} (h : Rep2 b p q T TT) {j : ℕ}
    (hj : j < q) : ∃ r, T.sel 0 j = .ok r ∧ Rep1 b p r fun β i => TT β i ⟨j, hj⟩ := by
  simp [Ten.sel, h.shape, hj]
  refine ⟨rfl, fun β hβ i hi => ?_⟩
  simp [hβ, h.val, hi, hj]

theorem mwfBfT_rep (ref : Fin C) {AB : List ℕ → Matrix (Fin C) (Fin C) ℂ} (hA : Rep2 b C C A fun β i j => AA β i j)
    (hB : Rep2 b C C B fun β i j => AB β i j) (eps : ℝ) :
    Batched b (fun t a => Rep1 b C t a) (mwfBfT A B ref) fun β => mwfBfRef (AA β) (AB β) eps ref := by
  unfold mwfBfT mwfBfRef
  obtain ⟨R, e, hR⟩ := hA.map2 hB fun x y => x + y
  rw [e, ok_bind']; clear e
  obtain ⟨r, e, hr⟩ := sel0_rep2 hA ref.2
  rw [e, ok_bind']; clear e
  have h := solveLoadedT_vec' (AA := fun β => AA β + AB β) (by have := ref.2; omega) hR hr 1e-6
  have h2 := Batched.bind (S := fun t a => Rep1 b C t a) (k := fun t => .ok t)
    (k' := fun _ (w : Matrix (Fin C) Unit ℂ) => .ok fun c => w c ()) h fun t a ht =>
      Batched.pure (a := fun β c => a β c ()) ht
  have e0 : ∀ x : Except Err (Ten ℂ), (x >>= fun t => Except.ok t) = x := by rintro (_ | _) <;> rfl
  rw [e0] at h2
  exact h2

theorem mulVec_rep {v : Ten ℂ} {av : List ℕ → Fin C → ℂ} (hA : Rep2 b C C A fun β i j => AA β i j)
    (hv : Rep1 b C v av) :
    ∃ t, einsumT [("cd", A), ("d", v)] "c" = .ok t ∧ Rep1 b C t fun β => AA β *ᵥ av β := by
  simp [hA.shape, hv.shape]
  refine ⟨rfl, fun β hβ i hi => ?_⟩
  simp [hβ, hi, hA.val, hv.val, hA.shape, hv.shape, Matrix.mulVec, dotProduct]

theorem nnNormalizeT_rep {v : Ten ℂ} {av : List ℕ → Fin C → ℂ} (hv : Rep1 b C v av) :
    ∃ t, nnNormalizeT v = .ok t ∧ Rep1 b C t fun β => nnNormalize (av β) := by
  simp [nnNormalizeT, normKeep, Ten.sumKeep, hv.shape]
  refine ⟨rfl, fun β hβ i hi => ?_⟩
  simp [hβ, hi, hv.val, hv.shape, nnNormalize, Finset.sum_range]

theorem rtfVectorT_rep [NeZero C] {AB : List ℕ → Matrix (Fin C) (Fin C) ℂ} (hA : Rep2 b C C A fun β i j => AA β i j)
    (hB : Rep2 b C C B fun β i j => AB β i j) (solver : Solver) (nPower : Option ℕ) :
    Batched b (fun t a => Rep1 b C t a) (rtfVectorT solver A B nPower) fun β =>
      rtfVector (solver C) (AA β) (AB β) nPower := by
  have hC : 0 < C := Nat.pos_of_ne_zero (NeZero.ne C)
  cases nPower with
  | none =>
    simp only [rtfVectorT, rtfVector]
    refine (eighT_gen hA hB solver 1e-15).bind fun r a hr => ?_
    obtain ⟨t, e, ht⟩ := sel0_rep2 hr.vec (j := C - 1) (by omega)
    rw [hr.vec.shape, List.headD_cons, e]
    have hl : (⟨C - 1, by omega⟩ : Fin C) = Fin.rev 0 := Fin.ext (by simp)
    rw [hl] at ht
    exact .pure ht
  | some n =>
    simp only [rtfVectorT, rtfVector]
    refine (solveLoadedT_mat' hC hB hA 1e-5).bind fun Phi P hP => ?_
    obtain ⟨v, e, hv⟩ := sel0_rep2 hP (j := 0) hC
    rw [e, ok_bind']; clear e
    have hstep : ∀ (m : ℕ) (v : Ten ℂ) (av : List ℕ → Fin C → ℂ), Rep1 b C v av → ∃ t, iterM (fun v => do
        let v ← einsumT [("cd", Phi), ("d", v)] "c"
        nnNormalizeT v) m v = .ok t ∧ Rep1 b C t fun β => (fun v => nnNormalize (P β *ᵥ v))^[m] (av β) := by
      intro m
      induction m with
      | zero => exact fun v av hv => ⟨v, rfl, hv⟩
      | succ m ih =>
        intro v av hv
        obtain ⟨t1, e1, h1⟩ := mulVec_rep hP hv
        obtain ⟨t2, e2, h2⟩ := nnNormalizeT_rep h1
        obtain ⟨t, e, ht⟩ := ih t2 _ h2
        refine ⟨t, ?_, ht⟩
        rw [iterM]
        simp only [e1, ok_bind', e2, e]
    obtain ⟨t, e, ht⟩ := hstep (n - 1) v _ hv
    rw [e]
    exact .pure ht

theorem mvdrRtfT_rep [NeZero C] {AB : List ℕ → Matrix (Fin C) (Fin C) ℂ} (hA : Rep2 b C C A fun β i j => AA β i j)
    (hB : Rep2 b C C B fun β i j => AB β i j) (solver : Solver) (ref : Fin C) (nPower : Option ℕ) :
    Batched b (fun t a => Rep1 b C t a) (mvdrRtfT solver A B ref nPower) fun β =>
      mvdrRtf (solver C) (AA β) (AB β) ref nPower := by
  classical
  unfold mvdrRtfT mvdrRtf
  refine (rtfVectorT_rep hA hB solver nPower).bind fun v av hv => ?_
  obtain ⟨d, e, hd⟩ := mulVec_rep hB hv
  rw [e, ok_bind']; clear e
  have h1 : ∃ t, d.pick 0 (ref : ℕ) = .ok t ∧ Rep1 b 1 t fun β _ => (AB β *ᵥ av β) ref := by
    simp [Ten.pick, hd.shape]
    refine ⟨rfl, fun β hβ i hi => ?_⟩
    simp [hd.val β hβ ref ref.2]
  obtain ⟨s, e, hs⟩ := h1
  rw [e, ok_bind']; clear e
  refine (div1_rep1 hd hs).congr fun β _ => ?_
  by_cases h : (AB β *ᵥ av β) ref = 0
  · rw [if_pos ⟨ref, h⟩]
    simp [h]
  · rw [if_neg (fun ⟨_, h'⟩ => h h')]
    simp [h]

theorem mvdrBfT_rep [NeZero C] {d : Ten ℂ} {ad : List ℕ → Fin C → ℂ} (hA : Rep2 b C C A fun β i j => AA β i j)
    (hd : Rep1 b C d ad) (eps : ℝ) :
    Batched b (fun t a => Rep1 b C t a) (mvdrBfT A d eps) fun β => mvdrBf (AA β) (ad β) eps := by
  classical
  have hC : 0 < C := Nat.pos_of_ne_zero (NeZero.ne C)
  unfold mvdrBfT mvdrBf
  refine (solveLoadedT_vec' hC hA hd eps).bind fun t a ht => ?_
  have h1 : ∃ u, einsumT [("c", d.map star), ("c", t)] "" = .ok u ∧ Rep0 b u fun β => ∑ c, star (ad β c) * a β c () := by
    simp [ht.shape, hd.shape]
    refine ⟨rfl, fun β hβ => ?_⟩
    simp [hβ, ht.shape, hd.shape, ht.val, hd.val]
  obtain ⟨u, e, hu⟩ := h1
  rw [e, ok_bind']; clear e
  dsimp only
  obtain ⟨w, e, hw⟩ := unsq0_rep ((hu.map Complex.re).map fun x => clampMin x eps)
  rw [e, ok_bind']; clear e
  refine (div1_rep1 ht (hw.map fun x : ℝ => (x : ℂ))).congr fun β _ => ?_
  by_cases h : clampMin (∑ c, star (ad β c) * a β c ()).re eps = 0
  · rw [if_pos ⟨(0 : Fin C), by rw [h]; rfl⟩]
    rw [if_pos h]
  · rw [if_neg (fun ⟨_, h'⟩ => h (Complex.ofReal_eq_zero.1 h')), if_neg h]
    rfl

theorem mvdrBf2T_rep [NeZero C] {AB : List ℕ → Matrix (Fin C) (Fin C) ℂ} (hA : Rep2 b C C A fun β i j => AA β i j)
    (hB : Rep2 b C C B fun β i j => AB β i j) (ref : Fin C) :
    Batched b (fun t a => Rep1 b C t a) (mvdrBf2T A B ref) fun β => mvdrBf2 (AA β) (AB β) ref := by
  classical
  unfold mvdrBf2T mvdrBf2
  refine Batched.bind (R := fun t (a : List ℕ → Matrix (Fin C) (Fin C) ℂ) => Rep2 b C C t fun β i j => a β i j)
    (solveT_mat hB hA) fun t a ht => ?_
  have h1 : ∃ u, t.diagonal = .ok u ∧ Rep1 b C u fun β i => a β i i := by
    simp [Ten.diagonal, ht.shape]
    refine ⟨rfl, fun β hβ i hi => ?_⟩
    simp [hβ, hi, ht.val]
  obtain ⟨u, e, hu⟩ := h1
  rw [e, ok_bind']; clear e
  have h2 : ∃ s, u.sum 0 = .ok s ∧ Rep0 b s fun β => ∑ c, a β c c := by
    simp [Ten.sum, hu.shape]
    refine ⟨rfl, fun β hβ => ?_⟩
    simp [Finset.sum_range, hβ, hu.val]
  obtain ⟨s, e, hs⟩ := h2
  rw [e, ok_bind']; clear e
  obtain ⟨s1, e, hs1⟩ := unsq0_rep hs
  rw [e, ok_bind']; clear e
  have h3 : ∃ s2, s1.unsq 0 = .ok s2 ∧ Rep2 b 1 1 s2 fun β _ _ => ∑ c, a β c c := by
    simp [Ten.unsq, hs1.shape]
    refine ⟨rfl, fun β hβ i hi j hj => ?_⟩
    obtain rfl : i = 0 := by omega
    simp [hβ, hs1.val]
  obtain ⟨s2, e, hs2⟩ := h3
  rw [e, ok_bind']; clear e
  have h4 := div2_rep (A := t) (D := s2) (b := b) (p := C) (q := C) (AA := fun β i j => a β i j)
    (AD := fun β _ _ => ∑ c, a β c c) (by simp [ht.shape, hs2.shape])
    (fun β hβ i hi j hj => by simp [hβ, hi, hj, ht.shape, ht.val])
    (fun β hβ i hi j hj => by simp [hβ, hi, hj, hs2.shape, hs2.val])
  refine (h4.bind (k' := fun β (w : Fin C → Fin C → ℂ) => .ok fun c => w c ref) fun w aw hw => ?_).congr fun β _ => ?_
  · obtain ⟨r, e, hr⟩ := sel0_rep2 hw ref.2
    rw [e]
    exact .pure hr
  · by_cases h : ∑ c, a β c c = 0
    · rw [if_pos ⟨ref, ref, h⟩, if_pos h]
      rfl
    · rw [if_neg (fun ⟨_, _, h'⟩ => h h'), if_neg h]
      rfl

/-- A solve with one right-hand side for the whole batch. -/
theorem solveT_col {v : Fin C → ℂ} (hb : 2 ≤ b.length) (hA : Rep2 b C C A fun β i j => AA β i j)
    (hs : B.shape = [1, C]) (hv : ∀ i (hi : i < C), B.val [0, i] = v ⟨i, hi⟩) :
    Batched b (fun t (a : List ℕ → Matrix (Fin C) Unit ℂ) => Rep2 b C 1 t fun β i _ => a β i ())
      (solveT A B) fun β => solve (AA β) (colVec v) := by
  classical
  have hmat : ∀ β, Inside β b → matAt A C β = AA β := by
    intro β hβ
    ext i j
    simp [matAt, hA.shape, hβ, hA.val]
  have hne : ¬ ([1, C] : Shape) = C :: b := fun h => by
    have := congrArg List.length h
    simp at this
    omega
  have hsh : ¬ (B.shape = A.shape.tail ∨ B.shape.length = 1) := by
    rw [hA.shape, hs]
    rintro (h | h)
    · exact hne h
    · simp at h
  have hs' : solveS A.shape B.shape = .ok (1 :: C :: b) := by
    rw [hA.shape, hs]
    simp [solveS, hne, bcast_nil_right]
  simp only [solveT, hs', ok_bind', if_neg hsh]
  rw [show A.shape.headD 0 = C by simp [hA.shape]]
  by_cases h : ∀ β, Inside β ((1 :: C :: b).drop 2) → IsUnit (matAt A C β).det
  · rw [if_pos h]
    refine ⟨fun β => (AA β)⁻¹ * colVec v, fun β hβ => ?_, rfl, fun β hβ i hi j hj => ?_⟩
    · have h1 := h β hβ
      rw [hmat β hβ] at h1
      exact if_pos h1
    · simp [hi, hmat β hβ, Matrix.mul_apply, Matrix.mulVec, dotProduct, hs, hβ, hj, colVec]
      refine Finset.sum_congr rfl fun k _ => ?_
      congr 1
      exact hv k k.2
  · rw [if_neg h]
    push Not at h
    obtain ⟨β, hβ, hu⟩ := h
    refine ⟨β, hβ, ?_⟩
    rw [hmat β hβ] at hu
    exact if_neg hu

end mats

section gev
variable {b : Shape} {C S F N : ℕ}

theorem gevBfT_rep [NeZero C] {A B : Ten ℂ} {AA AB : List ℕ → Matrix (Fin C) (Fin C) ℂ}
    (hA : Rep2 (F :: S :: b) C C A fun γ i j => AA γ i j) (hB : Rep2 (F :: S :: b) C C B fun γ i j => AB γ i j)
    (solver : Solver) (ref : Fin C) :
    Batched (F :: S :: b) (fun t (a : List ℕ → Fin C → ℂ) => Rep3 b F S C t fun β f s => a ((f : ℕ) :: (s : ℕ) :: β))
      (gevBfT solver A B ref) fun γ => gevBf (solver C) (AA γ) (AB γ) ref := by
  have hC : 0 < C := Nat.pos_of_ne_zero (NeZero.ne C)
  have hl : (⟨C - 1, by omega⟩ : Fin C) = Fin.rev 0 := Fin.ext (by simp)
  unfold gevBfT gevBf
  refine (eighT_gen hA hB solver 1e-15).bind fun r a hr => ?_
  rw [hr.vec.shape, List.headD_cons]
  dsimp only
  have h1 : ∃ u, (Ten.eye C C).sel 0 (C - 1) = .ok u ∧ u.shape = [C] ∧
      ∀ i (hi : i < C), u.val [i] = if (⟨i, hi⟩ : Fin C) = Fin.rev 0 then 1 else 0 := by
    simp [Ten.eye, Ten.sel, hC]
    intro i hi
    rw [← hl]
    simp [Fin.ext_iff]
  obtain ⟨u, e, hu1, hu2⟩ := h1
  rw [e, ok_bind']; clear e
  have h2 : ∃ w, u.unsq 0 = .ok w ∧ w.shape = [1, C] ∧
      ∀ i (hi : i < C), w.val [0, i] = if (⟨i, hi⟩ : Fin C) = Fin.rev 0 then 1 else 0 := by
    simp [Ten.unsq, hu1]
    exact hu2
  obtain ⟨w, e, hw1, hw2⟩ := h2
  rw [e, ok_bind']; clear e
  obtain ⟨vH, e, hvH⟩ := hermiteT_rep hr.vec
  rw [e, ok_bind']; clear e
  have h3 := solveT_col (v := fun c => if c = Fin.rev 0 then 1 else 0) (by simp) hvH hw1 hw2
  refine h3.bind fun st ast hst => ?_
  have h4 : ∃ x, st.sel 1 (ref : ℕ) = .ok x ∧ x.shape = 1 :: F :: S :: b ∧
      ∀ γ, Inside γ (F :: S :: b) → x.val (0 :: γ) = ast γ ref () := by
    simp [Ten.sel, hst.shape]
    exact fun γ hγ => hst.val γ hγ ref ref.2 0 (by norm_num)
  obtain ⟨x, e, hx1, hx2⟩ := h4
  rw [e, ok_bind']; clear e
  have h5 : ∃ x', x.swap12 = .ok x' ∧ Rep3 b F S 1 x' fun β f s _ => ast ((f : ℕ) :: (s : ℕ) :: β) ref () := by
    simp [Ten.swap12, hx1]
    refine ⟨rfl, fun β hβ f hf s hs i hi => ?_⟩
    obtain rfl : i = 0 := by omega
    simpa using hx2 (f :: s :: β) ⟨hf, hs, hβ⟩
  obtain ⟨x', e, hx'⟩ := h5
  rw [e, ok_bind']; clear e
  obtain ⟨v, e, hv⟩ := sel0_rep2 hr.vec (j := C - 1) (by omega)
  rw [hl] at hv
  rw [e, ok_bind']; clear e
  have h6 : ∃ v', v.swap12 = .ok v' ∧ Rep3 b F S C v' fun β f s c => (a ((f : ℕ) :: (s : ℕ) :: β)).vec c (Fin.rev 0) := by
    simp [Ten.swap12, hv.shape]
    refine ⟨rfl, fun β hβ f hf s hs i hi => ?_⟩
    simpa using hv.val (f :: s :: β) ⟨hf, hs, hβ⟩ i hi
  obtain ⟨v', e, hv'⟩ := h6
  rw [e, ok_bind']; clear e
  have h7 : ∃ t, Ten.map2 (fun x y => x * y) (v'.map star) x' = .ok t ∧
      Rep3 b F S C t fun β f s c => star ((a ((f : ℕ) :: (s : ℕ) :: β)).vec c (Fin.rev 0)) *
        ast ((f : ℕ) :: (s : ℕ) :: β) ref () := by
    simp [hv'.shape, hx'.shape]
    refine ⟨rfl, fun β hβ f hf s hs i hi => ?_⟩
    simp [hβ, hf, hs, hi, hv'.val, hx'.val]
  obtain ⟨t, e, ht⟩ := h7
  rw [e]
  exact .pure (a := fun γ c => star ((a γ).vec c (Fin.rev 0)) * ast γ ref ()) ht

/-! ## The forward passes -/

theorem maskCovT_rep {M i : ℕ} (hi : i < M) {masks : Ten ℝ} {X : Ten ℂ} {am : List ℕ → Fin S → Fin M → Fin F → Fin N → ℝ}
    {AX : List ℕ → Sig C F N} (hm : Rep4 b S M F N masks am) (hX : Rep3 b C F N X AX) :
    ∃ t, maskCovT masks X i = .ok t ∧ Rep4 b S F C C t fun β s f c d => maskCov (am β s ⟨i, hi⟩) (AX β) f c d := by
  simp [maskCovT, Ten.sel, hm.shape, hX.shape, hi, Ten.toC]
  refine ⟨rfl, fun β hβ s hs f hf c hc d hd => ?_⟩
  simp [hβ, hs, hf, hc, hd, hi, hm.val, hX.val, hX.shape, maskCov, mul_assoc]

/-- The matrices of sources and frequencies as a batch of matrices. -/
def pairUp (A : List ℕ → Fin S → Fin F → Matrix (Fin C) (Fin C) ℂ) : List ℕ → Matrix (Fin C) (Fin C) ℂ :=
  joinF 0 (joinF 0 A)

@[simp] theorem pairUp_cons (A : List ℕ → Fin S → Fin F → Matrix (Fin C) (Fin C) ℂ) (s : Fin S) (f : Fin F) (β : List ℕ) :
    pairUp A ((f : ℕ) :: (s : ℕ) :: β) = A β s f := by
  simp [pairUp]

theorem Rep4.pair {t : Ten ℂ} {A : List ℕ → Fin S → Fin F → Matrix (Fin C) (Fin C) ℂ}
    (h : Rep4 b S F C C t fun β s f i j => A β s f i j) : Rep2 (F :: S :: b) C C t fun γ i j => pairUp A γ i j :=
  h.join.join

/-- The filters of sources and frequencies. -/
theorem rep1_pair {t : Ten ℂ} {a : List ℕ → Fin C → ℂ} (h : Rep1 (F :: S :: b) C t a) :
    Rep3 b S F C t fun β s f => a ((f : ℕ) :: (s : ℕ) :: β) :=
  ⟨h.shape, fun β hβ s hs f hf c hc => h.val (f :: s :: β) ⟨hf, hs, hβ⟩ c hc⟩

theorem applyBfT_rep {X bf : Ten ℂ} {AX : List ℕ → Sig C F N} {a : List ℕ → Fin S × Fin F → Fin C → ℂ}
    (hX : Rep3 b C F N X AX) (hb : Rep3 b S F C bf fun β s f => a β (s, f)) :
    ∃ t, einsumT [("cfn", X), ("sfc", bf.map star)] "sfn" = .ok t ∧
      Rep3 b S F N t fun β => applyBf (AX β) (a β) := by
  simp [hX.shape, hb.shape]
  refine ⟨rfl, fun β hβ s hs f hf n hn => ?_⟩
  simp [hβ, hs, hf, hn, hX.val, hX.shape, hb.val, hb.shape, applyBf]

theorem applyBfTimeT_rep {X bf : Ten ℂ} {AX : List ℕ → Sig C F N} {a : List ℕ → (Fin S × Fin F) × Fin N → Fin C → ℂ}
    (hX : Rep3 b C F N X AX) (hb : Rep4 b S F N C bf fun β s f n => a β ((s, f), n)) :
    ∃ t, einsumT [("cfn", X), ("sfnc", bf.map star)] "sfn" = .ok t ∧
      Rep3 b S F N t fun β s f n => ∑ c, AX β c f n * star (a β ((s, f), n) c) := by
  simp [hX.shape, hb.shape]
  refine ⟨rfl, fun β hβ s hs f hf n hn => ?_⟩
  simp [hβ, hs, hf, hn, hX.val, hX.shape, hb.val, hb.shape]

theorem refMic_rep {X : Ten ℂ} {AX : List ℕ → Sig C F N} (hX : Rep3 b C F N X AX) (ref : Fin C) :
    ∃ x, X.sel 2 (ref : ℕ) = .ok x ∧ Rep2 b F N x fun β => AX β ref := by
  simp [Ten.sel, hX.shape]
  refine ⟨rfl, fun β hβ f hf n hn => ?_⟩
  simp [hX.val β hβ ref ref.2 f hf n hn]

theorem mvdrStages [NeZero C] {Rt Rn Rv X : Ten ℂ} {At An Av : List ℕ → Fin S → Fin F → Matrix (Fin C) (Fin C) ℂ}
    {AX : List ℕ → Sig C F N} (ht : Rep4 b S F C C Rt fun β s f i j => At β s f i j)
    (hn : Rep4 b S F C C Rn fun β s f i j => An β s f i j) (hv : Rep4 b S F C C Rv fun β s f i j => Av β s f i j)
    (hX : Rep3 b C F N X AX) (solver : Solver) (ref : Fin C) (nPower : Option ℕ) (eps : ℝ) :
    BatchedOk b (fun t a => Rep3 b S F N t a) (do
      let rtf ← mvdrRtfT solver Rt Rn ref nPower
      let bf ← mvdrBfT Rv rtf eps
      einsumT [("cfn", X), ("sfc", bf.map star)] "sfn") fun β => do
      let rtf ← seqAll fun p : Fin S × Fin F => mvdrRtf (solver C) (At β p.1 p.2) (An β p.1 p.2) ref nPower
      let bf ← seqAll fun p : Fin S × Fin F => mvdrBf (Av β p.1 p.2) (rtf p) eps
      return applyBf (AX β) bf := by
  have h1 := (mvdrRtfT_rep ht.pair hn.pair solver ref nPower).toOk.seq2
    (R' := fun t (a : List ℕ → Fin S × Fin F → Fin C → ℂ) => Rep3 b S F C t fun β s f => a β (s, f))
    fun t a h => rep1_pair h
  simp only [pairUp_cons] at h1
  refine h1.bind fun rtf art hrt => ?_
  have h2 := (mvdrBfT_rep hv.pair hrt.join.join eps).toOk.seq2
    (R' := fun t (a : List ℕ → Fin S × Fin F → Fin C → ℂ) => Rep3 b S F C t fun β s f => a β (s, f))
    fun t a h => rep1_pair h
  simp only [pairUp_cons, joinF_cons] at h2
  refine h2.bind fun bf abf hbf => ?_
  obtain ⟨t, e, h3⟩ := applyBfT_rep hX hbf
  rw [e]
  exact .pure h3

theorem mvdrForwardT_rep [NeZero C] {M : ℕ} {X : Ten ℂ} {AX : List ℕ → Sig C F N} {mask : MaskT}
    {m : (Fin F → Fin N → ℂ) → MaskOut S F N} (hm : MaskRep b S F N M mask m) (hX : Rep3 b C F N X AX)
    (hb : ∃ β, Inside β b) (solver : Solver) (ref : Fin C) (eps : ℝ) (mvdrType : String) (nPower : Option ℕ) :
    BatchedOk b (fun t a => Rep3 b S F N t a) (mvdrForwardT solver mask ref eps mvdrType nPower X) fun β =>
      mvdrForward (solver C) m ref eps mvdrType nPower (AX β) := by
  unfold mvdrForwardT mvdrForward
  obtain ⟨x, e, hx⟩ := refMic_rep hX ref
  rw [e, ok_bind']; clear e
  obtain ⟨t, e, am, hA, hma⟩ := hm x _ hx
  rw [e, ok_bind']; clear e
  simp only [hA.shape, List.getD_cons_succ, List.getD_cons_zero, hma]
  obtain ⟨β0, hβ0⟩ := hb
  match M, am, hA with
  | 0, am, hA => exact ⟨β0, _, hβ0, rfl⟩
  | 1, am, hA => exact ⟨β0, _, hβ0, rfl⟩
  | 2, am, hA =>
    obtain ⟨Rt, e, ht⟩ := maskCovT_rep (i := 0) (by norm_num) hA hX
    rw [if_pos rfl, e, ok_bind']; clear e
    obtain ⟨Rn, e, hn⟩ := maskCovT_rep (i := 1) (by norm_num) hA hX
    rw [e, ok_bind']; clear e
    by_cases h1 : mvdrType = "rtf"
    · simp only [if_pos h1]
      exact mvdrStages ht hn hn hX solver ref nPower eps
    · simp only [if_neg h1]
      by_cases h2 : mvdrType = "scm"
      · simp only [if_pos h2]
        have h3 := (mvdrBf2T_rep ht.pair hn.pair ref).toOk.seq2
          (R' := fun t (a : List ℕ → Fin S × Fin F → Fin C → ℂ) => Rep3 b S F C t fun β s f => a β (s, f))
          fun t a h => rep1_pair h
        simp only [pairUp_cons] at h3
        refine h3.bind fun bf abf hbf => ?_
        obtain ⟨t, e, h4⟩ := applyBfT_rep hX hbf
        rw [e]
        exact .pure h4
      · simp only [if_neg h2]
        exact ⟨β0, _, hβ0, rfl⟩
  | 3, am, hA =>
    obtain ⟨Rt, e, ht⟩ := maskCovT_rep (i := 0) (by norm_num) hA hX
    rw [if_neg (by norm_num), if_pos rfl, e, ok_bind']; clear e
    obtain ⟨Rn, e, hn⟩ := maskCovT_rep (i := 1) (by norm_num) hA hX
    rw [e, ok_bind']; clear e
    obtain ⟨Rn2, e, hn2⟩ := maskCovT_rep (i := 2) (by norm_num) hA hX
    rw [e, ok_bind']; clear e
    exact mvdrStages ht hn2 hn hX solver ref nPower eps
  | M + 4, am, hA =>
    rw [if_neg (by omega), if_neg (by omega)]
    exact ⟨β0, _, hβ0, rfl⟩

theorem maskCovT_index {M i : ℕ} (hi : M ≤ i) {masks : Ten ℝ} {X : Ten ℂ} {am : List ℕ → Fin S → Fin M → Fin F → Fin N → ℝ}
    (hm : Rep4 b S M F N masks am) : maskCovT masks X i = .error .indexError := by
  simp only [maskCovT, Ten.sel]
  rw [show sel 2 i masks.shape = .error .indexError by simp [hm.shape, not_lt.2 hi]]
  rfl

theorem mwfForward_of {M : ℕ} {m : (Fin F → Fin N → ℂ) → MaskOut S F N} {X : Sig C F N} {ref : Fin C} {a}
    (h : m (X ref) = ⟨M, a⟩) (eps : ℝ) (ti : Bool) :
    mwfForward m ref eps ti X = mwfForward (fun _ => ⟨M, a⟩) ref eps ti X := by
  unfold mwfForward
  rw [h]

theorem gevForward_of [NeZero C] {M : ℕ} {m : (Fin F → Fin N → ℂ) → MaskOut S F N} {X : Sig C F N} {ref : Fin C} {a}
    (h : m (X ref) = ⟨M, a⟩) (solver : Matrix (Fin C) (Fin C) ℂ → EigRes (Fin C)) :
    gevForward solver m ref X = gevForward solver (fun _ => ⟨M, a⟩) ref X := by
  unfold gevForward
  rw [h]

theorem scaleCovT_rep {R : Ten ℂ} {V : Ten ℝ} {AR : List ℕ → Fin S → Fin F → Matrix (Fin C) (Fin C) ℂ}
    {AV : List ℕ → Fin S → Fin F → Fin N → ℝ} (hR : Rep4 b S F C C R fun β s f i j => AR β s f i j)
    (hV : Rep3 b S F N V AV) :
    ∃ t, scaleCovT R V = .ok t ∧ Rep2 (N :: F :: S :: b) C C t fun γ i j =>
      joinF 0 (joinF 0 (joinF 0 fun β s f n => (AV β s f n : ℂ) • AR β s f)) γ i j := by
  simp [scaleCovT, Ten.unsq, Ten.toC, hR.shape, hV.shape]
  refine ⟨rfl, fun γ hγ i hi j hj => ?_⟩
  match γ, hγ with
  | n :: f :: s :: β, hγ =>
    simp [hγ.1, hγ.2.1, hγ.2.2.1, hγ.2.2.2, hi, hj, hR.val, hV.val, joinF, mul_comm]

theorem mwfForwardT_rep {M : ℕ} {X : Ten ℂ} {AX : List ℕ → Sig C F N} {mask : MaskT}
    {m : (Fin F → Fin N → ℂ) → MaskOut S F N} (hm : MaskRep b S F N M mask m) (hX : Rep3 b C F N X AX)
    (hb : ∃ β, Inside β b) (ref : Fin C) (eps : ℝ) (timeInvariant : Bool) :
    BatchedOk b (fun t a => Rep3 b S F N t a) (mwfForwardT mask ref timeInvariant X) fun β =>
      mwfForward m ref eps timeInvariant (AX β) := by
  unfold mwfForwardT
  obtain ⟨x, e, hx⟩ := refMic_rep hX ref
  rw [e, ok_bind']; clear e
  obtain ⟨t, e, am, hA, hma⟩ := hm x _ hx
  rw [e, ok_bind']; clear e
  simp only [mwfForward_of (hma _)]
  unfold mwfForward
  obtain ⟨β0, hβ0⟩ := hb
  by_cases hM : 2 ≤ M
  · simp only [dif_pos hM]
    obtain ⟨Rt, e, ht⟩ := maskCovT_rep (i := 0) (by omega) hA hX
    rw [e, ok_bind']; clear e
    obtain ⟨Rn, e, hn⟩ := maskCovT_rep (i := 1) (by omega) hA hX
    rw [e, ok_bind']; clear e
    cases timeInvariant with
    | true =>
      simp only [if_true]
      have h3 := (mwfBfT_rep ref ht.pair hn.pair eps).toOk.seq2
        (R' := fun t (a : List ℕ → Fin S × Fin F → Fin C → ℂ) => Rep3 b S F C t fun β s f => a β (s, f))
        fun t a h => rep1_pair h
      simp only [pairUp_cons] at h3
      refine h3.bind fun bf abf hbf => ?_
      obtain ⟨t, e, h4⟩ := applyBfT_rep hX hbf
      rw [e]
      exact .pure h4
    | false =>
      simp only [Bool.false_eq_true, if_false, hA.shape, List.getD_cons_succ, List.getD_cons_zero]
      by_cases h4 : M = 4
      · subst h4
        simp only [if_true, dif_pos]
        have hsel : ∀ k (hk : k < 4), ∃ V, t.sel 2 k = .ok V ∧ Rep3 b S F N V fun β s f n => am β s ⟨k, hk⟩ f n := by
          intro k hk
          simp [Ten.sel, hA.shape, hk]
          refine ⟨rfl, fun β hβ s hs f hf n hn => ?_⟩
          simp [hA.val β hβ s hs k hk f hf n hn]
        obtain ⟨Vt, e, hVt⟩ := hsel 2 (by norm_num)
        rw [e, ok_bind']; clear e
        obtain ⟨Vn, e, hVn⟩ := hsel 3 (by norm_num)
        rw [e, ok_bind']; clear e
        obtain ⟨Rt', e, ht'⟩ := scaleCovT_rep ht hVt
        rw [e, ok_bind']; clear e
        obtain ⟨Rn', e, hn'⟩ := scaleCovT_rep hn hVn
        rw [e, ok_bind']; clear e
        have h3 := (mwfBfT_rep ref ht' hn' eps).toOk.seq3
          (R' := fun t (a : List ℕ → (Fin S × Fin F) × Fin N → Fin C → ℂ) => Rep4 b S F N C t fun β s f n => a β ((s, f), n))
          fun t a h => ⟨h.shape, fun β hβ s hs f hf n hn c hc => h.val (n :: f :: s :: β) ⟨hn, hf, hs, hβ⟩ c hc⟩
        simp only [joinF_cons] at h3
        refine h3.bind fun bf abf hbf => ?_
        obtain ⟨t, e, h4⟩ := applyBfTimeT_rep hX hbf
        rw [e]
        exact .pure h4
      · simp only [if_neg h4, dif_neg h4]
        exact ⟨β0, _, hβ0, rfl⟩
  · simp only [dif_neg hM]
    match M, am, hA with
    | 0, am, hA =>
      rw [maskCovT_index (le_refl 0) hA]
      exact ⟨β0, _, hβ0, rfl⟩
    | 1, am, hA =>
      obtain ⟨Rt, e, ht⟩ := maskCovT_rep (i := 0) (by norm_num) hA hX
      rw [e, ok_bind', maskCovT_index (le_refl 1) hA]
      exact ⟨β0, _, hβ0, rfl⟩
    | M + 2, am, hA => exact absurd (by omega) hM

theorem gevForwardT_rep [NeZero C] {M : ℕ} {X : Ten ℂ} {AX : List ℕ → Sig C F N} {mask : MaskT}
    {m : (Fin F → Fin N → ℂ) → MaskOut S F N} (hm : MaskRep b S F N M mask m) (hX : Rep3 b C F N X AX)
    (hb : ∃ β, Inside β b) (solver : Solver) (ref : Fin C) :
    BatchedOk b (fun t a => Rep3 b S F N t a) (gevForwardT solver mask ref X) fun β =>
      gevForward (solver C) m ref (AX β) := by
  unfold gevForwardT
  obtain ⟨x, e, hx⟩ := refMic_rep hX ref
  rw [e, ok_bind']; clear e
  obtain ⟨t, e, am, hA, hma⟩ := hm x _ hx
  rw [e, ok_bind']; clear e
  simp only [gevForward_of (hma _)]
  unfold gevForward
  obtain ⟨β0, hβ0⟩ := hb
  by_cases hM : 2 ≤ M
  · simp only [dif_pos hM]
    obtain ⟨Rt, e, ht⟩ := maskCovT_rep (i := 0) (by omega) hA hX
    rw [e, ok_bind']; clear e
    obtain ⟨Rn, e, hn⟩ := maskCovT_rep (i := 1) (by omega) hA hX
    rw [e, ok_bind']; clear e
    have h3 := (gevBfT_rep ht.pair hn.pair solver ref).toOk.seq2
      (R' := fun t (a : List ℕ → Fin S × Fin F → Fin C → ℂ) => Rep3 b F S C t fun β f s => a β (s, f))
      fun t a h => h
    simp only [pairUp_cons] at h3
    refine h3.bind fun bf abf hbf => ?_
    have h4 : ∃ XT, X.swap12 = .ok XT ∧ Rep3 b F C N XT fun β f c n => AX β c f n := by
      simp [Ten.swap12, hX.shape]
      refine ⟨rfl, fun β hβ f hf c hc n hn => ?_⟩
      simp [hX.val β hβ c hc f hf n hn]
    obtain ⟨XT, e, hXT⟩ := h4
    rw [e, ok_bind']; clear e
    obtain ⟨Y, e, hY⟩ := bmmT_rep (AA := joinF 0 fun β f => Matrix.of fun s c => abf β (s, f) c)
      (AB := joinF 0 fun β f => Matrix.of fun c n => AX β c f n) hbf.join hXT.join
    rw [e, ok_bind']; clear e
    have h5 : ∃ Z, Y.swap12 = .ok Z ∧ Rep3 b S F N Z fun β s f n => ∑ c, abf β (s, f) c * AX β c f n := by
      simp [Ten.swap12, hY.shape]
      refine ⟨rfl, fun β hβ s hs f hf n hn => ?_⟩
      have := hY.val (f :: β) ⟨hf, hβ⟩ s hs n hn
      simp [this, joinF, hf, Matrix.mul_apply]
    obtain ⟨Z, e, hZ⟩ := h5
    rw [e]
    exact .pure hZ
  · simp only [dif_neg hM]
    match M, am, hA with
    | 0, am, hA =>
      rw [maskCovT_index (le_refl 0) hA]
      exact ⟨β0, _, hβ0, rfl⟩
    | 1, am, hA =>
      obtain ⟨Rt, e, ht⟩ := maskCovT_rep (i := 0) (by norm_num) hA hX
      rw [e, ok_bind', maskCovT_index (le_refl 1) hA]
      exact ⟨β0, _, hβ0, rfl⟩
    | M + 2, am, hA => exact absurd (by omega) hM

end gev

end Torchiva
