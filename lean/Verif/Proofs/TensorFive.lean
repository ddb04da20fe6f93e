import Verif.Spec.TensorFive
import Verif.Model.Models
import Verif.Proofs.TensorEigh
import Verif.Proofs.TensorTIss

/-! FIVE on tensors. -/

namespace Torchiva

set_option linter.unusedSimpArgs false

attribute [local simp] ok_bind' err_bind' pure_ok' comb_self comb_one_left comb_one_right bcast_self
  bcast_nil_left bcast_nil_right bcast_cons bcastTo sel pick onDim unsq swap01 swap12 move13
  reduceKeep maxKeep reduce bindLabel bindOp bindOps einsum matmul eighS List.lookup catS
  Ten.map Ten.map2 Ten.read bIdx sumOver opIdx einsumT bnat bIdx_inside Ten.swapIdx01 Ten.swapIdx12

variable {b : Shape} {C F N n : ℕ} {τ σ : Type}

theorem laplaceT_five (b : Shape) (F N : ℕ) (eps : ℝ) :
    FiveModelRep b F N (laplaceT eps) (laplaceModel eps) fun _ _ => True := by
  intro ts ms Y A _ hY
  simp [laplaceT, Ten.sumKeep, Ten.expand, magSqT, hY.shape]
  refine ⟨rfl, fun β hβ j hj k hk => ?_⟩
  simp [Finset.sum_range, hβ, hj, hk, hY.val, laplaceModel, laplaceForward, magSq, magSqE]

theorem gaussT_five (b : Shape) (F N : ℕ) (eps : ℝ) :
    FiveModelRep b F N (gaussT eps) (gaussModel eps) fun _ _ => True := by
  intro ts ms Y A _ hY
  simp [gaussT, Ten.sum, Ten.unsq, magSqT, hY.shape]
  refine ⟨rfl, fun β hβ j hj k hk => ?_⟩
  simp [Finset.sum_range, hβ, hj, hk, hY.val, gaussModel, gaussForward, magSq, magSqE]

theorem hermitizeT_rep {V : Ten ℂ} {AV : List ℕ → Matrix (Fin n) (Fin n) ℂ} (hV : Rep2 b n n V fun β i j => AV β i j) :
    ∃ t, hermitizeT V = .ok t ∧ Rep2 b n n t fun β i j => ((0.5 : ℂ) • (AV β + (AV β).conjTranspose)) i j := by
  unfold hermitizeT
  obtain ⟨H, e, hH⟩ := hermiteT_rep hV
  rw [e, ok_bind']; clear e
  obtain ⟨t, e, ht⟩ := hV.map2 hH fun x y => (0.5 : ℂ) * (x + y)
  exact ⟨t, e, ht.shape, fun β hβ i hi j hj => by simp [ht.val β hβ i hi j hj]⟩

theorem hermitizeT_rep3 {V : Ten ℂ} {AV : List ℕ → Fin F → Matrix (Fin n) (Fin n) ℂ}
    (hV : Rep3 b F n n V fun β f i j => AV β f i j) :
    ∃ t, hermitizeT V = .ok t ∧
      Rep3 b F n n t fun β f i j => ((0.5 : ℂ) • (AV β f + (AV β f).conjTranspose)) i j := by
  obtain ⟨t, e, ht⟩ := hermitizeT_rep (AV := fun γ => Matrix.of (joinF (fun _ _ => 0) (fun β f i j => AV β f i j) γ)) hV.join
  refine ⟨t, e, ht.shape, fun β hβ f hf i hi j hj => ?_⟩
  rw [ht.val (f :: β) ⟨hf, hβ⟩ i hi j hj]
  simp [joinF, hf]

theorem flip0_rep {α : Type} {p q : ℕ} {t : Ten α} {A : List ℕ → Fin p → Fin q → α} (h : Rep2 b p q t A) :
    Rep2 b p q t.flip0 fun β i j => A β i j.rev := by
  refine ⟨h.shape, fun β hβ i hi j hj => ?_⟩
  simp only [Ten.flip0, h.shape, List.headD_cons, List.tail_cons]
  rw [h.val β hβ i hi _ (by omega)]
  congr 1
  ext
  simp [Fin.rev]
  omega

theorem flip0_rep1 {α : Type} {q : ℕ} {t : Ten α} {A : List ℕ → Fin q → α} (h : Rep1 b q t A) :
    Rep1 b q t.flip0 fun β j => A β j.rev := by
  refine ⟨h.shape, fun β hβ j hj => ?_⟩
  simp only [Ten.flip0, h.shape, List.headD_cons, List.tail_cons]
  rw [h.val β hβ _ (by omega)]
  congr 1
  ext
  simp [Fin.rev]
  omega

/-- The whitening matrices of the items. -/
structure RepWh (b : Shape) (C : ℕ) (t : Ten ℂ × Ten ℂ) (A : List ℕ → Whiten C) : Prop where
  Q : Rep2 b C C t.1 fun β i j => (A β).Q i j
  Qinv : Rep2 b C C t.2 fun β i j => (A β).Qinv i j

theorem fiveWhitenT_rep {Cx : Ten ℂ} {AC : List ℕ → Matrix (Fin C) (Fin C) ℂ} (hC : Rep2 b C C Cx fun β i j => AC β i j)
    (solver : Solver) : Batched b (RepWh b C) (fiveWhitenT solver Cx) fun β => fiveWhiten (solver C) (AC β) := by
  unfold fiveWhitenT fiveWhiten
  refine (eighT_one hC solver _).bind fun r a hr => ?_
  dsimp only
  have hvec := flip0_rep hr.vec
  have hval := (flip0_rep1 hr.val).map fun x => √(clampMin x 1e-5)
  obtain ⟨col, e, hcol⟩ : ∃ t, (r.val.flip0.map fun x => √(clampMin x 1e-5)).unsq 0 = .ok t ∧
      Rep2 b C 1 t fun β i _ => √(clampMin ((a β).val i.rev) 1e-5) := by
    simp [Ten.unsq, hval.shape, (flip0_rep1 hr.val).shape]
    refine ⟨rfl, fun β hβ i hi j hj => ?_⟩
    simp [(flip0_rep1 hr.val).val β hβ i hi]
  rw [e, ok_bind']; clear e
  obtain ⟨vH, e, hvH⟩ := hermiteT_rep (AA := fun β => Matrix.of fun i (j : Fin C) => (a β).vec i j.rev) hvec
  rw [e, ok_bind']; clear e
  obtain ⟨Q, e, hQ⟩ : ∃ t, Ten.map2 (fun x y => x * y) (col.map fun x => 1 / x).toC vH = .ok t ∧
      Rep2 b C C t fun β i j => ((1 / √(clampMin ((a β).val i.rev) 1e-5) : ℝ) : ℂ) *
        (Matrix.of fun i (j : Fin C) => (a β).vec i j.rev).conjTranspose i j := by
    simp [Ten.toC, hcol.shape, hvH.shape]
    refine ⟨rfl, fun β hβ i hi j hj => ?_⟩
    simp [hβ, hi, hj, hcol.val, hvH.val]
  rw [e, ok_bind']; clear e
  obtain ⟨row, e, hrow⟩ : ∃ t, (r.val.flip0.map fun x => √(clampMin x 1e-5)).unsq 1 = .ok t ∧
      Rep2 b 1 C t fun β _ i => √(clampMin ((a β).val i.rev) 1e-5) := by
    simp [Ten.unsq, hval.shape, (flip0_rep1 hr.val).shape]
    refine ⟨rfl, fun β hβ i hi j hj => ?_⟩
    simp [(flip0_rep1 hr.val).val β hβ j hj]
  rw [e, ok_bind']; clear e
  obtain ⟨Qi, e, hQi⟩ : ∃ t, Ten.map2 (fun x y => x * y) r.vec.flip0 row.toC = .ok t ∧
      Rep2 b C C t fun β i j => (a β).vec i j.rev * ((√(clampMin ((a β).val j.rev) 1e-5) : ℝ) : ℂ) := by
    simp [Ten.toC, hrow.shape, hvec.shape]
    refine ⟨rfl, fun β hβ i hi j hj => ?_⟩
    simp [hβ, hi, hj, hrow.val, hvec.val]
  rw [e, ok_bind']; clear e
  exact .pure (R := RepWh b C) (a := fun β => (⟨Matrix.of fun i j => ((1 / √(clampMin ((a β).val i.rev) 1e-5) : ℝ) : ℂ) *
      (Matrix.of fun i (j : Fin C) => (a β).vec i j.rev).conjTranspose i j,
    Matrix.of fun i j => (a β).vec i j.rev * ((√(clampMin ((a β).val j.rev) 1e-5) : ℝ) : ℂ)⟩ : Whiten C)) ⟨hQ, hQi⟩

theorem onlyErr_fiveWhiten (solver : Matrix (Fin C) (Fin C) ℂ → EigRes (Fin C)) (Cx : Matrix (Fin C) (Fin C) ℂ) :
    OnlyErr .nonFinite (fiveWhiten solver Cx) := by
  unfold fiveWhiten
  refine OnlyErr.bind ?_ fun _ => .ok _
  by_cases h : C = 2
  · subst h
    rw [eigh_two]
    simp only [eigh2x2Plain, normalizeCols]
    split_ifs
    · exact fun e he => (Except.error.inj he).symm
    · exact .ok _
  · simp only [eigh, dif_neg h]
    exact .ok _

open Classical in
theorem fiveNormalizeT_rep {x : Ten ℂ} {Ax : List ℕ → Fin F → Fin C → ℂ} (hx : Rep2 b F C x Ax) :
    Batched b (fun t (a : List ℕ → Fin F → Fin C → ℂ) => Rep2 b F C t a) (fiveNormalizeT x) fun β =>
      fiveNormalize (Ax β) := by
  unfold fiveNormalizeT
  obtain ⟨q, e, hq⟩ : ∃ q, Ten.sumKeep 1 (x.map fun z => ‖z‖ ^ 2) = .ok q ∧
      Rep2 b 1 C q fun β _ c => ∑ f, ‖Ax β f c‖ ^ 2 := by
    simp [Ten.sumKeep, hx.shape]
    refine ⟨rfl, fun β hβ i hi j hj => ?_⟩
    simp [Finset.sum_range, hβ, hj, hx.val]
  rw [e, ok_bind']; clear e
  refine (div2_rep (AA := Ax) (AD := fun β _ c => ((√(∑ f, ‖Ax β f c‖ ^ 2) : ℝ) : ℂ)) (b := b)
    (by simp [Ten.toC, hx.shape, hq.shape])
    (fun β hβ i hi j hj => by simp [hβ, hi, hj, hx.shape, hx.val])
    fun β hβ i hi j hj => by simp [Ten.toC, hβ, hi, hj, hq.shape, hq.val]).congr fun β hβ => ?_
  unfold fiveNormalize
  refine if_congr ?_ rfl rfl
  constructor
  · rintro ⟨i, j, h⟩
    exact ⟨(i, j), Complex.ofReal_eq_zero.1 h⟩
  · rintro ⟨p, h⟩
    exact ⟨p.1, p.2, Complex.ofReal_eq_zero.2 h⟩

open Classical in
theorem powerStepT_rep [NeZero C] {V x : Ten ℂ} {AV : List ℕ → Fin F → Matrix (Fin C) (Fin C) ℂ}
    {Ax : List ℕ → Fin F → Fin C → ℂ} (hV : Rep3 b F C C V fun β f i j => AV β f i j) (hx : Rep2 b F C x Ax) :
    Batched b (fun t (a : List ℕ → Fin F → Fin C → ℂ) => Rep2 b F C t a) (powerStepT V x) fun β =>
      powerStep (AV β) (Ax β) := by
  unfold powerStepT
  obtain ⟨y, e, hy⟩ : ∃ y, einsumT [("fcd", V), ("fd", x)] "fc" = .ok y ∧
      Rep2 b F C y fun β f => (AV β f).mulVec (Ax β f) := by
    simp [hV.shape, hx.shape]
    refine ⟨rfl, fun β hβ i hi j hj => ?_⟩
    simp [hβ, hi, hj, hx.val, hV.val, Matrix.mulVec, dotProduct]
  rw [e, ok_bind']; clear e
  obtain ⟨q, e, hq⟩ : ∃ q, Ten.sum 0 (y.map fun z => ‖z‖ ^ 2) = .ok q ∧
      Rep1 b F q fun β f => ∑ c, ‖(AV β f).mulVec (Ax β f) c‖ ^ 2 := by
    simp [Ten.sum, hy.shape]
    refine ⟨rfl, fun β hβ i hi => ?_⟩
    simp [Finset.sum_range, hβ, hi, hy.val]
  rw [e, ok_bind']; clear e
  obtain ⟨ev, e, hev⟩ : ∃ ev, (q.map fun t => √t).unsq 0 = .ok ev ∧
      Rep2 b F 1 ev fun β f _ => √(∑ c, ‖(AV β f).mulVec (Ax β f) c‖ ^ 2) := by
    simp [Ten.unsq, hq.shape]
    refine ⟨rfl, fun β hβ i hi j hj => ?_⟩
    simp [hβ, hi, hq.val]
  rw [e, ok_bind']; clear e
  refine (div2_rep (AA := fun β f => (AV β f).mulVec (Ax β f))
    (AD := fun β f _ => ((√(∑ c, ‖(AV β f).mulVec (Ax β f) c‖ ^ 2) : ℝ) : ℂ)) (b := b)
    (by simp [Ten.toC, hy.shape, hev.shape])
    (fun β hβ i hi j hj => by simp [hβ, hi, hj, hy.shape, hy.val])
    fun β hβ i hi j hj => by simp [Ten.toC, hβ, hi, hj, hev.shape, hev.val]).congr fun β hβ => ?_
  unfold powerStep
  refine if_congr ?_ rfl rfl
  constructor
  · rintro ⟨i, j, h⟩
    exact ⟨i, Complex.ofReal_eq_zero.1 h⟩
  · rintro ⟨f, h⟩
    exact ⟨f, 0, Complex.ofReal_eq_zero.2 h⟩

theorem invLoadedT_rep' (hC : 0 < C) {A : Ten ℂ} {AA : List ℕ → Matrix (Fin C) (Fin C) ℂ}
    (hA : Rep2 b C C A fun β i j => AA β i j) (load : ℝ) :
    Batched b (fun t (a : List ℕ → Matrix (Fin C) (Fin C) ℂ) => Rep2 b C C t fun β i j => a β i j)
      (invLoadedT A load) fun β => invLoaded (AA β) load := by
  obtain ⟨L, e, r⟩ := loadT_rep hC hA load
  by_cases hb : ∃ β, Inside β b
  · exact invLoadedT_rep hb hA load
  · simp only [invLoadedT, e, ok_bind']
    refine (invT_rep r).congr fun β hβ => absurd ⟨β, hβ⟩ hb

theorem invLoadedT_rep3 (hC : 0 < C) {A : Ten ℂ} {AA : List ℕ → Fin F → Matrix (Fin C) (Fin C) ℂ}
    (hA : Rep3 b F C C A fun β f i j => AA β f i j) (load : ℝ) :
    Batched b (fun t (a : List ℕ → Fin F → Matrix (Fin C) (Fin C) ℂ) => Rep3 b F C C t fun β f i j => a β f i j)
      (invLoadedT A load) fun β => seqAll fun f => invLoaded (AA β f) load := by
  obtain ⟨e0, he0⟩ := onlyErr_invLoaded C
  have h := (invLoadedT_rep' hC (AA := fun γ => Matrix.of (joinF (fun _ _ => 0) (fun β f i j => AA β f i j) γ))
    hA.join load).seq1 (b := b) (F := F)
    (R' := fun t (a : List ℕ → Fin F → Matrix (Fin C) (Fin C) ℂ) => Rep3 b F C C t fun β f i j => a β f i j)
    (fun γ => he0 _ _) fun t a h => h.split
  simp only [joinF_cons] at h
  exact h

theorem smallestPowerT_rep [NeZero C] {V : Ten ℂ} {AV : List ℕ → Fin F → Matrix (Fin C) (Fin C) ℂ}
    (hV : Rep3 b F C C V fun β f i j => AV β f i j) (hb : ∃ β, Inside β b) (nIter : ℕ) :
    Batched b (fun t (a : List ℕ → Fin F → Fin C → ℂ) => Rep2 b F C t a) (smallestPowerT V nIter) fun β =>
      smallestPower (AV β) nIter := by
  have hC : 0 < C := Nat.pos_of_ne_zero (NeZero.ne C)
  unfold smallestPowerT smallestPower
  refine (invLoadedT_rep3 hC hV _).bind fun Vi aV hVi => ?_
  obtain ⟨x, e, hx⟩ : ∃ x, Vi.sel 0 0 = .ok x ∧ Rep2 b F C x fun β f c => aV β f c 0 := by
    simp [Ten.sel, hVi.shape, hC]
    refine ⟨rfl, fun β hβ i hi j hj => ?_⟩
    simp [hVi.val β hβ i hi j hj 0 hC]
  rw [e, ok_bind']; clear e
  refine (fiveNormalizeT_rep hx).bind fun x ax hx => ?_
  refine (Batched.iter (R := fun t (a : List ℕ → Fin F → Fin C → ℂ) => Rep2 b F C t a)
    (fun t a ht => powerStepT_rep hVi ht) (nIter - 1) hx).bind fun x ax hx => ?_
  obtain ⟨x0, e, hx0⟩ : ∃ x0, x.sel 0 0 = .ok x0 ∧ Rep1 b F x0 fun β f => ax β f 0 := by
    simp [Ten.sel, hx.shape, hC]
    refine ⟨rfl, fun β hβ i hi => ?_⟩
    simp [hx.val β hβ i hi 0 hC]
  rw [e, ok_bind']; clear e
  obtain ⟨s, e, hs⟩ : ∃ s, (x0.map fun z => star (csgn z)).unsq 0 = .ok s ∧
      Rep2 b F 1 s fun β f _ => star (csgn (ax β f 0)) := by
    simp [Ten.unsq, hx0.shape]
    refine ⟨rfl, fun β hβ i hi j hj => ?_⟩
    simp [hβ, hi, hx0.val]
  rw [e, ok_bind']; clear e
  obtain ⟨y, e, hy⟩ : ∃ y, Ten.map2 (fun x y => x * y) x s = .ok y ∧
      Rep2 b F C y fun β f c => ax β f c * star (csgn (ax β f 0)) := by
    simp [hx.shape, hs.shape]
    refine ⟨rfl, fun β hβ i hi j hj => ?_⟩
    simp [hβ, hi, hj, hx.val, hs.val]
  rw [e, ok_bind']; clear e
  by_cases h0 : nIter - 1 = 0
  · simp only [if_pos h0]
    obtain ⟨β, hβ⟩ := hb
    exact ⟨β, hβ, rfl⟩
  · simp only [if_neg h0]
    exact .pure (R := fun t (a : List ℕ → Fin F → Fin C → ℂ) => Rep2 b F C t a)
      (a := fun β f c => ax β f c * star (csgn (ax β f 0))) hy

theorem fiveVectorsT_rep [NeZero C] (solver : Solver) (nPower : Option ℕ) {V : Ten ℂ}
    {AV : List ℕ → Fin F → Matrix (Fin C) (Fin C) ℂ} (hV : Rep3 b F C C V fun β f i j => AV β f i j)
    (hb : ∃ β, Inside β b) :
    Batched b (fun t (a : List ℕ → Fin F → Fin C → ℂ) => Rep2 b F C t a) (fiveVectorsT solver nPower V) fun β =>
      fiveVectors (solver C) nPower (AV β) := by
  have hC : 0 < C := Nat.pos_of_ne_zero (NeZero.ne C)
  rcases nPower with _ | k
  · refine .of_ok (a := fun β f => smallestEigh (solver C) (AV β f)) ?_
    unfold fiveVectorsT
    dsimp only
    obtain ⟨r, e, hr⟩ := eighWrapperT_rep (AA := fun γ => Matrix.of (joinF (fun _ _ => 0) (fun β f i j => AV β f i j) γ))
      hV.join solver
    rw [e, ok_bind']; clear e
    have hv := hr.vec.split
    simp [Ten.sel, hv.shape, hC]
    refine ⟨rfl, fun β hβ i hi j hj => ?_⟩
    simp [hv.val β hβ i hi j hj 0 hC, joinF, hi, smallestEigh]
    rfl
  · exact smallestPowerT_rep hV hb k

/-- The states of the items. -/
structure RepFive (b : Shape) (F N : ℕ) (S : τ → (List ℕ → σ) → Prop) (st : FiveT τ) (A : List ℕ → FiveState σ F N) :
    Prop where
  Y : Rep2 b F N st.Y fun β => (A β).Y
  ms : S st.ms fun β => (A β).ms

theorem fiveEpochT_rep [NeZero C] (solver : Solver) (nPower : Option ℕ) (hb : ∃ β, Inside β b) {X q : Ten ℂ}
    {AX : List ℕ → Sig C F N} {Aq : List ℕ → Fin F → Fin C → ℂ} (hX : Rep3 b C F N X AX) (hq : Rep2 b F C q Aq)
    {M : TenModel τ} {m : SourceModel σ F N} {S : τ → (List ℕ → σ) → Prop} (hM : FiveModelRep b F N M m S)
    {st : FiveT τ} {A : List ℕ → FiveState σ F N} (h : RepFive b F N S st A) :
    Batched b (RepFive b F N S) (fiveEpochT solver nPower X q M st) fun β =>
      fiveEpoch (solver C) nPower (AX β) (Aq β) m (A β) := by
  unfold fiveEpochT fiveEpoch
  obtain ⟨w, e, hw, hS⟩ := hM st.ms _ st.Y _ h.ms h.Y
  rw [e, ok_bind']; clear e
  obtain ⟨V, e, hV⟩ : ∃ V, einsumT [("fn", w.1.toC), ("cfn", X), ("dfn", X.map star)] "fcd" = .ok V ∧
      Rep3 b F C C V fun β f i j => (Matrix.of fun c d => ∑ n, ((m 1 (A β).ms fun _ => (A β).Y).1 0 f n : ℂ) *
        AX β c f n * star (AX β d f n) : Matrix (Fin C) (Fin C) ℂ) i j := by
    simp [Ten.toC, hw.shape, hX.shape]
    refine ⟨rfl, fun β hβ f hf i hi j hj => ?_⟩
    simp [hβ, hf, hi, hj, hw.val, hX.val, mul_assoc]
  rw [e, ok_bind']; clear e
  obtain ⟨V, e, hV⟩ := hermitizeT_rep3 hV
  rw [e, ok_bind']; clear e
  refine (fiveVectorsT_rep solver nPower hV hb).bind fun ev ae hev => ?_
  obtain ⟨z, e, hz⟩ : ∃ z, einsumT [("fc", q), ("fc", ev)] "f" = .ok z ∧
      Rep1 b F z fun β f => ∑ c, Aq β f c * ae β f c := by
    simp [hq.shape, hev.shape]
    refine ⟨rfl, fun β hβ f hf => ?_⟩
    simp [hβ, hf, hq.val, hev.val]
  rw [e, ok_bind']; clear e
  obtain ⟨z, e, hz⟩ : ∃ t, z.unsq 0 = .ok t ∧ Rep2 b F 1 t fun β f _ => ∑ c, Aq β f c * ae β f c := by
    simp [Ten.unsq, hz.shape]
    refine ⟨rfl, fun β hβ f hf j hj => ?_⟩
    simp [hβ, hf, hz.val]
  rw [e, ok_bind']; clear e
  obtain ⟨u, e, hu⟩ : ∃ t, Ten.map2 (fun x y => x * y) ev (z.map star) = .ok t ∧
      Rep2 b F C t fun β f c => ae β f c * star (∑ c, Aq β f c * ae β f c) := by
    simp [hev.shape, hz.shape]
    refine ⟨rfl, fun β hβ f hf j hj => ?_⟩
    simp [hβ, hf, hj, hev.val, hz.val]
  rw [e, ok_bind']; clear e
  obtain ⟨Y, e, hY⟩ : ∃ t, einsumT [("fc", u.map star), ("cfn", X)] "fn" = .ok t ∧
      Rep2 b F N t fun β f n => ∑ c, star (ae β f c * star (∑ c, Aq β f c * ae β f c)) * AX β c f n := by
    simp [hu.shape, hX.shape]
    refine ⟨rfl, fun β hβ f hf j hj => ?_⟩
    simp [hβ, hf, hj, hu.val, hX.val]
  rw [e, ok_bind']; clear e
  exact .pure (R := RepFive b F N S) (a := fun β => (⟨fun f n =>
    ∑ c, star (ae β f c * star (∑ c, Aq β f c * ae β f c)) * AX β c f n, (m 1 (A β).ms fun _ => (A β).Y).2⟩ : FiveState σ F N))
    ⟨hY, hS⟩

theorem fiveForwardT_rep [NeZero C] (solver : Solver) (nIter : ℕ) (ref : Fin C) (nPower : Option ℕ)
    (hb : ∃ β, Inside β b) {X : Ten ℂ} {AX : List ℕ → Sig C (F + 1) N} (hX : Rep3 b C (F + 1) N X AX)
    {M : TenModel τ} {m : SourceModel σ F N} {S : τ → (List ℕ → σ) → Prop} (hM : FiveModelRep b F N M m S)
    {reset : τ → τ} {reset' : σ → σ} {ts : τ} {ms : List ℕ → σ} (hS : S (reset ts) fun β => reset' (ms β)) :
    Batched b (fun t (a : List ℕ → Sig 1 (F + 1) N) => Rep3 b 1 (F + 1) N t a)
      (fiveForwardT solver nIter ref nPower M reset ts X) fun β =>
      fiveForward (solver C) nIter ref nPower (AX β) m reset' (ms β) := by
  have hC : 0 < C := Nat.pos_of_ne_zero (NeZero.ne C)
  unfold fiveForwardT fiveForward
  simp only [hX.shape, List.headD_cons]
  obtain ⟨X1, e, hX1⟩ : ∃ t, X.drop 1 1 = .ok t ∧ Rep3 b C F N t fun β c f n => AX β c f.succ n := by
    simp [Ten.drop, hX.shape]
    refine ⟨rfl, fun β hβ c hc f hf n hn => ?_⟩
    simp [hX.val β hβ c hc (f + 1) (by omega) n hn]
  rw [e, ok_bind']; clear e
  obtain ⟨Cx, e, hCx⟩ : ∃ t, einsumT [("cfn", X1), ("dfn", X1.map star)] "fcd" = .ok t ∧
      Rep3 b F C C t fun β f c d => ∑ n, AX β c f.succ n * star (AX β d f.succ n) := by
    simp [hX1.shape]
    refine ⟨rfl, fun β hβ f hf i hi j hj => ?_⟩
    simp [hβ, hf, hi, hj, hX1.val]
  rw [e, ok_bind']; clear e
  obtain ⟨Cx, e, hCx⟩ := hermitizeT_rep3 (V := Cx.map fun z => z / (N : ℂ)) (AV := fun β f => Matrix.of fun c d =>
    (∑ n, AX β c f.succ n * star (AX β d f.succ n)) / (N : ℂ)) ⟨hCx.shape, fun β hβ f hf i hi j hj => by
      simp [hCx.val β hβ f hf i hi j hj]⟩
  rw [e, ok_bind']; clear e
  have hCx : Rep3 b F C C Cx fun β f i j => fiveCov (fun c n => AX β c f.succ n) i j := hCx
  have hwh := (fiveWhitenT_rep (AC := fun γ => Matrix.of (joinF (fun _ _ => 0)
    (fun β f i j => fiveCov (fun c n => AX β c f.succ n) i j) γ)) hCx.join solver).seq1
    (b := b) (F := F) (R' := fun t (a : List ℕ → Fin F → Whiten C) =>
      Rep3 b F C C t.1 (fun β f i j => (a β f).Q i j) ∧ Rep3 b F C C t.2 fun β f i j => (a β f).Qinv i j)
    (fun γ => onlyErr_fiveWhiten _ _) fun t a h => ⟨h.Q.split, h.Qinv.split⟩
  simp only [joinF_cons] at hwh
  refine hwh.bind fun wh aw haw => ?_
  obtain ⟨hQ, hQi⟩ := haw
  obtain ⟨q, e, hq⟩ : ∃ t, wh.2.sel 1 ref = .ok t ∧ Rep2 b F C t fun β f c => (aw β f).Qinv ref c := by
    simp [Ten.sel, hQi.shape]
    refine ⟨rfl, fun β hβ f hf j hj => ?_⟩
    simp [hQi.val β hβ f hf ref ref.2 j hj]
  rw [e, ok_bind']; clear e
  obtain ⟨Xw, e, hXw⟩ : ∃ t, einsumT [("fcd", wh.1), ("dfn", X1)] "cfn" = .ok t ∧
      Rep3 b C F N t fun β c f n => ∑ d, (aw β f).Q c d * AX β d f.succ n := by
    simp [hQ.shape, hX1.shape]
    refine ⟨rfl, fun β hβ f hf i hi j hj => ?_⟩
    simp [hβ, hf, hi, hj, hQ.val, hX1.val]
  rw [e, ok_bind']; clear e
  obtain ⟨Y, e, hY⟩ : ∃ t, Xw.sel 2 0 = .ok t ∧ Rep2 b F N t fun β f n => ∑ d, (aw β f).Q 0 d * AX β d f.succ n := by
    simp [Ten.sel, hXw.shape, hC]
    refine ⟨rfl, fun β hβ f hf j hj => ?_⟩
    simp [hXw.val β hβ 0 hC f hf j hj]
  rw [e, ok_bind']; clear e
  obtain ⟨q0, e, hq0⟩ : ∃ t, wh.1.sel 1 0 = .ok t ∧ Rep2 b F C t fun β f c => (aw β f).Q 0 c := by
    simp [Ten.sel, hQ.shape, hC]
    refine ⟨rfl, fun β hβ f hf j hj => ?_⟩
    simp [hQ.val β hβ f hf 0 hC j hj]
  rw [e, ok_bind']; clear e
  obtain ⟨q0, e, hq0⟩ : ∃ t, q0.unsq 1 = .ok t ∧ Rep3 b F 1 C t fun β f _ c => (aw β f).Q 0 c := by
    simp [Ten.unsq, hq0.shape]
    refine ⟨rfl, fun β hβ f hf i hi j hj => ?_⟩
    simp [hq0.val β hβ f hf j hj]
  rw [e, ok_bind']; clear e
  obtain ⟨c0, e, hc0⟩ : ∃ t, Cx.sel 0 ref = .ok t ∧ Rep2 b F C t fun β f c =>
      fiveCov (fun c n => AX β c f.succ n) c ref := by
    simp [Ten.sel, hCx.shape]
    refine ⟨rfl, fun β hβ f hf j hj => ?_⟩
    simp [hCx.val β hβ f hf j hj ref ref.2]
  rw [e, ok_bind']; clear e
  obtain ⟨c0, e, hc0⟩ : ∃ t, c0.unsq 0 = .ok t ∧ Rep3 b F C 1 t fun β f c _ =>
      fiveCov (fun c n => AX β c f.succ n) c ref := by
    simp [Ten.unsq, hc0.shape]
    refine ⟨rfl, fun β hβ f hf i hi j hj => ?_⟩
    simp [hc0.val β hβ f hf i hi]
  rw [e, ok_bind']; clear e
  obtain ⟨z, e, hz⟩ : ∃ t, Ten.matmul q0 c0 = .ok t ∧ Rep3 b F 1 1 t fun β f _ _ =>
      ∑ c, (aw β f).Q 0 c * fiveCov (fun c n => AX β c f.succ n) c ref := by
    simp [Ten.matmul, hq0.shape, hc0.shape]
    refine ⟨rfl, fun β hβ f hf i hi j hj => ?_⟩
    simp [Finset.sum_range, hβ, hf, hi, hj, hq0.val, hc0.val]
  rw [e, ok_bind']; clear e
  obtain ⟨z, e, hz⟩ : ∃ t, z.swap12 = .ok t ∧ Rep3 b 1 F 1 t fun β _ f _ =>
      ∑ c, (aw β f).Q 0 c * fiveCov (fun c n => AX β c f.succ n) c ref := by
    simp [Ten.swap12, hz.shape]
    refine ⟨rfl, fun β hβ i hi f hf j hj => ?_⟩
    simp [hz.val β hβ f hf i hi j hj]
  rw [e, ok_bind']; clear e
  obtain ⟨z, e, hz⟩ : ∃ t, z.sel 2 0 = .ok t ∧ Rep2 b F 1 t fun β f _ =>
      ∑ c, (aw β f).Q 0 c * fiveCov (fun c n => AX β c f.succ n) c ref := by
    simp [Ten.sel, hz.shape]
    refine ⟨rfl, fun β hβ f hf j hj => ?_⟩
    simp [hz.val β hβ 0 Nat.one_pos f hf j hj]
  rw [e, ok_bind']; clear e
  obtain ⟨Y, e, hY⟩ : ∃ t, Ten.map2 (fun x y => x * y) z Y = .ok t ∧ Rep2 b F N t fun β f n =>
      (∑ c, (aw β f).Q 0 c * fiveCov (fun c n => AX β c f.succ n) c ref) * ∑ d, (aw β f).Q 0 d * AX β d f.succ n := by
    simp [hz.shape, hY.shape]
    refine ⟨rfl, fun β hβ f hf j hj => ?_⟩
    simp [hβ, hf, hj, hz.val, hY.val]
  rw [e, ok_bind']; clear e
  refine (Batched.iter (R := RepFive b F N S) (fun t a ht => fiveEpochT_rep solver nPower hb hXw hq hM ht) nIter
    (t := (⟨Y, reset ts⟩ : FiveT τ)) (a := fun β => (⟨fun f n =>
      (∑ c, (aw β f).Q 0 c * fiveCov (fun c n => AX β c f.succ n) c ref) * ∑ d, (aw β f).Q 0 d * AX β d f.succ n,
      reset' (ms β)⟩ : FiveState σ F N)) ⟨hY, hS⟩).bind fun st a ha => ?_
  refine .of_ok (a := fun β (_ : Fin 1) (f : Fin (F + 1)) n => if h : f = 0 then 0 else (a β).Y (f.pred h) n) ?_
  simp [Ten.cat, Ten.zeros, Ten.unsq, ha.Y.shape]
  refine ⟨?_, fun β hβ i hi f hf n hn => ?_⟩
  · simp [Nat.add_comm]
  · rcases f with _ | f
    · simp
    · have hf' : f < F := by omega
      simp [ha.Y.val β hβ f hf' n hn, Fin.ext_iff]
      rfl

end Torchiva
