import Verif.Proofs.TensorLinalg
import Verif.Proofs.TensorTIssLoop
import Verif.Model.TensorWpe

/-! WPE on tensors. -/

namespace Torchiva

set_option linter.unusedSimpArgs false

attribute [local simp] ok_bind' err_bind' pure_ok' comb_self comb_one_left comb_one_right bcast_self
  bcast_nil_left bcast_nil_right bcast_cons bcastTo sel pick onDim unsq swap01 swap12 move13
  reduceKeep maxKeep reduce bindLabel bindOp bindOps einsum matmul eighS List.lookup catS
  Ten.map Ten.map2 Ten.read bIdx sumOver opIdx einsumT bnat bIdx_inside Ten.swapIdx01 Ten.swapIdx12

variable {b : Shape} {C F N T : ℕ} {τ σ : Type}

/-- Division of numbers, one per frequency and frame. -/
theorem div_rep {A D : Ten ℝ} {p q : ℕ} {AD : List ℕ → Fin p → Fin q → ℝ} {AA : List ℕ → Fin p → Fin q → ℝ}
    (hs : bcast A.shape D.shape = .ok (q :: p :: b))
    (hA : ∀ β, Inside β b → ∀ i (hi : i < p) j (hj : j < q), A.read (j :: i :: β) = AA β ⟨i, hi⟩ ⟨j, hj⟩)
    (hD : ∀ β, Inside β b → ∀ i (hi : i < p) j (hj : j < q), D.read (j :: i :: β) = AD β ⟨i, hi⟩ ⟨j, hj⟩) :
    Batched b (fun t a => Rep2 b p q t a) (Ten.div A D) fun β =>
      open Classical in
      if ∃ x : Fin p × Fin q, AD β x.1 x.2 = 0 then .error .nonFinite
      else .ok fun i j => AA β i j / AD β i j := by
  classical
  simp only [Ten.div, hs, ok_bind']
  by_cases h : ∃ idx, Inside idx (q :: p :: b) ∧ D.read idx = 0
  · rw [if_pos h]
    obtain ⟨idx, hi, h0⟩ := h
    match idx, hi with
    | j :: i :: β, hi =>
      refine ⟨β, hi.2.2, ?_⟩
      rw [hD β hi.2.2 i hi.2.1 j hi.1] at h0
      beta_reduce
      rw [if_pos ⟨(⟨i, hi.2.1⟩, ⟨j, hi.1⟩), h0⟩]
  · rw [if_neg h]
    refine ⟨fun β i j => AA β i j / AD β i j, fun β hβ => ?_, rfl, fun β hβ i hi j hj => ?_⟩
    · beta_reduce
      rw [if_neg]
      rintro ⟨⟨⟨i, hi⟩, ⟨j, hj⟩⟩, h0⟩
      exact h ⟨j :: i :: β, ⟨hj, hi, hβ⟩, by rw [hD β hβ i hi j hj]; exact h0⟩
    · simp only [hA β hβ i hi j hj, hD β hβ i hi j hj]

theorem wpeDefaultWeightsT_rep {Y : Ten ℂ} {AY : List ℕ → Sig C F N} (hY : Rep3 b C F N Y AY) (eps : ℝ) :
    Batched b (fun t (a : List ℕ → Fin F → Fin N → ℝ) => Rep2 b F N t a) (wpeDefaultWeightsT Y eps) fun β =>
      wpeDefaultWeights (AY β) eps := by
  classical
  have h1 : ∃ q : Ten ℝ, Ten.sum 2 (magSqT Y) = .ok q ∧ Rep2 b F N q fun β f n => ∑ c, magSq (AY β c f n) := by
    simp [Ten.sum, magSqT, hY.shape]
    refine ⟨rfl, fun β hβ i hi j hj => ?_⟩
    simp [Finset.sum_range, hβ, hi, hj, hY.val, magSq, magSqE]
  obtain ⟨q, e1, r1⟩ := h1
  have e2 : Y.shape.getD 2 0 = C := by simp [hY.shape]
  simp only [wpeDefaultWeightsT, e1, e2, ok_bind']
  have h3 := div_rep (A := Ten.scalar (1 : ℝ)) (D := q.map fun x => clampMin (x / (C : ℝ)) eps) (b := b) (p := F) (q := N)
    (AA := fun _ _ _ => 1) (AD := fun β f n => clampMin ((∑ c, magSq (AY β c f n)) / C) eps)
    (by simp [Ten.scalar, r1.shape]) (by simp [Ten.scalar])
    (fun β hβ i hi j hj => by simp [hβ, hi, hj, r1.val, r1.shape])
  have h4 : ∀ w (a : List ℕ → Fin F → Fin N → ℝ), Rep2 b F N w a →
      Batched b (fun t (a : List ℕ → Fin F → Fin N → ℝ) => Rep2 b F N t a)
        (do let t ← Ten.sumKeep 0 w
            Ten.div w t) fun β =>
        if ∃ x : Fin F × Fin N, ∑ n, a β x.1 n = 0 then .error .nonFinite
        else .ok fun f n => a β f n / ∑ n, a β f n := by
    intro w a hw
    have h5 : ∃ t : Ten ℝ, Ten.sumKeep 0 w = .ok t ∧ Rep2 b F 1 t fun β f _ => ∑ n, a β f n := by
      simp [Ten.sumKeep, hw.shape]
      refine ⟨rfl, fun β hβ i hi j hj => ?_⟩
      simp [Finset.sum_range, hβ, hi, hw.val]
    obtain ⟨t, e5, r5⟩ := h5
    rw [e5, ok_bind']
    exact div_rep (AD := fun β f _ => ∑ n, a β f n) (by simp [hw.shape, r5.shape])
      (fun β hβ i hi j hj => by simp [hβ, hi, hj, hw.val, hw.shape])
      (fun β hβ i hi j hj => by simp [hβ, hi, hj, r5.val, r5.shape])
  refine (h3.bind (k' := fun _ (w : Fin F → Fin N → ℝ) => if ∃ x : Fin F × Fin N, ∑ n, w x.1 n = 0 then .error .nonFinite
    else .ok fun f n => w f n / ∑ n, w f n) h4).congr fun β hβ => ?_
  unfold wpeDefaultWeights
  by_cases h : ∃ x : Fin F × Fin N, clampMin ((∑ c, magSq (AY β c x.1 x.2)) / C) eps = 0
  · rw [if_pos h, err_bind', if_pos]
    obtain ⟨x, hx⟩ := h
    exact ⟨x, Or.inl hx⟩
  · rw [if_neg h, ok_bind']
    by_cases h' : ∃ x : Fin F × Fin N, ∑ n, 1 / clampMin ((∑ c, magSq (AY β c x.1 n)) / C) eps = 0
    · rw [if_pos h', if_pos]
      obtain ⟨x, hx⟩ := h'
      exact ⟨x, Or.inr hx⟩
    · rw [if_neg h', if_neg]
      rintro ⟨x, hx | hx⟩
      · exact h ⟨x, hx⟩
      · exact h' ⟨x, hx⟩

/-- The order of the taps in memory. -/
def tapEquiv (T C : ℕ) : Fin (T * C) ≃ Fin C × Fin T := (finCongr (mul_comm T C)).trans finProdFinEquiv.symm

theorem tapEquiv_apply (k : Fin (T * C)) :
    ((tapEquiv T C k).1 : ℕ) = k / T ∧ ((tapEquiv T C k).2 : ℕ) = k % T := by
  simp [tapEquiv, finProdFinEquiv]

theorem tapEquiv_symm_apply (c : Fin C) (t : Fin T) : ((tapEquiv T C).symm (c, t) : ℕ) = t + T * c := by
  simp [tapEquiv, finProdFinEquiv]

theorem wpeAcmT_rep {w : Ten ℝ} {Xbar : Ten ℂ} {Aw : List ℕ → Fin F → Fin N → ℝ} {AX : List ℕ → Taps C F T N}
    (hw : Rep2 b F N w Aw) (hX : Rep4 b C F T N Xbar AX) :
    ∃ t, (do
      let acm ← einsumT [("fn", w.toC), ("cftn", Xbar), ("dfun", Xbar.map star)] "fctdu"
      acm.reshape (T * C :: T * C :: F :: b)) = .ok t ∧
      Rep3 b F (T * C) (T * C) t fun β f i j =>
        (wpeAcm (Aw β) (AX β) f).submatrix (tapEquiv T C) (tapEquiv T C) i j := by
  have hp : T * (C * (T * (C * (F * b.prod)))) = T * C * (T * C * (F * b.prod)) := by ring
  simp [Ten.reshape, Ten.toC, hw.shape, hX.shape, reshapeS, numel, hp]
  refine ⟨rfl, fun β hβ f hf i hi j hj => ?_⟩
  have hT : 0 < T := Nat.pos_of_ne_zero fun h => by simp [h] at hi
  have hC : 0 < C := Nat.pos_of_ne_zero fun h => by simp [h] at hi
  have e : unflatIdx (T :: C :: T :: C :: F :: b) (flatIdx (T * C :: T * C :: F :: b) (j :: i :: f :: β)) =
      j % T :: j / T :: i % T :: i / T :: f :: β := by
    have : flatIdx (T * C :: T * C :: F :: b) (j :: i :: f :: β) = j + T * C * (i + T * C * flatIdx (F :: b) (f :: β)) := rfl
    rw [this, unflat_two _ hj, unflat_two _ hi, unflat_flat (show Inside (f :: β) (F :: b) from ⟨hf, hβ⟩)]
  have d1 : j / T < C := Nat.div_lt_of_lt_mul hj
  have d2 : i / T < C := Nat.div_lt_of_lt_mul hi
  have m1 : j % T < T := Nat.mod_lt _ hT
  have m2 : i % T < T := Nat.mod_lt _ hT
  simp [e, hβ, hf, hw.val, hX.val, d1, d2, m1, m2, wpeAcm]
  refine Finset.sum_congr rfl fun n _ => ?_
  have q1 : (tapEquiv T C ⟨i, hi⟩) = (⟨i / T, d2⟩, ⟨i % T, m2⟩) :=
    Prod.ext (Fin.ext (tapEquiv_apply ⟨i, hi⟩).1) (Fin.ext (tapEquiv_apply ⟨i, hi⟩).2)
  have q2 : (tapEquiv T C ⟨j, hj⟩) = (⟨j / T, d1⟩, ⟨j % T, m1⟩) :=
    Prod.ext (Fin.ext (tapEquiv_apply ⟨j, hj⟩).1) (Fin.ext (tapEquiv_apply ⟨j, hj⟩).2)
  rw [q1, q2]
  ring

theorem wpeXcvT_rep {w : Ten ℝ} {X Xbar : Ten ℂ} {Aw : List ℕ → Fin F → Fin N → ℝ} {AX : List ℕ → Sig C F N}
    {AB : List ℕ → Taps C F T N} (hw : Rep2 b F N w Aw) (hX : Rep3 b C F N X AX) (hB : Rep4 b C F T N Xbar AB) :
    ∃ t, (do
      let xcv ← einsumT [("fn", w.toC), ("cftn", Xbar), ("sfn", X.map star)] "fcts"
      xcv.reshape (C :: T * C :: F :: b)) = .ok t ∧
      Rep3 b F (T * C) C t fun β f i j =>
        (wpeXcv (Aw β) (AX β) (AB β) f).submatrix (tapEquiv T C) id i j := by
  have hp : C * (T * (C * (F * b.prod))) = C * (T * C * (F * b.prod)) := by ring
  simp [Ten.reshape, Ten.toC, hw.shape, hX.shape, hB.shape, reshapeS, numel, hp]
  refine ⟨rfl, fun β hβ f hf i hi j hj => ?_⟩
  have hT : 0 < T := Nat.pos_of_ne_zero fun h => by simp [h] at hi
  have e : unflatIdx (C :: T :: C :: F :: b) (flatIdx (C :: T * C :: F :: b) (j :: i :: f :: β)) =
      j :: i % T :: i / T :: f :: β := by
    have : flatIdx (C :: T * C :: F :: b) (j :: i :: f :: β) = j + C * (i + T * C * flatIdx (F :: b) (f :: β)) := rfl
    rw [this, unflat_cons _ hj, unflat_two _ hi, unflat_flat (show Inside (f :: β) (F :: b) from ⟨hf, hβ⟩)]
  have d2 : i / T < C := Nat.div_lt_of_lt_mul hi
  have m2 : i % T < T := Nat.mod_lt _ hT
  simp [e, hβ, hf, hj, hw.val, hX.val, hB.val, d2, m2, wpeXcv]
  refine Finset.sum_congr rfl fun n _ => ?_
  have q1 : (tapEquiv T C ⟨i, hi⟩) = (⟨i / T, d2⟩, ⟨i % T, m2⟩) :=
    Prod.ext (Fin.ext (tapEquiv_apply ⟨i, hi⟩).1) (Fin.ext (tapEquiv_apply ⟨i, hi⟩).2)
  rw [q1]
  ring

theorem wpeReshape_ok {H : Ten ℂ} {a : List ℕ → Fin F → Matrix (Fin (T * C)) (Fin C) ℂ}
    (hH : Rep3 b F (T * C) C H fun β f i j => a β f i j) :
    ∃ t, H.reshape (C :: T :: C :: F :: b) = .ok t ∧
      Rep4 b F C T C t fun β f c t s => a β f ((tapEquiv T C).symm (c, t)) s := by
  have hp : C * (T * C * (F * b.prod)) = C * (T * (C * (F * b.prod))) := by ring
  simp [Ten.reshape, reshapeS, numel, hH.shape, hp]
  refine ⟨rfl, fun β hβ f hf c hc t ht s hs => ?_⟩
  have e : unflatIdx (C :: T * C :: F :: b) (flatIdx (C :: T :: C :: F :: b) (s :: t :: c :: f :: β)) =
      s :: (t + T * c) :: f :: β := by
    have : flatIdx (C :: T :: C :: F :: b) (s :: t :: c :: f :: β) = s + C * (t + T * (c + C * flatIdx (F :: b) (f :: β))) := rfl
    rw [this, unflat_cons _ hs, unflat_one _ ht hc, unflat_flat (show Inside (f :: β) (F :: b) from ⟨hf, hβ⟩)]
  have q : (t + T * c) = ((tapEquiv T C).symm (⟨c, hc⟩, ⟨t, ht⟩) : ℕ) := (tapEquiv_symm_apply (⟨c, hc⟩ : Fin C) (⟨t, ht⟩ : Fin T)).symm
  simp only [e]
  have hlt : t + T * c < T * C := by rw [q]; exact ((tapEquiv T C).symm _).2
  rw [hH.val β hβ f hf _ hlt s hs]
  have : (⟨t + T * c, hlt⟩ : Fin (T * C)) = (tapEquiv T C).symm (⟨c, hc⟩, ⟨t, ht⟩) := Fin.ext q
  rw [this]

theorem wpeReshapeT_rep {H : Ten ℂ} {a : List ℕ → Fin F → Matrix (Fin (T * C)) (Fin C) ℂ}
    (hH : Rep3 b F (T * C) C H fun β f i j => a β f i j) :
    Batched b (fun t (a : List ℕ → Fin F → Matrix (Fin C × Fin T) (Fin C) ℂ) =>
        Rep4 b F C T C t fun β f c t s => a β f (c, t) s) (H.reshape (C :: T :: C :: F :: b)) fun β =>
      .ok fun f => (a β f).submatrix (tapEquiv T C).symm id :=
  .of_ok (a := fun β f => (a β f).submatrix (tapEquiv T C).symm id) (wpeReshape_ok hH)

theorem seqAll_then {φ A B : Type} {e0 : Err} {x : φ → Except Err A} {y : φ → Except Err B} {g : A → B}
    (hx : ∀ f, OnlyErr e0 (x f)) (h : ∀ f, y f = x f >>= fun a => .ok (g a)) :
    seqAll y = seqAll x >>= fun a => .ok fun f => g (a f) := by
  rw [show y = _ from funext h, seqAll_bind hx fun f a => .ok _]
  exact congrArg (fun k => seqAll x >>= k) (funext fun a => seqAll_pure fun f => g (a f))

theorem wpeFilterT_rep (hb : ∃ β, Inside β b) (hF : 0 < F) {w : Ten ℝ} {X Xbar : Ten ℂ}
    {Aw : List ℕ → Fin F → Fin N → ℝ} {AX : List ℕ → Sig C F N}
    {AB : List ℕ → Taps C F T N} (hw : Rep2 b F N w Aw) (hX : Rep3 b C F N X AX) (hB : Rep4 b C F T N Xbar AB)
    (eps : ℝ) :
    Batched b (fun t (a : List ℕ → Fin F → Matrix (Fin C × Fin T) (Fin C) ℂ) =>
        Rep4 b F C T C t fun β f c t s => a β f (c, t) s)
      (wpeFilterT w X Xbar eps) fun β => wpeFilter (Aw β) (AX β) (AB β) eps := by
  obtain ⟨acm, ea, ra⟩ := wpeAcmT_rep hw hB
  obtain ⟨xcv, ex, rx⟩ := wpeXcvT_rep hw hX hB
  have hre : wpeFilterT w X Xbar eps = (do
      let acm ← (do
        let acm ← einsumT [("fn", w.toC), ("cftn", Xbar), ("dfun", Xbar.map star)] "fctdu"
        acm.reshape (T * C :: T * C :: F :: b))
      let xcv ← (do
        let xcv ← einsumT [("fn", w.toC), ("cftn", Xbar), ("sfn", X.map star)] "fcts"
        xcv.reshape (C :: T * C :: F :: b))
      let H ← solveLoadedT acm xcv eps
      H.reshape (C :: T :: C :: F :: b)) := by
    simp only [wpeFilterT, hB.shape]
    simp only [bind_assoc]
    have hx : ∃ t, einsumT [("fn", w.toC), ("cftn", Xbar), ("sfn", X.map star)] "fcts" = .ok t := by
      simp [Ten.toC, hw.shape, hX.shape, hB.shape]
    obtain ⟨t, ht⟩ := hx
    rw [ht]
    simp only [ok_bind']
  rw [hre, ea, ex, ok_bind', ok_bind']
  obtain ⟨e0, he0⟩ := onlyErr_solveLoaded (T * C)
  have hs := (solveLoadedT_mat (b := F :: b) (by
    obtain ⟨β, hβ⟩ := hb
    exact ⟨0 :: β, hF, hβ⟩) ra.join rx.join eps).seq1 (b := b) (F := F)
    (R' := fun t (a : List ℕ → Fin F → Matrix (Fin (T * C)) (Fin C) ℂ) => Rep3 b F (T * C) C t fun β f i j => a β f i j)
    (fun γ => he0 _ _ _ _) fun t a h => h.split
  simp only [joinF_cons] at hs
  have h2 := Batched.bind (k := fun H => H.reshape (C :: T :: C :: F :: b))
    (k' := fun _ a => .ok fun f => (a f).submatrix (tapEquiv T C).symm id) hs fun H a hH => wpeReshapeT_rep hH
  refine Batched.congr h2 fun β hβ => ?_
  unfold wpeFilter
  have e1 : ∀ f, solveLoaded (Matrix.of fun i j => (wpeAcm (Aw β) (AB β) f).submatrix (tapEquiv T C) (tapEquiv T C) i j)
      (Matrix.of fun i j => (wpeXcv (Aw β) (AX β) (AB β) f).submatrix (tapEquiv T C) id i j) eps =
      (solveLoaded (wpeAcm (Aw β) (AB β) f) (wpeXcv (Aw β) (AX β) (AB β) f) eps).map fun x => x.submatrix (tapEquiv T C) id :=
    fun f => solveLoaded_equiv (wpeAcm (Aw β) (AB β) f) (wpeXcv (Aw β) (AX β) (AB β) f) (tapEquiv T C) eps
  have e2 : ∀ f, solveLoaded (wpeAcm (Aw β) (AB β) f) (wpeXcv (Aw β) (AX β) (AB β) f) eps =
      solveLoaded (Matrix.of fun i j => (wpeAcm (Aw β) (AB β) f).submatrix (tapEquiv T C) (tapEquiv T C) i j)
      (Matrix.of fun i j => (wpeXcv (Aw β) (AX β) (AB β) f).submatrix (tapEquiv T C) id i j) eps >>=
      fun x => .ok (x.submatrix (tapEquiv T C).symm id) := by
    intro f
    rw [e1]
    cases solveLoaded (wpeAcm (Aw β) (AB β) f) (wpeXcv (Aw β) (AX β) (AB β) f) eps with
    | error e => rfl
    | ok x => simp [Except.map]
  exact (seqAll_then (fun f => he0 _ _ _ _) e2).symm

theorem derevT_rep {H X Xbar : Ten ℂ} {AH : List ℕ → Fin F → Matrix (Fin C × Fin T) (Fin C) ℂ}
    {AX : List ℕ → Sig C F N} {AB : List ℕ → Taps C F T N} (hH : Rep4 b F C T C H fun β f c t s => AH β f (c, t) s)
    (hX : Rep3 b C F N X AX) (hB : Rep4 b C F T N Xbar AB) :
    ∃ t, derevT H X Xbar = .ok t ∧ Rep3 b C F N t fun β => wpeDerev (AH β) (AX β) (AB β) := by
  simp [derevT, hH.shape, hX.shape, hB.shape]
  refine ⟨rfl, fun β hβ i hi j hj k hk => ?_⟩
  simp [hβ, hi, hj, hk, hX.val, hH.val, hB.val, wpeDerev]
  exact Finset.sum_comm

/-- The weights of one item. -/
noncomputable def wpeItemWeights (m : Option (WpeModel σ C F N)) (eps : ℝ) (st : WpeState σ C F N) :
    Except Err ((Fin F → Fin N → ℝ) × σ) :=
  match m with
  | none => (wpeDefaultWeights st.Y eps).map fun w => (w, st.ms)
  | some m => .ok (m st.ms st.Y)

theorem wpeStep_eq (X : Sig C F N) (Xbar : Taps C F T N) (m : Option (WpeModel σ C F N)) (eps : ℝ)
    (st : WpeState σ C F N) : wpeStep X Xbar m eps st = wpeItemWeights m eps st >>= fun w =>
      wpeFilter w.1 X Xbar eps >>= fun H => .ok ⟨wpeDerev H X Xbar, w.2⟩ := by
  rcases m with _ | m <;> rfl

theorem wpeWeightsT_rep {M : Option (TenModel τ)} {m : Option (WpeModel σ C F N)} {S : τ → (List ℕ → σ) → Prop}
    (hM : WpeModelRep b C F N M m S) (eps : ℝ) {st : WpeT τ} {A : List ℕ → WpeState σ C F N}
    (h : RepWpe b C F N S st A) :
    Batched b (fun (t : Ten ℝ × τ) (a : List ℕ → (Fin F → Fin N → ℝ) × σ) =>
        Rep2 b F N t.1 (fun β => (a β).1) ∧ S t.2 fun β => (a β).2)
      (wpeWeightsT M eps st.ms st.Y) fun β => wpeItemWeights m eps (A β) := by
  rcases M with _ | M <;> rcases m with _ | m
  · refine ((wpeDefaultWeightsT_rep h.Y eps).bind (k := fun w => .ok (w, st.ms)) (k' := fun β w => .ok (w, (A β).ms))
      fun w a hw => .pure (R := fun (t : Ten ℝ × τ) (a : List ℕ → (Fin F → Fin N → ℝ) × σ) =>
        Rep2 b F N t.1 (fun β => (a β).1) ∧ S t.2 fun β => (a β).2) (a := fun β => (a β, (A β).ms)) ⟨hw, h.ms⟩).congr fun β _ => ?_
    simp only [wpeItemWeights]
    cases wpeDefaultWeights (A β).Y eps <;> rfl
  · exact hM.elim
  · exact hM.elim
  · obtain ⟨w, e, r, hS⟩ := hM st.ms _ st.Y _ h.ms h.Y
    exact .of_ok (a := fun β => m (A β).ms (A β).Y) ⟨w, e, r, hS⟩

theorem wpeStepT_rep (hb : ∃ β, Inside β b) (hF : 0 < F) {M : Option (TenModel τ)} {m : Option (WpeModel σ C F N)}
    {S : τ → (List ℕ → σ) → Prop} (hM : WpeModelRep b C F N M m S) (eps : ℝ) {X Xbar : Ten ℂ}
    {AX : List ℕ → Sig C F N} {AB : List ℕ → Taps C F T N}
    (hX : Rep3 b C F N X AX) (hB : Rep4 b C F T N Xbar AB) {st : WpeT τ} {A : List ℕ → WpeState σ C F N}
    (h : RepWpe b C F N S st A) :
    Batched b (RepWpe b C F N S) (wpeStepT X Xbar M eps st) fun β => wpeStep (AX β) (AB β) m eps (A β) := by
  simp only [wpeStepT, wpeStep_eq]
  refine (wpeWeightsT_rep hM eps h).bind fun w a hw => ?_
  refine (wpeFilterT_rep hb hF hw.1 hX hB eps).bind fun H aH hH => ?_
  refine Batched.bind_ok (derevT_rep hH hX hB) fun Y hY => ?_
  exact .pure (a := fun β => (⟨wpeDerev (aH β) (AX β) (AB β), (a β).2⟩ : WpeState σ C F N)) ⟨hY, hw.2⟩

theorem wpeForwardT_rep (hb : ∃ β, Inside β b) (hF : 0 < F) (nIter T D : ℕ) (eps : ℝ) {M : Option (TenModel τ)}
    {m : Option (WpeModel σ C F N)} {S : τ → (List ℕ → σ) → Prop} (hM : WpeModelRep b C F N M m S) {X : Ten ℂ}
    {AX : List ℕ → Sig C F N} (hX : Rep3 b C F N X AX) {ts : τ} {ms : List ℕ → σ} (hS : S ts ms) :
    Batched b (RepWpe b C F N S) (wpeForwardT nIter T D eps M ts X) fun β =>
      wpeRun nIter T D eps (AX β) m (ms β) := by
  simp only [wpeForwardT, hX.shape, wpeRun]
  refine Batched.bind_ok (delayedT_rep T D hX) fun Xbar hB => ?_
  exact Batched.iter (fun t a ht => wpeStepT_rep hb hF hM eps hX hB ht) nIter
    (a := fun β => (⟨AX β, ms β⟩ : WpeState σ C F N)) ⟨hX, hS⟩

end Torchiva
