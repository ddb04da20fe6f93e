import Verif.Model.TensorTIss
import Verif.Model.Models
import Verif.Proofs.Tensor

/-! The tensor program of T-ISS computes the formulas of `Model/TIss.lean` for every item. -/

namespace Torchiva

set_option linter.unusedSimpArgs false

attribute [local simp] ok_bind' err_bind' pure_ok' comb_self comb_one_left comb_one_right bcast_self
  bcast_nil_left bcast_nil_right bcast_cons bcastTo sel pick onDim unsq swap01 swap12 move13
  reduceKeep maxKeep reduce bindLabel bindOp bindOps einsum matmul eighS List.lookup
  Ten.map Ten.map2 Ten.read bIdx sumOver opIdx einsumT bnat bIdx_inside

variable {b : Shape} {C F N T s : ℕ}

theorem demixDerevT_rep {X Xbar W H : Ten ℂ} {AX AXb AW AH}
    (hX : Rep3 b C F N X AX) (hXb : Rep4 b C F T N Xbar AXb) (hW : Rep3 b s F C W AW)
    (hH : Rep4 b s F C T H AH) :
    ∃ t, demixDerevT X Xbar W H = .ok t ∧
      Rep3 b s F N t fun β => demixDerev (AX β) (AXb β) (AW β) (AH β) := by
  simp [demixDerevT, hX.shape, hXb.shape, hW.shape, hH.shape]
  refine ⟨rfl, fun β hβ i hi j hj k hk => ?_⟩
  simp [hβ, hi, hj, hk, hX.val, hXb.val, hW.val, hH.val]
  rw [Finset.sum_comm]
  rfl

theorem demixBackgroundT_rep (hs : s ≤ C) {X J : Ten ℂ} {AX AJ}
    (hX : Rep3 b C F N X AX) (hJ : Rep3 b (C - s) F s J AJ) :
    ∃ t, demixBackgroundT X J = .ok t ∧
      Rep3 b (C - s) F N t fun β => demixBackground hs (AX β) (AJ β) := by
  simp [demixBackgroundT, Ten.take, Ten.drop, hX.shape, hJ.shape, hs]
  refine ⟨rfl, fun β hβ i hi j hj k hk => ?_⟩
  have h1 : i + s < C := by omega
  have h2 : ∀ x : Fin s, (x : ℕ) < C := fun x => by omega
  simp [hβ, hi, hj, hk, hX.val, hJ.val, h1, h2]
  simp only [demixBackground, add_comm]
  rfl

theorem issType2T_rep {X Zs : Ten ℂ} {w : Ten ℝ} {AX AZ Aw} (eps : ℝ)
    (hX : Rep3 b s F N X AX) (hZ : Rep2 b F N Zs AZ) (hw : Rep3 b s F N w Aw) :
    ∃ t, issType2T X Zs w eps = .ok t ∧
      Rep2 b s F t fun β => issType2 (AX β) (AZ β) (Aw β) eps := by
  simp [issType2T, divideT, magSqT, Ten.toC, hX.shape, hZ.shape, hw.shape]
  refine ⟨rfl, fun β hβ i hi j hj => ?_⟩
  simp [hβ, hi, hj, hX.val, hZ.val, hw.val, issType2, divide, magSq, magSqE, mul_assoc]

theorem issType1T_rep {X : Ten ℂ} {w : Ten ℝ} {AX Aw} (eps : ℝ) (src : Fin s)
    (hX : Rep3 b s F N X AX) (hw : Rep3 b s F N w Aw) :
    ∃ t, issType1T src X w eps = .ok t ∧
      Rep2 b s F t fun β => issType1 src (AX β) (Aw β) eps := by
  simp [issType1T, divideT, magSqT, Ten.toC, Ten.sel, Ten.setSel, hX.shape, hw.shape]
  refine ⟨rfl, fun β hβ i hi j hj => ?_⟩
  simp [hβ, hi, hj, hX.val, hw.val, issType1, divide, magSq, magSqE, mul_assoc, Fin.ext_iff]

theorem issType3T_rep {X Xbar : Ten ℂ} {w : Ten ℝ} {AX AXb Aw} (eps : ℝ) (src : Fin C) (tap : Fin T)
    (hX : Rep3 b s F N X AX) (hXb : Rep4 b C F T N Xbar AXb) (hw : Rep3 b s F N w Aw) :
    ∃ t, issType3T src tap X Xbar w eps = .ok t ∧
      Rep2 b s F t fun β => issType3 src tap (AX β) (AXb β) (Aw β) eps := by
  simp [issType3T, divideT, magSqT, Ten.toC, Ten.sel, hX.shape, hXb.shape, hw.shape]
  refine ⟨rfl, fun β hβ i hi j hj => ?_⟩
  simp [hβ, hi, hj, hX.val, hXb.val, hw.val, issType3, divide, magSq, magSqE, mul_assoc]

/-- The tensors of the ISS updates hold the states of the items. -/
structure RepIss (b : Shape) (s C F N T : ℕ) (st : IssT) (A : List ℕ → IssState s C F N T) : Prop where
  Y : Rep3 b s F N st.Y fun β => (A β).Y
  W : Rep3 b s F C st.W fun β => (A β).W
  H : Rep4 b s F C T st.H fun β => (A β).H

theorem issSrcStepT_rep {w : Ten ℝ} {Aw} (eps : ℝ) (src : Fin s) (hw : Rep3 b s F N w Aw)
    {st : IssT} {A : List ℕ → IssState s C F N T} (h : RepIss b s C F N T st A) :
    ∃ t, issSrcStepT w eps st src = .ok t ∧
      RepIss b s C F N T t fun β => issSrcStep (Aw β) eps (A β) src := by
  obtain ⟨v, hv, rv⟩ := issType1T_rep eps src h.Y hw
  simp [issSrcStepT, hv, Ten.sel, h.Y.shape, h.W.shape, h.H.shape, rv.shape]
  refine ⟨⟨rfl, fun β hβ i hi j hj k hk => ?_⟩, ⟨rfl, fun β hβ i hi j hj k hk => ?_⟩,
    ⟨rfl, fun β hβ i hi j hj k hk l hl => ?_⟩⟩
  · simp [hβ, hi, hj, hk, h.Y.val, rv.val, issSrcStep]
  · simp [hβ, hi, hj, hk, h.W.val, rv.val, issSrcStep]
  · simp [hβ, hi, hj, hk, hl, h.H.val, rv.val, issSrcStep]

theorem issBakStepT_rep (hs : s ≤ C) {w : Ten ℝ} {Z J : Ten ℂ} {Aw AZ AJ} (eps : ℝ) (bak : Fin (C - s))
    (hw : Rep3 b s F N w Aw) (hZ : Rep3 b (C - s) F N Z AZ) (hJ : Rep3 b (C - s) F s J AJ)
    {st : IssT} {A : List ℕ → IssState s C F N T} (h : RepIss b s C F N T st A) :
    ∃ t, issBakStepT s w eps Z J st bak = .ok t ∧
      RepIss b s C F N T t fun β => issBakStep (Aw β) eps (AZ β) (AJ β) (A β) bak := by
  have hb : s + (bak : ℕ) < C := by omega
  obtain ⟨Zs, hZs, rZ⟩ : ∃ t, Z.sel 2 bak = .ok t ∧ Rep2 b F N t fun β => AZ β bak := by
    simp [Ten.sel, hZ.shape]
    refine ⟨rfl, fun β hβ i hi j hj => ?_⟩
    simp [hβ, hi, hj, hZ.val]
  obtain ⟨v, hv, rv⟩ := issType2T_rep eps h.Y rZ hw
  simp only [issBakStepT, hZs, hv, ok_bind']
  simp [Ten.sel, Ten.take, Ten.setTake, Ten.setSel, h.Y.shape, h.W.shape,
    h.H.shape, rv.shape, rZ.shape, hJ.shape, hs, hb]
  refine ⟨⟨rfl, fun β hβ i hi j hj k hk => ?_⟩, ⟨rfl, fun β hβ i hi j hj k hk => ?_⟩, h.H⟩
  · simp [hβ, hi, hj, hk, h.Y.val, rZ.val, rv.val, issBakStep]
  · simp [hβ, hi, hj, hk, h.W.val, rv.val, hJ.val, issBakStep]
    by_cases h1 : k < s
    · have : k ≠ s + bak := by omega
      simp [h1, hJ.val, hβ, hi, hj, hk, this, h.W.val]
    · by_cases h2 : k = s + bak
      · subst h2
        simp [h.W.val, hβ, hi, hj, hk, hb, rv.val]
      · simp [h1, h2, h.W.val, hβ, hi, hj, hk]

theorem issTapStepT_rep {w : Ten ℝ} {Xbar : Ten ℂ} {Aw AXb} (eps : ℝ) (src : Fin C) (tap : Fin T)
    (hw : Rep3 b s F N w Aw) (hXb : Rep4 b C F T N Xbar AXb)
    {st : IssT} {A : List ℕ → IssState s C F N T} (h : RepIss b s C F N T st A) :
    ∃ t, issTapStepT w eps Xbar st src tap = .ok t ∧
      RepIss b s C F N T t fun β => issTapStep (Aw β) eps (AXb β) (A β) src tap := by
  obtain ⟨v, hv, rv⟩ := issType3T_rep eps src tap h.Y hXb hw
  simp [issTapStepT, hv, Ten.sel, Ten.setLast2, h.Y.shape, h.W.shape, h.H.shape, rv.shape, hXb.shape]
  refine ⟨⟨rfl, fun β hβ i hi j hj k hk => ?_⟩, h.W, ⟨rfl, fun β hβ i hi j hj k hk l hl => ?_⟩⟩
  · simp [hβ, hi, hj, hk, h.Y.val, rv.val, hXb.val, issTapStep]
  · simp [hβ, hi, hj, hk, hl, h.H.val, rv.val, issTapStep, Fin.ext_iff]
    by_cases h1 : k = src ∧ l = tap
    · obtain ⟨rfl, rfl⟩ := h1
      simp [h.H.val, hβ, hi, hj, rv.val]
    · simp [h1, h.H.val, hβ, hi, hj, hk, hl]

theorem issUpdatesT_rep {w : Ten ℝ} {Xbar : Ten ℂ} {Aw AXb} (eps : ℝ)
    (hw : Rep3 b s F N w Aw) (hXb : Rep4 b C F T N Xbar AXb)
    {st : IssT} {A : List ℕ → IssState s C F N T} (h : RepIss b s C F N T st A) (hC : s = C) :
    ∃ t, issUpdatesT Xbar w eps none st = .ok t ∧
      RepIss b s C F N T t fun β => issUpdates (AXb β) (Aw β) eps none (A β) := by
  subst hC
  obtain ⟨t1, h1, r1⟩ := foldlM_rep (R := RepIss b s s F N T) (f := issSrcStepT w eps)
    (g := fun β => issSrcStep (Aw β) eps) (fun i t a r => issSrcStepT_rep eps i hw r) h
  obtain ⟨t3, h3, r3⟩ := foldlM_rep (R := RepIss b s s F N T)
    (f := fun st src => (List.range T).foldlM (fun st tap => issTapStepT w eps Xbar st src tap) st)
    (g := fun β st src => (List.finRange T).foldl (fun st tap => issTapStep (Aw β) eps (AXb β) st src tap) st)
    (fun i t a r => foldlM_rep (R := RepIss b s s F N T)
      (f := fun st tap => issTapStepT w eps Xbar st i tap)
      (g := fun β st tap => issTapStep (Aw β) eps (AXb β) st i tap)
      (fun j t a r => issTapStepT_rep eps i j hw hXb r) r) r1
  refine ⟨t3, ?_, r3⟩
  have e1 : st.Y.shape.getD 2 0 = s := by simp [h.Y.shape]
  have e2 : Xbar.shape.getD 1 0 = T := by simp [hXb.shape]
  simp only [issUpdatesT, e1, e2, h1, ok_bind', h3]

theorem issUpdatesT_rep_over (hs : s ≤ C) {w : Ten ℝ} {Xbar Z J : Ten ℂ} {Aw AXb AZ AJ} (eps : ℝ)
    (hw : Rep3 b s F N w Aw) (hXb : Rep4 b C F T N Xbar AXb) (hZ : Rep3 b (C - s) F N Z AZ)
    (hJ : Rep3 b (C - s) F s J AJ)
    {st : IssT} {A : List ℕ → IssState s C F N T} (h : RepIss b s C F N T st A) :
    ∃ t, issUpdatesT Xbar w eps (some (Z, J)) st = .ok t ∧
      RepIss b s C F N T t fun β => issUpdates (AXb β) (Aw β) eps (some (AZ β, AJ β)) (A β) := by
  obtain ⟨t1, h1, r1⟩ := foldlM_rep (R := RepIss b s C F N T) (f := issSrcStepT w eps)
    (g := fun β => issSrcStep (Aw β) eps) (fun i t a r => issSrcStepT_rep eps i hw r) h
  obtain ⟨t2, h2, r2⟩ := foldlM_rep (R := RepIss b s C F N T) (f := issBakStepT s w eps Z J)
    (g := fun β => issBakStep (Aw β) eps (AZ β) (AJ β))
    (fun i t a r => issBakStepT_rep hs eps i hw hZ hJ r) r1
  obtain ⟨t3, h3, r3⟩ := foldlM_rep (R := RepIss b s C F N T)
    (f := fun st src => (List.range T).foldlM (fun st tap => issTapStepT w eps Xbar st src tap) st)
    (g := fun β st src => (List.finRange T).foldl (fun st tap => issTapStep (Aw β) eps (AXb β) st src tap) st)
    (fun i t a r => foldlM_rep (R := RepIss b s C F N T)
      (f := fun st tap => issTapStepT w eps Xbar st i tap)
      (g := fun β st tap => issTapStep (Aw β) eps (AXb β) st i tap)
      (fun j t a r => issTapStepT_rep eps i j hw hXb r) r) r2
  refine ⟨t3, ?_, r3⟩
  have e1 : st.Y.shape.getD 2 0 = s := by simp [h.Y.shape]
  have e2 : Xbar.shape.getD 1 0 = T := by simp [hXb.shape]
  have e3 : Z.shape.getD 2 0 = C - s := by simp [hZ.shape]
  have e4 : s + (C - s) = C := by omega
  simp only [issUpdatesT, e1, e2, e3, h1, h2, ok_bind', Nat.add_sub_cancel_left]
  rw [e4, h3]

theorem backgroundUpdateT_rep (hs : s ≤ C) {W H cXX cXbarX : Ten ℂ} {AW AH A1 A2} (eps : ℝ)
    (hW : Rep3 b s F C W AW) (hH : Rep4 b s F C T H AH) (h1 : Rep3 b C F C cXX A1)
    (h2 : Rep4 b C T F C cXbarX A2) :
    Batched b (Rep3 b (C - s) F s) (backgroundUpdateT W H cXX cXbarX eps) fun β =>
      backgroundUpdate hs (AW β) (AH β) (A1 β) (A2 β) eps := by
  have hA : ∃ t : Ten ℂ, (do
      let A1 ← einsumT [("sfc", W), ("cfd", cXX)] "fsd"
      let A2 ← einsumT [("sfdt", H), ("dtfc", cXbarX)] "fsc"
      Ten.map2 (fun x y => x + y) A1 A2) = .ok t ∧
      Rep3 b F s C t fun β f k d => bgA (AW β) (AH β) (A1 β) (A2 β) f k d := by
    simp [hW.shape, hH.shape, h1.shape, h2.shape]
    refine ⟨rfl, fun β hβ f hf i hi j hj => ?_⟩
    simp [hβ, hf, hi, hj, hW.val, hH.val, h1.val, h2.val, bgA]
    rw [Finset.sum_comm]
  obtain ⟨A, hA, rA⟩ := hA
  obtain ⟨mat, hm, rm⟩ : ∃ t, A.take 0 s = .ok t ∧ Rep3 b F s s t fun β f k d =>
      bgA (AW β) (AH β) (A1 β) (A2 β) f k (Fin.castLE hs d) := by
    simp [Ten.take, rA.shape, hs]
    refine ⟨rfl, fun β hβ f hf i hi j hj => ?_⟩
    have : j < C := by omega
    simp [hβ, hf, hi, hj, this, rA.val]
  obtain ⟨rhs, hr, rr⟩ : ∃ t, A.drop 0 s = .ok t ∧ Rep3 b F s (C - s) t fun β f k d =>
      bgA (AW β) (AH β) (A1 β) (A2 β) f k ⟨s + d, by omega⟩ := by
    simp [Ten.drop, rA.shape]
    refine ⟨rfl, fun β hβ f hf i hi j hj => ?_⟩
    have : j + s < C := by omega
    simp [hβ, hf, hi, hj, this, rA.val]
    congr 2
    exact add_comm _ _
  have e : backgroundUpdateT W H cXX cXbarX eps =
      (solveLoadedGeneralT mat rhs eps eps >>= fun JH => (JH.map star).move13) := by
    have e1 : W.shape.getD 2 0 = s := by simp [hW.shape]
    simp only [backgroundUpdateT, e1]
    simp only [← bind_assoc] at hA ⊢
    rw [hA]
    simp only [ok_bind', hm, hr]
  rw [e]
  refine ((solveLoadedGeneralT_rep eps eps rm (AB := fun β f k d =>
      bgA (AW β) (AH β) (A1 β) (A2 β) f k ⟨s + d, by omega⟩) ?_ ?_).bind
    (S := Rep3 b (C - s) F s) (k' := fun β JH => .ok fun c f k => star (JH f k c)) ?_)
  · simp [rr.shape]
  · intro β hβ f hf i hi j hj
    simp [rr.shape, rr.val, hβ, hf, hi, hj]
  · intro t a r
    refine .of_ok ?_
    simp [Ten.move13, r.shape]
    refine ⟨rfl, fun β hβ i hi j hj k hk => ?_⟩
    simp [Ten.moveIdx13, hβ, hi, hj, hk, r.val]

end Torchiva
