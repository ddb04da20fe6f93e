import Verif.Proofs.Shape

/-! Shapes of AuxIVA, IP2, FIVE, WPE, the beamformers, scaling and selection. -/

namespace Torchiva

attribute [local simp] ok_bind' err_bind' pure_ok' comb_self comb_one_left comb_one_right bcast_self
  bcast_nil_left bcast_nil_right bcast_cons bcastTo sel pick onDim unsq swap01 swap12 move13
  reduceKeep maxKeep reduce bindLabel bindOp bindOps einsum matmul eighS List.lookup catS
  solveLoadedGeneralS_ok solveLoadedGeneralS_ok'

/-! ### AuxIVA-IP -/

section
variable (N F C s : ℕ) (b : Shape)

/-- The shape of `J` in AuxIVA. -/
def jI (F C s : ℕ) (b : Shape) : Option Shape :=
  if s < C then some (s :: (C - s) :: F :: b) else none

theorem orthogonalConstraintS_ok (hs : s ≤ C) :
    orthogonalConstraintS (C :: s :: F :: b) (C :: C :: F :: b) = .ok (jI F C s b) := by
  unfold orthogonalConstraintS jI
  by_cases h : s = C
  · subst h; simp
  · have h1 : s < C := by omega
    have h2 : ¬ C < s := by omega
    simp [h, h1, h2, hs]

theorem ipSrcUpdateS_ok (hs : s ≤ C) (J : Option Shape) (k : ℕ) (hk : k < s) :
    ipSrcUpdateS s C (N :: F :: C :: b) (N :: F :: s :: b) (C :: C :: F :: b)
      (C :: s :: F :: b, J) k = .ok (C :: s :: F :: b, jI F C s b) := by
  have hkC : k < C := by omega
  have hk1 : min k s + 1 + (min s s - (k + 1)) = s := by omega
  have hk2 : min k s + 1 + (s - (k + 1)) = s := by omega
  unfold ipSrcUpdateS
  simp only [orthogonalConstraintS_ok F C s b hs, ok_bind']
  unfold jI
  by_cases h : s < C
  · have hsum : s + (C - s) = C := by omega
    simp [h, hs, hk, hkC, hk2, hsum]
  · have : s = C := by omega
    subst this
    simp [hk, hk2]

theorem ipLoop_ok (hs : s ≤ C) (l : List ℕ) (hl : ∀ k ∈ l, k < s) :
    ∀ J, (J = jI F C s b) → l.foldlM (ipSrcUpdateS s C (N :: F :: C :: b) (N :: F :: s :: b)
      (C :: C :: F :: b)) (C :: s :: F :: b, J) = .ok (C :: s :: F :: b, jI F C s b) := by
  rintro _ rfl
  exact foldlM_const _ _ _ fun k hk => ipSrcUpdateS_ok N F C s b hs _ k (hl k hk)

theorem ipEpochS_ok (verbose : Bool) (hv : verbose = false) (model : ShapeModel) (hs : s ≤ C)
    (hm : model (N :: F :: s :: b) = .ok (N :: F :: s :: b)) :
    ipEpochS verbose model s C (N :: F :: C :: b) (C :: C :: F :: b)
      (N :: F :: s :: b, C :: s :: F :: b, jI F C s b) =
      .ok (N :: F :: s :: b, C :: s :: F :: b, jI F C s b) := by
  subst hv
  have hl := ipLoop_ok N F C s b hs (List.range s) (fun k hk => List.mem_range.mp hk) _ rfl
  simp [ipEpochS, hm, hl]

theorem projectionBackDemixingS_ok (m : ℕ) (hs : s ≤ C) (hm : m < C) :
    projectionBackDemixingS (N :: F :: s :: b) (C :: s :: F :: b) (jI F C s b) m =
      if s < C ∧ s ≤ m then (bcastTo (1 :: s :: F :: b) (1 :: s :: F :: b ++ (F :: b))) >>= fun e =>
        solveLoadedGeneralS (s :: s :: F :: b) e >>= fun a => swap12 a >>= fun a =>
          bcast (N :: F :: s :: b) a
      else .ok (N :: F :: s :: b) := by
  unfold projectionBackDemixingS jI
  by_cases h : s < C
  · by_cases h2 : m < s
    · have : ¬ s ≤ m := by omega
      simp [h, hs, h2, this]
    · have h3 : s ≤ m := by omega
      have : m - s < C - s := by omega
      simp [h, hs, h2, this, h3]
  · have : s = C := by omega
    subst this
    simp [hm]

theorem bcast_append (s t : Shape) : bcast s (s ++ t) = .ok (s ++ t) := by
  induction s with
  | nil => simp
  | cons a s ih => simp [ih]

theorem bcast_append' (s t : Shape) : bcast (s ++ t) s = .ok (s ++ t) := by
  induction s with
  | nil => simp
  | cons a s ih => simp [ih]

theorem projectionBackDemixingS_extra (m : ℕ) (hs : s < C) (hms : s ≤ m) (hm : m < C) :
    projectionBackDemixingS (N :: F :: s :: b) (C :: s :: F :: b) (jI F C s b) m =
      .ok (N :: F :: s :: (b ++ F :: b)) := by
  rw [projectionBackDemixingS_ok N F C s b m hs.le hm, if_pos ⟨hs, hms⟩]
  have h := bcast_append b (F :: b)
  have h' := bcast_append' b (F :: b)
  have hlen : ¬ (F :: (b ++ F :: b) = b) := by
    intro h
    have := congrArg List.length h
    simp at this
    omega
  simp [h, h', solveLoadedGeneralS, solveS, hlen]

theorem auxivaForwardS_ok (nIter N F C s : ℕ) (pb : Option ℕ) (model : ShapeModel) (b : Shape)
    (hs : s ≤ C) (hm : model (N :: F :: s :: b) = .ok (N :: F :: s :: b)) :
    auxivaForwardS false nIter s pb model (N :: F :: C :: b) =
      match pb with
      | some m => projectionBackDemixingS (N :: F :: s :: b) (C :: s :: F :: b) (jI F C s b) m
      | none => .ok (N :: F :: s :: b) := by
  have h := iterM_const _ _ nIter (ipEpochS_ok N F C s b false rfl model hs hm)
  cases pb <;> simp [auxivaForwardS, orthogonalConstraintS_ok F C s b hs, hs, h]

theorem ipCostS_batch (Y W : Shape) (J : Option Shape) (hW : W.length ≠ 3) :
    ipCostS Y W J = .error .valueError := by
  unfold ipCostS
  split
  · simp at hW
  · rfl

theorem ipCostS_ok (hs : s ≤ C) :
    ipCostS [N, F, s] [C, s, F] (jI F C s []) = .ok [] := by
  unfold ipCostS jI
  by_cases h : s < C
  · have : s + (C - s) = C := by omega
    simp [h, this]
  · have : s = C := by omega
    subst this
    simp

end

/-! ### AuxIVA-IP2 -/

section
variable (N F : ℕ) (b : Shape)

theorem ip2UpdateS_ok : ip2UpdateS (N :: F :: 2 :: b) (N :: F :: 2 :: b) =
    .ok (N :: F :: 2 :: b, 2 :: 2 :: F :: b) := by
  have hV : einsum [("fn", N :: F :: b), ("cfn", N :: F :: 2 :: b), ("dfn", N :: F :: 2 :: b)] "fcd" =
      .ok (2 :: 2 :: F :: b) := by simp
  have hX : einsum [("fcd", 2 :: 2 :: F :: b), ("dfn", N :: F :: 2 :: b)] "cfn" =
      .ok (N :: F :: 2 :: b) := by simp
  simp [-einsum, ip2UpdateS, eigh2S, hV, hX]

theorem auxiva2ForwardS_ok (nIter : ℕ) (pb : Option ℕ) (model : ShapeModel)
    (hm : model (N :: F :: 2 :: b) = .ok (N :: F :: 2 :: b)) (hpb : ∀ m ∈ pb, m < 2) :
    auxiva2ForwardS nIter pb model (N :: F :: 2 :: b) = .ok (N :: F :: 2 :: b) := by
  have h : iterM (ip2EpochS model (N :: F :: 2 :: b)) nIter (N :: F :: 2 :: b, 2 :: 2 :: F :: b) =
      .ok (N :: F :: 2 :: b, 2 :: 2 :: F :: b) := by
    apply iterM_const
    simp [ip2EpochS, hm, ip2UpdateS_ok]
  cases pb with
  | none => simp [auxiva2ForwardS, h]
  | some m =>
    have hm2 : m < 2 := hpb m rfl
    by_cases hn : 0 < nIter
    · simp [auxiva2ForwardS, h, Nat.le_of_lt_succ hm2, hm2, hn]
    · simp [auxiva2ForwardS, h, Nat.le_of_lt_succ hm2, hn]

/-! ### FIVE -/

variable (C : ℕ)

theorem eighFullS_ok (n : ℕ) (b : Shape) : eighFullS (n :: n :: b) none = .ok (n :: b, n :: n :: b) := by
  by_cases h : n = 2
  · subst h; simp [eighFullS, eigh2S]
  · simp [eighFullS, h]

theorem invLoadedS_ok (n : ℕ) (hn : 0 < n) (b : Shape) :
    invLoadedS (n :: n :: b) = .ok (n :: n :: b) := by
  simp [invLoadedS, hn.ne']

theorem fiveVectorS_ok (nPower : Option ℕ) (hC : 0 < C) (hp : ∀ n ∈ nPower, 2 ≤ n) :
    fiveVectorS nPower (C :: C :: F :: b) = .ok (C :: F :: b) := by
  cases nPower with
  | none => simp [fiveVectorS, hC]
  | some n =>
    have hn : 2 ≤ n := hp n rfl
    have h : iterM (fun x => do
        let y ← einsum [("fcd", C :: C :: F :: b), ("fd", x)] "fc"
        let ev ← reduce 0 y
        let ev ← unsq 0 ev
        bcast y ev) (n - 1) (C :: F :: b) = .ok (C :: F :: b) := by
      apply iterM_const
      simp
    have h1 : ¬ n - 1 = 0 := by omega
    simp only [fiveVectorS, invLoadedS_ok C hC, ok_bind']
    simp only [sel, hC, if_true, ok_bind', reduceKeep, onDim, bcast_cons, comb_self, comb_one_right,
      bcast_self, h]
    simp [h1]

theorem fiveForwardS_ok (nIter m : ℕ) (hm : m < C) (nPower : Option ℕ) (hp : ∀ n ∈ nPower, 2 ≤ n)
    (model : ShapeModel) (hmod : model (N :: (F - 1) :: b) = .ok (N :: (F - 1) :: b)) (hF : 0 < F) :
    fiveForwardS nIter (some m) nPower model (N :: F :: C :: b) = .ok (N :: F :: 1 :: b) := by
  have hC : 0 < C := by omega
  have h : iterM (fiveEpochS nPower model (N :: (F - 1) :: C :: b) (C :: (F - 1) :: b)) nIter
      (N :: (F - 1) :: b) = .ok (N :: (F - 1) :: b) := by
    apply iterM_const
    simp [fiveEpochS, hmod, fiveVectorS_ok _ _ _ nPower hC hp]
  have h1 : 1 + (F - 1) = F := by omega
  simp [fiveForwardS, eighFullS_ok, hm, hC, h, h1]

/-! ### WPE -/

theorem numel_cons (n : ℕ) (s : Shape) : numel (n :: s) = n * numel s := by simp [numel]

theorem solveLoadedS_mat (n k : ℕ) (hn : 0 < n) (b : Shape) :
    solveLoadedS (n :: n :: b) (k :: n :: b) = .ok (k :: n :: b) := by
  simp [solveLoadedS, hn.ne', solveS]

theorem solveLoadedS_vec (n : ℕ) (hn : 0 < n) (b : Shape) :
    solveLoadedS (n :: n :: b) (n :: b) = .ok (n :: b) := by
  simp [solveLoadedS, hn.ne', solveS]

theorem wpeStepS_ok (T : ℕ) (hC : 0 < C) (hT : 0 < T) (model : Option ShapeModel)
    (hm : ∀ m ∈ model, m (N :: F :: C :: b) = .ok (N :: F :: b)) :
    wpeStepS model (N :: F :: C :: b) (N :: T :: F :: C :: b) (N :: F :: C :: b) =
      .ok (N :: F :: C :: b) := by
  have e1 : numel (T :: C :: T :: C :: F :: b) = numel ((T * C) :: (T * C) :: F :: b) := by
    simp only [numel_cons]; ring
  have e2 : numel (C :: T :: C :: F :: b) = numel (C :: (T * C) :: F :: b) := by
    simp only [numel_cons]; ring
  have hw : wpeModelS model (N :: F :: C :: b) = .ok (N :: F :: b) := by
    cases model with
    | none => simp [wpeModelS, wpeWeightsS]
    | some m => exact hm m rfl
  simp only [wpeStepS, hw, ok_bind']
  simp [reshapeS, e1, e2, solveLoadedS_mat _ _ (Nat.mul_pos hT hC)]

theorem wpeForwardS_ok (nIter T D : ℕ) (hC : 0 < C) (hT : 0 < T) (model : Option ShapeModel)
    (hm : ∀ m ∈ model, m (N :: F :: C :: b) = .ok (N :: F :: b)) :
    wpeForwardS nIter T D model (N :: F :: C :: b) = .ok (N :: F :: C :: b) := by
  have hT' : T + D + 1 - (D + 1) = T := by omega
  have hN : N + (T + D) + 1 - (T + D + 1) = N := by omega
  simp only [wpeForwardS, delayedS, ok_bind', hT', hN]
  exact iterM_const _ _ _ (wpeStepS_ok N F b C T hC hT model hm)

/-! ### Beamformers -/

theorem eighFullS_gen (n : ℕ) (b : Shape) :
    eighFullS (n :: n :: b) (some (n :: n :: b)) = .ok (n :: b, n :: n :: b) := by
  by_cases h : n = 2
  · subst h; simp [eighFullS, eigh2S]
  · simp [eighFullS, h]

variable (s k : ℕ)

theorem maskCovS_ok (i : ℕ) (hi : i < k) :
    maskCovS (N :: F :: k :: s :: b) (N :: F :: C :: b) i = .ok (C :: C :: F :: s :: b) := by
  simp [maskCovS, hi]

theorem mvdrRtfS_ok (ref : ℕ) (hr : ref < C) (nPower : Option ℕ) (b : Shape) :
    mvdrRtfS (C :: C :: b) (C :: C :: b) ref nPower = .ok (C :: b) := by
  have hC : 0 < C := by omega
  cases nPower with
  | none => simp [mvdrRtfS, eighFullS_gen, hC, hr]
  | some n =>
    have h : iterM (fun v => einsum [("cd", C :: C :: b), ("d", v)] "c") (n - 1) (C :: b) =
        .ok (C :: b) := by
      apply iterM_const
      simp
    simp only [mvdrRtfS, solveLoadedS_mat _ _ hC, ok_bind', sel, hC, if_true, h]
    simp [hr]

theorem mvdrBfS_ok (hC : 0 < C) (b : Shape) :
    mvdrBfS (C :: C :: b) (C :: b) = .ok (C :: b) := by
  simp [mvdrBfS, solveLoadedS_vec _ hC]

theorem mvdrBf2S_ok (ref : ℕ) (hr : ref < C) (b : Shape) :
    mvdrBf2S (C :: C :: b) (C :: C :: b) ref = .ok (C :: b) := by
  simp [mvdrBf2S, solveS, hr]

theorem mvdrForwardS_ok (mask : ShapeModel) (hmask : mask (N :: F :: b) = .ok (N :: F :: k :: s :: b))
    (hk : k = 2 ∨ k = 3) (ref : ℕ) (hr : ref < C) (ty : String) (hty : k = 2 → ty = "rtf" ∨ ty = "scm")
    (nPower : Option ℕ) :
    mvdrForwardS mask ref ty nPower (N :: F :: C :: b) = .ok (N :: F :: s :: b) := by
  have hC : 0 < C := by omega
  rcases hk with rfl | rfl
  · rcases hty rfl with rfl | rfl
    · simp [mvdrForwardS, hr, hmask, maskCovS_ok, mvdrRtfS_ok, mvdrBfS_ok, hC]
    · simp [mvdrForwardS, hr, hmask, maskCovS_ok, mvdrBf2S_ok]
  · simp [mvdrForwardS, hr, hmask, maskCovS_ok, mvdrRtfS_ok, mvdrBfS_ok, hC]

theorem mwfForwardS_ok (mask : ShapeModel) (hmask : mask (N :: F :: b) = .ok (N :: F :: k :: s :: b))
    (ti : Bool) (hk : 2 ≤ k) (hti : ti = false → k = 4) (ref : ℕ) (hr : ref < C) :
    mwfForwardS mask ref ti (N :: F :: C :: b) = .ok (N :: F :: s :: b) := by
  have hC : 0 < C := by omega
  have h0 : 0 < k := by omega
  have h1 : 1 < k := by omega
  cases ti with
  | true => simp [mwfForwardS, hr, hmask, maskCovS_ok, h0, h1, mwfBfS, solveLoadedS_vec _ hC]
  | false =>
    obtain rfl := hti rfl
    simp [mwfForwardS, hr, hmask, maskCovS_ok, mwfBfS, solveLoadedS_vec _ hC]

theorem gevForwardS_ok (mask : ShapeModel) (hmask : mask (N :: F :: b) = .ok (N :: F :: k :: s :: b))
    (hk : 2 ≤ k) (ref : ℕ) (hr : ref < C) :
    gevForwardS mask ref (N :: F :: C :: b) = .ok (N :: F :: s :: b) := by
  have hC : 0 < C := by omega
  have h0 : 0 < k := by omega
  have h1 : 1 < k := by omega
  simp [gevForwardS, hr, hmask, maskCovS_ok, h0, h1, gevBfS, eighFullS_gen, solveS, hC, bmmS]

/-! ### Scaling and selection -/

theorem minDistL2S_ok : minDistL2S (N :: F :: C :: b) (N :: F :: b) = .ok (N :: F :: C :: b) := by
  simp [minDistL2S]

theorem minDistL2PhaseS_ok :
    minDistL2PhaseS (N :: F :: C :: b) (N :: F :: b) = .ok (N :: F :: C :: b) := by
  simp [minDistL2PhaseS]

theorem minDistS_ok (n : ℕ) :
    minDistS none n (N :: F :: C :: b) (N :: F :: b) = .ok (N :: F :: C :: b) := by
  have h : iterM (mdStepS none (N :: C :: F :: b) (N :: F :: b)) n (C :: F :: b) =
      .ok (C :: F :: b) := by
    apply iterM_const
    simp [mdStepS]
  simp [minDistS, h]

theorem selectS_ok (num : ℕ) :
    selectS num (N :: C :: b) = .ok (N :: min num C :: b) := by
  simp [selectS]

theorem projectionBackS_ok (hC : 0 < C) (hN : C ≤ N) :
    projectionBackS (N :: F :: C :: b) (N :: F :: b) = .ok (N :: F :: C :: b) := by
  have h1 : numel (C :: C :: F :: b) = numel [C, C] * numel (F :: b) := by
    simp only [numel_cons]; simp [numel]; ring
  have h2 : numel (1 :: C :: F :: b) = numel [1, C] * numel (F :: b) := by
    simp only [numel_cons]; simp [numel]
  have hp1 : 0 < numel [C, C] := by simp [numel, hC]
  have hp2 : 0 < numel [1, C] := by simp [numel, hC]
  have h3 : numel [1, C, numel (F :: b)] = numel (1 :: C :: F :: b) := by
    simp only [numel_cons]; simp [numel]
  have r1 : reshapeFlat (C :: C :: F :: b) [C, C] = .ok [C, C, numel (F :: b)] := by
    unfold reshapeFlat
    rw [if_neg hp1.ne', h1, Nat.mul_mod_right, if_pos rfl, Nat.mul_div_cancel_left _ hp1]
    rfl
  have r2 : reshapeFlat (1 :: C :: F :: b) [1, C] = .ok [1, C, numel (F :: b)] := by
    unfold reshapeFlat
    rw [if_neg hp2.ne', h2, Nat.mul_mod_right, if_pos rfl, Nat.mul_div_cancel_left _ hp2]
    rfl
  simp [projectionBackS, hN, r1, r2, solveS, reshapeS, h3]

theorem minDistS_model_unbatched (m : ShapeModel) (n : ℕ)
    (hm : m [N, F, C] = .ok [N, F, C]) :
    minDistS (some m) (n + 1) [N, F, C] [N, F] = .error .indexError := by
  have s1 : swap12 [N, F, C] = .ok [N, C, F] := rfl
  have s2 : swap12 [N, C, F] = .ok [N, F, C] := rfl
  have r1 : reduce 0 [N, C, F] = .ok [C, F] := rfl
  have u1 : unsq 1 [N, F] = .ok [N, 1, F] := rfl
  have u2 : unsq 0 [C, F] = .ok [1, C, F] := rfl
  have b1 : bcast [1, C, F] [N, C, F] = .ok [N, C, F] := by
    rw [bcast_cons, comb_one_left, bcast_self]; rfl
  have b2 : bcast [N, 1, F] [N, C, F] = .ok [N, C, F] := by
    rw [bcast_cons, comb_self, bcast_cons, comb_one_left, bcast_self]; rfl
  have e1 : sel 3 0 [N, C, F] = .error .indexError := rfl
  simp only [minDistS, iterM, mdStepS, s1, s2, r1, u1, u2, b1, b2, hm, e1, ok_bind', err_bind']

theorem minDistS_model_batch (m : ShapeModel) (n B : ℕ) (hB : 0 < B) (hF : 0 < F)
    (hm : m [N, F, C, B] = .ok [N, F, C, B]) :
    minDistS (some m) n [N, F, C, B] [N, F, B] = .ok [N, F, C, B] := by
  have h : iterM (mdStepS (some m) [N, C, F, B] [N, F, B]) n [C, F, B] = .ok [C, F, B] := by
    apply iterM_const
    simp [mdStepS, hm, hB, hF]
  simp [minDistS, h]

/-- One update with a model, up to the product with the weights kept by `[..., 0, 0, :, :]`. -/
theorem mdStepS_model (m : ShapeModel) (B : ℕ) (r : Shape) (hB : 0 < B) (hF : 0 < F)
    (hm : m (N :: F :: C :: B :: r) = .ok (N :: F :: C :: B :: r)) :
    mdStepS (some m) (N :: C :: F :: B :: r) (N :: F :: B :: r) (C :: F :: B :: r) = (do
      let n2 ← bcast (N :: C :: F :: B :: r) (N :: C :: r)
      let num ← reduce 0 n2
      let d ← bcast (N :: C :: F :: B :: r) (N :: C :: r)
      let den ← reduce 0 d
      bcast num den) := by
  have u1 : unsq 1 (N :: F :: B :: r) = .ok (N :: 1 :: F :: B :: r) := rfl
  have u2 : unsq 0 (C :: F :: B :: r) = .ok (1 :: C :: F :: B :: r) := rfl
  have b1 : bcast (1 :: C :: F :: B :: r) (N :: C :: F :: B :: r) = .ok (N :: C :: F :: B :: r) := by
    rw [bcast_cons, comb_one_left, bcast_self]; rfl
  have b2 : bcast (N :: 1 :: F :: B :: r) (N :: C :: F :: B :: r) = .ok (N :: C :: F :: B :: r) := by
    rw [bcast_cons, comb_self, bcast_cons, comb_one_left, bcast_self]; rfl
  have s1 : swap12 (N :: C :: F :: B :: r) = .ok (N :: F :: C :: B :: r) := rfl
  have s2 : swap12 (N :: F :: C :: B :: r) = .ok (N :: C :: F :: B :: r) := rfl
  have e1 : sel 3 0 (N :: C :: F :: B :: r) = .ok (N :: C :: F :: r) := by
    simp [sel, hB]
  have e2 : sel 2 0 (N :: C :: F :: r) = .ok (N :: C :: r) := by
    simp [sel, hF]
  have k1 : reduceKeep 0 (N :: C :: r) = .ok (1 :: C :: r) := rfl
  have b3 : bcast (N :: C :: r) (1 :: C :: r) = .ok (N :: C :: r) := by
    rw [bcast_cons, comb_one_right, bcast_self]; rfl
  simp only [mdStepS, u1, u2, b1, b2, s1, s2, e1, e2, k1, b3, hm, ok_bind']

theorem minDistS_model_batches_err (m : ShapeModel) (n a B : ℕ) (r : Shape) (hB : 0 < B) (hF : 1 < F) (ha : a ≠ 1)
    (haF : a ≠ F) (hm : m (N :: F :: C :: B :: a :: r) = .ok (N :: F :: C :: B :: a :: r)) :
    minDistS (some m) (n + 1) (N :: F :: C :: B :: a :: r) (N :: F :: B :: a :: r) = .error .runtimeError := by
  have hF1 : F ≠ 1 := by omega
  have h1 : comb F a = .error .runtimeError := by
    unfold comb
    rw [if_neg haF.symm, if_neg hF1, if_neg ha]
  have h2 : bcast (F :: B :: a :: r) (a :: r) = .error .runtimeError := by
    rw [bcast, h1, err_bind']
  have hc : bcast (N :: C :: F :: B :: a :: r) (N :: C :: a :: r) = .error .runtimeError := by
    rw [bcast, comb_self, ok_bind', bcast, comb_self, ok_bind', h2, err_bind', err_bind']
  have hs : mdStepS (some m) (N :: C :: F :: B :: a :: r) (N :: F :: B :: a :: r) (C :: F :: B :: a :: r)
      = .error .runtimeError := by
    rw [mdStepS_model N F C m B (a :: r) hB (by omega) hm, hc, err_bind']
  have s1 : swap12 (N :: F :: C :: B :: a :: r) = .ok (N :: C :: F :: B :: a :: r) := rfl
  have r1 : reduce 0 (N :: C :: F :: B :: a :: r) = .ok (C :: F :: B :: a :: r) := rfl
  simp only [minDistS, s1, r1, iterM, hs, ok_bind', err_bind']

theorem minDistS_model_batches_one (m : ShapeModel) (n B : ℕ) (hB : 0 < B) (hF : 0 < F)
    (hm : m [N, F, C, B, 1] = .ok [N, F, C, B, 1]) :
    minDistS (some m) n [N, F, C, B, 1] [N, F, B, 1] = .ok [N, F, C, B, 1] := by
  have hc : bcast [N, C, F, B, 1] [N, C, 1] = .ok [N, C, F, B, 1] := by
    rw [bcast, comb_self, ok_bind', bcast, comb_self, ok_bind', bcast, comb_one_right, ok_bind', bcast_nil_right]
    rfl
  have h : iterM (mdStepS (some m) [N, C, F, B, 1] [N, F, B, 1]) n [C, F, B, 1] = .ok [C, F, B, 1] := by
    apply iterM_const
    rw [mdStepS_model N F C m B [1] hB hF hm, hc]
    have r1 : reduce 0 [N, C, F, B, 1] = .ok [C, F, B, 1] := rfl
    simp only [ok_bind', r1, bcast_self]
  have s1 : swap12 [N, F, C, B, 1] = .ok [N, C, F, B, 1] := rfl
  have r1 : reduce 0 [N, C, F, B, 1] = .ok [C, F, B, 1] := rfl
  have u1 : unsq 0 [C, F, B, 1] = .ok [1, C, F, B, 1] := rfl
  have s2 : swap12 [1, C, F, B, 1] = .ok [1, F, C, B, 1] := rfl
  have b1 : bcast [N, F, C, B, 1] [1, F, C, B, 1] = .ok [N, F, C, B, 1] := by
    rw [bcast_cons, comb_one_right, bcast_self]; rfl
  simp only [minDistS, s1, r1, h, u1, s2, b1, ok_bind']

/-! ### FIVE without projection back -/

theorem fiveEpochS_none (nPower : Option ℕ) (hp : ∀ n ∈ nPower, 2 ≤ n) (hC : 0 < C) (f : ℕ)
    (model : ShapeModel) (t : Shape) (ht : t = [] ∨ t = [C, f])
    (hm : model (N :: f :: t) = .ok (N :: f :: t)) :
    fiveEpochS nPower model [N, f, C] [C, 1, C, f] (N :: f :: t) = .ok [N, f, C, f] := by
  rcases ht with rfl | rfl
  · simp [fiveEpochS, hm, fiveVectorS_ok _ _ _ nPower hC hp]
  · simp [fiveEpochS, hm, fiveVectorS_ok _ _ _ nPower hC hp]

theorem fiveForwardS_none (nIter : ℕ) (hC : 0 < C) (nPower : Option ℕ) (hp : ∀ n ∈ nPower, 2 ≤ n)
    (model : ShapeModel) (hmod : ∀ t, model (N :: (F - 1) :: t) = .ok (N :: (F - 1) :: t))
    (hF : 0 < F) :
    fiveForwardS (nIter + 1) none nPower model [N, F, C] = .ok [N, F, 1, C, F - 1] := by
  have h : iterM (fiveEpochS nPower model [N, F - 1, C] [C, 1, C, F - 1]) (nIter + 1)
      [N, F - 1] = .ok [N, F - 1, C, F - 1] := by
    rw [iterM, fiveEpochS_none N C nPower hp hC (F - 1) model [] (Or.inl rfl) (hmod _), ok_bind']
    exact iterM_const _ _ _
      (fiveEpochS_none N C nPower hp hC (F - 1) model _ (Or.inr rfl) (hmod _))
  have h1 : 1 + (F - 1) = F := by omega
  simp [fiveForwardS, eighFullS_ok, hC, h, h1]

theorem fiveForwardS_none_batch (nIter B : ℕ) (hC : 1 < C) (hB : 1 < B) (hBC : B ≠ C)
    (nPower : Option ℕ) (hp : ∀ n ∈ nPower, 2 ≤ n) (model : ShapeModel)
    (hmod : ∀ t, model (N :: (F - 1) :: t) = .ok (N :: (F - 1) :: t)) :
    fiveForwardS (nIter + 1) none nPower model [N, F, C, B] = .error .runtimeError := by
  have hC0 : 0 < C := by omega
  have hc : comb C B = .error .runtimeError := by
    unfold comb
    rw [if_neg (fun h => hBC h.symm), if_neg (by omega), if_neg (by omega)]
  have h : fiveEpochS nPower model [N, F - 1, C, B] [C, 1, C, F - 1, B] [N, F - 1, B] =
      .error .runtimeError := by
    simp [fiveEpochS, hmod, fiveVectorS_ok _ _ _ nPower hC0 hp, hc]
  simp [fiveForwardS, eighFullS_ok, hC0, iterM, h]

/-! ### WPE with a model that keeps the channels -/

theorem comb_err (m n : ℕ) (e : Err) (h : comb m n = .error e) : e = .runtimeError := by
  unfold comb at h
  split_ifs at h <;> simp_all

theorem bcast_err (s t : Shape) (e : Err) (h : bcast s t = .error e) : e = .runtimeError := by
  induction s generalizing t with
  | nil => simp at h
  | cons a s ih =>
    cases t with
    | nil => simp at h
    | cons c t =>
      rw [bcast_cons] at h
      cases h1 : comb a c with
      | error e1 =>
        rw [h1, err_bind'] at h
        exact comb_err _ _ _ (h1.trans (by simpa using h))
      | ok k =>
        rw [h1, ok_bind'] at h
        cases h2 : bcast s t with
        | error e2 =>
          rw [h2, err_bind'] at h
          exact ih t (h2.trans (by simpa using h))
        | ok r => rw [h2, ok_bind'] at h; simp at h

theorem comb_le (m n k : ℕ) (hn : 0 < n) (h : comb m n = .ok k) : m ≤ k := by
  unfold comb at h
  split_ifs at h <;> simp_all <;> omega

theorem bcast_numel (s t r : Shape) (hs : ∀ n ∈ s, 0 < n) (ht : ∀ n ∈ t, 0 < n)
    (h : bcast s t = .ok r) :
    numel s ≤ numel r ∧ ∀ n ∈ r, 0 < n := by
  induction s generalizing t r with
  | nil =>
    simp at h; subst h
    refine ⟨?_, ht⟩
    have : 0 < numel t := Nat.pos_of_ne_zero (by
      intro h0
      rw [numel, List.prod_eq_zero_iff] at h0
      exact (ht 0 h0).ne rfl)
    exact this
  | cons a s ih =>
    cases t with
    | nil => simp at h; subst h; exact ⟨le_rfl, hs⟩
    | cons c t =>
      rw [bcast_cons] at h
      cases h1 : comb a c with
      | error e1 => rw [h1, err_bind'] at h; simp at h
      | ok k =>
        rw [h1, ok_bind'] at h
        cases h2 : bcast s t with
        | error e2 => rw [h2, err_bind'] at h; simp at h
        | ok r' =>
          rw [h2, ok_bind'] at h
          simp at h; subst h
          obtain ⟨hle, hpos⟩ := ih t r' (fun n hn => hs n (by simp [hn]))
            (fun n hn => ht n (by simp [hn])) h2
          have hk := comb_le a c k (ht c (by simp)) h1
          have ha := hs a (by simp)
          refine ⟨?_, ?_⟩
          · rw [numel_cons, numel_cons]; exact Nat.mul_le_mul hk hle
          · intro n hn
            rcases List.mem_cons.mp hn with rfl | hn
            · omega
            · exact hpos n hn

theorem numel_pos (s : Shape) (hs : ∀ n ∈ s, 0 < n) : 0 < numel s :=
  Nat.pos_of_ne_zero (by
    intro h0
    rw [numel, List.prod_eq_zero_iff] at h0
    exact (hs 0 h0).ne rfl)

theorem wpeStepS_err (T : ℕ) (hF : 0 < F) (hC : 1 < C) (hT : 0 < T) (hb : ∀ n ∈ b, 0 < n)
    (m : ShapeModel) (hm : m (N :: F :: C :: b) = .ok (N :: F :: C :: b)) :
    wpeStepS (some m) (N :: F :: C :: b) (N :: T :: F :: C :: b) (N :: F :: C :: b) =
      .error .runtimeError := by
  have hCb : ∀ n ∈ C :: b, 0 < n := by
    intro n hn
    rcases List.mem_cons.mp hn with rfl | hn
    · omega
    · exact hb n hn
  simp only [wpeStepS, wpeModelS, hm, ok_bind']
  cases h1 : bcast (C :: b) b with
  | error e => simp [h1, bcast_err _ _ _ h1]
  | ok r =>
    obtain ⟨hr, hrpos⟩ := bcast_numel _ _ _ hCb hb h1
    cases h2 : bcast r b with
    | error e => simp [h1, h2, bcast_err _ _ _ h2]
    | ok r2 =>
      obtain ⟨hr2, -⟩ := bcast_numel _ _ _ hrpos hb h2
      have hne : ¬ numel (T :: C :: T :: C :: F :: r2) = numel ((T * C) :: (T * C) :: F :: b) := by
        simp only [numel_cons] at hr ⊢
        have hbp := numel_pos b hb
        have : numel b < numel r2 := by nlinarith
        have hp : 0 < T * C * (T * C) * F := by positivity
        intro h
        have : T * C * (T * C) * F * numel r2 = T * C * (T * C) * F * numel b := by
          linarith
        have := Nat.eq_of_mul_eq_mul_left hp this
        omega
      simp [h1, h2, reshapeS, hne]

theorem wpeForwardS_err (nIter T D : ℕ) (hF : 0 < F) (hC : 1 < C) (hT : 0 < T) (hb : ∀ n ∈ b, 0 < n)
    (m : ShapeModel) (hm : m (N :: F :: C :: b) = .ok (N :: F :: C :: b)) :
    wpeForwardS (nIter + 1) T D (some m) (N :: F :: C :: b) = .error .runtimeError := by
  have hT' : T + D + 1 - (D + 1) = T := by omega
  have hN : N + (T + D) + 1 - (T + D + 1) = N := by omega
  simp only [wpeForwardS, delayedS, ok_bind', hT', hN, iterM,
    wpeStepS_err N F b C T hF hC hT hb m hm, err_bind']

/-! ### Source models that flatten the batch -/

theorem reshapeFlat_ok (t b : Shape) (ht : 0 < numel t) :
    reshapeFlat (t ++ b) t = .ok (t ++ [numel b]) := by
  have : numel (t ++ b) = numel t * numel b := by simp [numel]
  unfold reshapeFlat
  rw [if_neg ht.ne', this, Nat.mul_mod_right, if_pos rfl, Nat.mul_div_cancel_left _ ht]

theorem nmfS_ok (hN : 0 < N) (hF : 0 < F) : nmfS (N :: F :: b) = .ok (N :: F :: b) := by
  have h := reshapeFlat_ok [N, F] b (by simp [numel, hN, hF])
  simp only [List.cons_append, List.nil_append] at h
  have : numel [N, F, numel b] = numel (N :: F :: b) := by
    simp only [numel_cons]; simp [numel]
  simp [nmfS, h, reshapeS, this]

theorem maskSupportS_ok (hN : 0 < N) (hF : 0 < F) (nS nM : ℕ) (hS : 0 < nS) (hM : 0 < nM)
    (hb : ∀ n ∈ b, 0 < n) :
    maskSupportS nS nM (N :: F :: b) = .ok (N :: F :: nM :: nS :: b) := by
  have h := reshapeFlat_ok [N, F] b (by simp [numel, hN, hF])
  simp only [List.cons_append, List.nil_append] at h
  have h2 : numel [N, nM * nS * F, numel b] = numel (N :: (nM * nS * F) :: b) := by
    simp only [numel_cons]; simp [numel]
  have hbp := numel_pos b hb
  have h3 : ¬ numel b * nS * nM * N = 0 := by positivity
  have h4 : numel (N :: (nM * nS * F) :: b) / (numel b * nS * nM * N) = F := by
    simp only [numel_cons]
    rw [show N * (nM * nS * F * numel b) = (numel b * nS * nM * N) * F by ring]
    exact Nat.mul_div_cancel_left _ (Nat.pos_of_ne_zero h3)
  have h5 : numel (N :: (nM * nS * F) :: b) = numel (N :: F :: nM :: nS :: b) := by
    simp only [numel_cons]; ring
  simp only [maskSupportS, h, ok_bind', reduce, reshapeS, h2, if_true]
  rw [if_neg h3, h4, if_pos h5]

/-! ### STFT and the separator object -/

theorem stftS_ok (nFft : ℕ) (hop : Option ℕ) (n : ℕ) (hn : nFft / 2 < n) (hh : 0 < hopOf nFft hop)
    (b : Shape) : stftS nFft hop (n :: b) =
      .ok (stftFrames nFft (hopOf nFft hop) n :: (nFft / 2 + 1) :: b) := by
  have h := reshapeFlat_ok [n] b (by simp [numel]; omega)
  simp only [List.cons_append, List.nil_append] at h
  have hc : ¬ (n ≤ nFft / 2 ∨ hopOf nFft hop = 0) := by omega
  simp only [stftS, h, ok_bind', if_neg hc, List.drop_succ_cons, List.drop_zero, reshapeS]
  rw [if_pos]
  simp only [numel_cons]; simp [numel]

theorem stftInvS_ok (nFft : ℕ) (hop : Option ℕ) (n : ℕ) (hn : 0 < n) (hh : 0 < hopOf nFft hop)
    (hh2 : hopOf nFft hop ≤ nFft) (b : Shape) : stftInvS nFft hop (n :: (nFft / 2 + 1) :: b) =
      .ok (istftLen nFft (hopOf nFft hop) n :: b) := by
  have h := reshapeFlat_ok [n, nFft / 2 + 1] b (by simp [numel]; omega)
  simp only [List.cons_append, List.nil_append] at h
  have hc : ¬ (nFft / 2 + 1 ≠ nFft / 2 + 1 ∨ n = 0 ∨ hopOf nFft hop = 0 ∨ nFft < hopOf nFft hop) := by
    omega
  simp only [stftInvS, h, ok_bind', if_neg hc, List.drop_succ_cons, List.drop_zero, reshapeS]
  rw [if_pos]
  simp only [numel_cons]; simp [numel]

theorem fixLengthS_ok (n m : ℕ) (b : Shape) : fixLengthS n (m :: b) = .ok (n :: b) := by
  unfold fixLengthS
  dsimp only
  split_ifs with h1 h2
  · have : m + (n - m) = n := by omega
    simp [this]
  · simp [h2.le]
  · have : m = n := by omega
    rw [this]

theorem bssSeparatorS_ok (nFft : ℕ) (hop : Option ℕ) (n c s : ℕ) (b : Shape) (hn : nFft / 2 < n)
    (hh : 0 < hopOf nFft hop) (hh2 : hopOf nFft hop ≤ nFft) (sep : ShapeModel)
    (hsep : ∀ frames, 0 < frames → sep (frames :: (nFft / 2 + 1) :: c :: b) =
      .ok (frames :: (nFft / 2 + 1) :: s :: b)) :
    bssSeparatorS nFft hop sep (n :: c :: b) = .ok (n :: s :: b) := by
  have hf : 0 < stftFrames nFft (hopOf nFft hop) n := Nat.lt_of_lt_of_le Nat.zero_lt_one (Nat.le_add_right _ _)
  simp only [bssSeparatorS, stftS_ok nFft hop n hn hh, ok_bind', hsep _ hf,
    stftInvS_ok nFft hop _ hf hh hh2, fixLengthS_ok]

/-! ### Further failures -/

theorem fiveForwardS_one (nIter m : ℕ) (hm : m < C) (model : ShapeModel)
    (hmod : model (N :: (F - 1) :: b) = .ok (N :: (F - 1) :: b)) :
    fiveForwardS (nIter + 1) (some m) (some 1) model (N :: F :: C :: b) =
      .error .unboundLocalError := by
  have hC : 0 < C := by omega
  have h : fiveVectorS (some 1) (C :: C :: (F - 1) :: b) = .error .unboundLocalError := by
    simp [fiveVectorS, invLoadedS_ok _ hC, hC, iterM]
  have h2 : fiveEpochS (some 1) model (N :: (F - 1) :: C :: b) (C :: (F - 1) :: b)
      (N :: (F - 1) :: b) = .error .unboundLocalError := by
    simp [fiveEpochS, hmod, h]
  simp [fiveForwardS, eighFullS_ok, hm, hC, iterM, h2]

theorem fiveForwardS_none_zero (hC : 0 < C) (nPower : Option ℕ) (model : ShapeModel) (hF : 0 < F) :
    fiveForwardS 0 none nPower model (N :: F :: C :: b) = .ok (N :: F :: 1 :: b) := by
  have h1 : 1 + (F - 1) = F := by omega
  simp [fiveForwardS, eighFullS_ok, hC, iterM, h1]

theorem wpeForwardS_zero (nIter D : ℕ) :
    wpeForwardS (nIter + 1) 0 D none (N :: F :: C :: b) = .error .indexError := by
  have hT' : 0 + D + 1 - (D + 1) = 0 := by omega
  have hN : N + (0 + D) + 1 - (0 + D + 1) = N := by omega
  have h : wpeStepS none (N :: F :: C :: b) (N :: 0 :: F :: C :: b) (N :: F :: C :: b) =
      .error .indexError := by
    simp [wpeStepS, wpeModelS, wpeWeightsS, reshapeS, numel_cons, solveLoadedS]
  simp only [wpeForwardS, delayedS, ok_bind', hT', hN, iterM, h, err_bind']

theorem auxivaForwardS_verbose_err (nIter nSrc : ℕ) (pb : Option ℕ) (model : ShapeModel) (hb : b ≠ []) :
    auxivaForwardS true nIter nSrc pb model (N :: F :: C :: b) = .error .valueError := by
  have hW : (C :: nSrc :: F :: b).length ≠ 3 := by
    have := List.length_pos_of_ne_nil hb
    simp; omega
  have hc : ∀ Y J, ipCostS Y (C :: nSrc :: F :: b) J = .error .valueError :=
    fun Y J => ipCostS_batch Y _ J hW
  by_cases hs : nSrc ≤ C
  · simp [auxivaForwardS, orthogonalConstraintS_ok F C nSrc b hs, hc]
  · have h1 : ¬ nSrc = C := by omega
    have h2 : C < nSrc := by omega
    simp [auxivaForwardS, orthogonalConstraintS, h1, h2]

theorem auxivaForwardS_verbose (nIter nSrc : ℕ) (pb : Option ℕ) (model : ShapeModel) (hs : nSrc ≤ C)
    (hm : model [N, F, nSrc] = .ok [N, F, nSrc]) :
    auxivaForwardS true nIter nSrc pb model [N, F, C] =
      auxivaForwardS false nIter nSrc pb model [N, F, C] := by
  have hl := ipLoop_ok N F C nSrc [] hs (List.range nSrc) (fun k hk => List.mem_range.mp hk) _ rfl
  have hc := ipCostS_ok N F C nSrc hs
  have h : iterM (ipEpochS true model nSrc C [N, F, C] [C, C, F]) nIter
      ([N, F, nSrc], [C, nSrc, F], jI F C nSrc []) =
      .ok ([N, F, nSrc], [C, nSrc, F], jI F C nSrc []) := by
    apply iterM_const
    simp [ipEpochS, hm, hl, hc]
  have h' := iterM_const _ _ nIter (ipEpochS_ok N F C nSrc [] false rfl model hs hm)
  cases pb <;>
    simp [auxivaForwardS, orthogonalConstraintS_ok F C nSrc [] hs, hs, h, h', hc]

theorem beamformer_laplace_err (hb : b.length ≤ 1) (ref : ℕ) (nPower : Option ℕ) :
    (∀ Y, mvdrForwardS laplaceS ref "rtf" nPower (N :: F :: C :: b) ≠ .ok Y) ∧
      (∀ Y, mwfForwardS laplaceS ref true (N :: F :: C :: b) ≠ .ok Y) ∧
      (∀ Y, gevForwardS laplaceS ref (N :: F :: C :: b) ≠ .ok Y) := by
  by_cases hr : ref < C
  · match b, hb with
    | [], _ => simp [mvdrForwardS, mwfForwardS, gevForwardS, hr, laplaceS_ok, maskCovS]
    | [B], _ =>
      have hcov : ∀ i Y, maskCovS [N, F, B] [N, F, C, B] i ≠ .ok Y := by
        intro i Y
        by_cases hi : i < B <;> simp [maskCovS, hi]
      have hx : ∀ i (g : Shape → Except Err Shape) Y,
          (maskCovS [N, F, B] [N, F, C, B] i >>= g) ≠ .ok Y := by
        intro i g Y
        cases h : maskCovS [N, F, B] [N, F, C, B] i with
        | ok Z => exact absurd h (hcov i Z)
        | error e => simp
      refine ⟨fun Y => ?_, fun Y => ?_, fun Y => ?_⟩
      · simp only [mvdrForwardS, sel, hr, if_true, ok_bind', laplaceS_ok, List.getD_cons_succ,
          List.getD_cons_zero]
        split_ifs
        · exact hx _ _ _
        · exact hx _ _ _
        · exact fun h => by simp at h
      · simp only [mwfForwardS, sel, hr, if_true, ok_bind', laplaceS_ok]
        exact hx _ _ _
      · simp only [gevForwardS, sel, hr, if_true, ok_bind', laplaceS_ok]
        exact hx _ _ _
  · simp [mvdrForwardS, mwfForwardS, gevForwardS, hr]

end

end Torchiva
