import Verif.Proofs.Models

/-! # Properties of the source models (C48-C51, C77-C79) -/

namespace Torchiva.Props

open Torchiva

section classic
variable {s F N : ℕ}

theorem sum_magSq (X : Sig s F N) (c : Fin s) (n : Fin N) :
    ∑ f, magSq (X c f n) = Spec.framePower (X c) n := by
  simp only [Spec.framePower, magSq_eq]

theorem framePower_nonneg (x : Fin F → Fin N → ℂ) (n : Fin N) : 0 ≤ Spec.framePower x n :=
  Finset.sum_nonneg fun _ _ => by positivity

/-- C48, Laplace: weights lie in `(0, 1/eps]`, do not depend on frequency, do not increase with the
power of the frame, and equal `1/(2‖x_n‖)` on frames that are not nearly silent. -/
theorem laplace_weights (eps : ℝ) (heps : 0 < eps) (X : Sig s F N) :
    (∀ c f n, 0 < laplaceForward eps X c f n ∧ laplaceForward eps X c f n ≤ 1 / eps) ∧
    (∀ c f f' n, laplaceForward eps X c f n = laplaceForward eps X c f' n) ∧
    (∀ (X' : Sig s F N) c c' f n n', Spec.framePower (X c) n ≤ Spec.framePower (X' c') n' →
      laplaceForward eps X' c' f n' ≤ laplaceForward eps X c f n) ∧
    (∀ c f n, eps ≤ 2 * √(Spec.framePower (X c) n) →
      laplaceForward eps X c f n = 1 / (2 * √(Spec.framePower (X c) n))) ∧
    (∀ c f n, 2 * √(Spec.framePower (X c) n) ≤ eps → laplaceForward eps X c f n = 1 / eps) := by
  have e : ∀ (X : Sig s F N) c f n, laplaceForward eps X c f n =
      1 / max (2 * √(Spec.framePower (X c) n)) eps := fun X c f n => by
    unfold laplaceForward clampMin; simp only [sum_magSq]
  have hp : ∀ x : ℝ, 0 < max x eps := fun x => lt_of_lt_of_le heps (le_max_right _ _)
  refine ⟨fun c f n => ?_, fun c f f' n => rfl, fun X' c c' f n n' h => ?_, fun c f n h => ?_,
    fun c f n h => ?_⟩
  · rw [e]
    exact ⟨one_div_pos.2 (hp _), one_div_le_one_div_of_le heps (le_max_right _ _)⟩
  · rw [e, e]
    refine one_div_le_one_div_of_le (hp _) (max_le_max_right _ ?_)
    have := Real.sqrt_le_sqrt h
    linarith
  · rw [e, max_eq_left h]
  · rw [e, max_eq_right h]

/-- C48, Gauss: weights lie in `(0, 1/eps]`, do not depend on frequency, do not increase with the
power of the frame, and are the inverse of the mean power on frames that are not nearly silent. -/
theorem gauss_weights (eps : ℝ) (heps : 0 < eps) (X : Sig s F N) :
    (∀ c f n, 0 < gaussForward eps X c f n ∧ gaussForward eps X c f n ≤ 1 / eps) ∧
    (∀ c f f' n, gaussForward eps X c f n = gaussForward eps X c f' n) ∧
    (∀ (X' : Sig s F N) c c' f n n', Spec.framePower (X c) n ≤ Spec.framePower (X' c') n' →
      gaussForward eps X' c' f n' ≤ gaussForward eps X c f n) ∧
    (∀ c f n, eps ≤ Spec.framePower (X c) n / F →
      gaussForward eps X c f n = 1 / (Spec.framePower (X c) n / F)) ∧
    (∀ c f n, Spec.framePower (X c) n / F ≤ eps → gaussForward eps X c f n = 1 / eps) := by
  have e : ∀ (X : Sig s F N) c f n, gaussForward eps X c f n =
      1 / max (Spec.framePower (X c) n / F) eps := fun X c f n => by
    unfold gaussForward clampMin; simp only [sum_magSq]
  have hp : ∀ x : ℝ, 0 < max x eps := fun x => lt_of_lt_of_le heps (le_max_right _ _)
  refine ⟨fun c f n => ?_, fun c f f' n => rfl, fun X' c c' f n n' h => ?_, fun c f n h => ?_,
    fun c f n h => ?_⟩
  · rw [e]
    exact ⟨one_div_pos.2 (hp _), one_div_le_one_div_of_le heps (le_max_right _ _)⟩
  · rw [e, e]
    exact one_div_le_one_div_of_le (hp _) (max_le_max_right _ (by gcongr))
  · rw [e, max_eq_left h]
  · rw [e, max_eq_right h]

/-- Two frequencies, a loud frame and a silent frame. -/
example : gaussForward (s := 1) (F := 2) (N := 2) 1 (fun _ _ n => if n = 0 then 3 else 0) 0 0 0 = 1 / 9 ∧
    gaussForward (s := 1) (F := 2) (N := 2) 1 (fun _ _ n => if n = 0 then 3 else 0) 0 1 1 = 1 := by
  have h := gauss_weights (s := 1) (F := 2) (N := 2) 1 one_pos (fun _ _ n => if n = 0 then 3 else 0)
  have e0 : Spec.framePower (F := 2) (N := 2) (fun _ n => if n = 0 then 3 else 0) 0 = 18 := by
    norm_num [Spec.framePower]
  have e1 : Spec.framePower (F := 2) (N := 2) (fun _ n => if n = 0 then 3 else 0) 1 = 0 := by
    norm_num [Spec.framePower]
  constructor
  · rw [h.2.2.2.1 0 0 0 (by rw [e0]; norm_num), e0]; norm_num
  · rw [h.2.2.2.2 0 1 1 (by rw [e1]; norm_num)]; norm_num

/-- C48: with the default `eps=None` the weights are at most `1e5`. -/
theorem classic_weights_default (X : Sig s F N) (c : Fin s) (f : Fin F) (n : Fin N) :
    laplaceForward (classicEps none) X c f n ≤ 100000 ∧
      gaussForward (classicEps none) X c f n ≤ 100000 := by
  have h0 : (0 : ℝ) < classicEps none := by norm_num [classicEps]
  have h1 := ((laplace_weights _ h0 X).1 c f n).2
  have h2 := ((gauss_weights _ h0 X).1 c f n).2
  have e : 1 / classicEps none = 100000 := by norm_num [classicEps]
  rw [e] at h1 h2
  exact ⟨h1, h2⟩

/-- **C48.** The constructor argument `eps` of the Laplace and Gauss models is the floor that is used when it is given, `1e-5`
otherwise: the weights never exceed the reciprocal of the floor, which is reached on silent frames. -/
theorem classic_weights_floor (eps : Option ℝ) (floor : ℝ) (hf : 0 < floor)
    (he : eps = some floor ∨ (eps = none ∧ floor = 1e-5)) (X : Sig s F N) (c : Fin s) (f : Fin F) (n : Fin N) :
    laplaceForward (classicEps eps) X c f n ≤ 1 / floor ∧ gaussForward (classicEps eps) X c f n ≤ 1 / floor ∧
      ((∀ f, X c f n = 0) → laplaceForward (classicEps eps) X c f n = 1 / floor ∧
        gaussForward (classicEps eps) X c f n = 1 / floor) := by
  have e : classicEps eps = floor := by
    rcases he with rfl | ⟨rfl, rfl⟩
    · rfl
    · norm_num [classicEps]
  rw [e]
  refine ⟨((laplace_weights _ hf X).1 c f n).2, ((gauss_weights _ hf X).1 c f n).2, fun h0 => ?_⟩
  have hm : ∀ f, magSq (X c f n) = 0 := fun f => by rw [h0, magSq_eq]; simp
  constructor
  · unfold laplaceForward clampMin
    simp [hm, hf.le]
  · unfold gaussForward clampMin
    simp [hm, hf.le]

example : laplaceForward (classicEps (some 2)) (fun _ _ _ => 0 : Sig 1 2 3) 0 0 0 = 1 / 2 :=
  ((classic_weights_floor (some 2) 2 (by norm_num) (.inl rfl) (fun _ _ _ => 0 : Sig 1 2 3) 0 0 0).2.2 fun _ => rfl).1

/-- The hypotheses are met by a two-frame signal with one silent frame: the two weights differ. -/
example : laplaceForward (s := 1) (F := 1) (N := 2) 1 (fun _ _ n => if n = 0 then 3 else 0) 0 0 0
      = 1 / 6 ∧
    laplaceForward (s := 1) (F := 1) (N := 2) 1 (fun _ _ n => if n = 0 then 3 else 0) 0 0 1
      = 1 := by
  have h := laplace_weights (s := 1) (F := 1) (N := 2) 1 one_pos
    (fun _ _ n => if n = 0 then 3 else 0)
  have e0 : √(Spec.framePower (F := 1) (N := 2) (fun _ n => if n = 0 then 3 else 0) 0) = 3 := by
    norm_num [Spec.framePower]
    rw [show (9 : ℝ) = 3 ^ 2 by norm_num, Real.sqrt_sq (by norm_num)]
  have e1 : √(Spec.framePower (F := 1) (N := 2) (fun _ n => if n = 0 then 3 else 0) 1) = 0 := by
    norm_num [Spec.framePower]
  constructor
  · rw [h.2.2.2.1 0 0 0 (by rw [e0]; norm_num), e0]; norm_num
  · rw [h.2.2.2.2 0 0 1 (by rw [e1]; norm_num)]; norm_num

/-! ## C77: the weights majorise the contrast -/

theorem weightedPower_swap (w : Weights s F N) (Y : Sig s F N)
    (hw : ∀ c f f' n, w c f n = w c f' n) (v : Fin s → Fin N → ℝ)
    (hv : ∀ c f n, w c f n = v c n) :
    Spec.weightedPower w Y = ∑ c, ∑ n, v c n * Spec.framePower (Y c) n := by
  unfold Spec.weightedPower Spec.framePower
  refine Finset.sum_congr rfl fun c _ => ?_
  rw [Finset.sum_comm]
  refine Finset.sum_congr rfl fun n _ => ?_
  rw [Finset.mul_sum]
  exact Finset.sum_congr rfl fun f _ => by rw [hv]

/-- C77: `LaplaceModel.cost` is the spherical Laplace contrast. -/
theorem laplace_cost (Y : Sig s F N) : laplaceCost Y = Spec.laplaceContrast Y := rfl

/-- C77, Laplace: for every current estimate `X` without nearly silent frame and every other
estimate `Y`, the change of the cost is at most the change of the weighted power divided by the
number of frames (the weighted power is a tight majoriser), so any `Y` that does not increase the
weighted power does not increase the cost. -/
theorem laplace_majorizes (eps : ℝ) (heps : 0 < eps) (X Y : Sig s F N)
    (hX : ∀ c n, eps ≤ 2 * √(Spec.framePower (X c) n)) :
    laplaceCost Y - laplaceCost X ≤
      (Spec.weightedPower (laplaceForward eps X) Y -
        Spec.weightedPower (laplaceForward eps X) X) / N := by
  rw [laplace_cost, laplace_cost]
  set v : Fin s → Fin N → ℝ := fun c n => 1 / (2 * √(Spec.framePower (X c) n)) with hv
  have hw := laplace_weights eps heps X
  rw [weightedPower_swap _ Y hw.2.1 v fun c f n => hw.2.2.2.1 c f n (hX c n),
    weightedPower_swap _ X hw.2.1 v fun c f n => hw.2.2.2.1 c f n (hX c n)]
  unfold Spec.laplaceContrast
  rw [← Finset.sum_sub_distrib, ← Finset.sum_sub_distrib, Finset.sum_div]
  refine Finset.sum_le_sum fun c _ => ?_
  rw [← sub_div, ← Finset.sum_sub_distrib, ← Finset.sum_sub_distrib]
  refine div_le_div_of_nonneg_right (Finset.sum_le_sum fun n _ => ?_) (Nat.cast_nonneg _)
  set a := √(Spec.framePower (X c) n) with ha
  set b := √(Spec.framePower (Y c) n) with hb
  have ha0 : 0 < a := by have := hX c n; linarith
  have ea : Spec.framePower (X c) n = a ^ 2 := (Real.sq_sqrt (framePower_nonneg _ _)).symm
  have eb : Spec.framePower (Y c) n = b ^ 2 := (Real.sq_sqrt (framePower_nonneg _ _)).symm
  have : v c n = 1 / (2 * a) := rfl
  rw [this, ea, eb, ← mul_sub, one_div_mul_eq_div, le_div_iff₀ (by positivity)]
  nlinarith [sq_nonneg (a - b)]

/-- C77, Laplace: no increase of the weighted power implies no increase of the cost. -/
theorem laplace_descent (eps : ℝ) (heps : 0 < eps) (X Y : Sig s F N)
    (hX : ∀ c n, eps ≤ 2 * √(Spec.framePower (X c) n))
    (hY : Spec.weightedPower (laplaceForward eps X) Y ≤
      Spec.weightedPower (laplaceForward eps X) X) : laplaceCost Y ≤ laplaceCost X := by
  have h := laplace_majorizes eps heps X Y hX
  have : (Spec.weightedPower (laplaceForward eps X) Y -
        Spec.weightedPower (laplaceForward eps X) X) / N ≤ 0 :=
    div_nonpos_of_nonpos_of_nonneg (by linarith) (Nat.cast_nonneg _)
  linarith

/-- C77, Gauss: same statement for the Gaussian contrast. -/
theorem gauss_majorizes (eps : ℝ) (heps : 0 < eps) (X Y : Sig s F N)
    (hX : ∀ c n, eps ≤ Spec.framePower (X c) n / F) (hY : ∀ c n, 0 < Spec.framePower (Y c) n) :
    Spec.gaussContrast Y - Spec.gaussContrast X ≤
      Spec.weightedPower (gaussForward eps X) Y - Spec.weightedPower (gaussForward eps X) X := by
  set v : Fin s → Fin N → ℝ := fun c n => 1 / (Spec.framePower (X c) n / F) with hv
  have hw := gauss_weights eps heps X
  rw [weightedPower_swap _ Y hw.2.1 v fun c f n => hw.2.2.2.1 c f n (hX c n),
    weightedPower_swap _ X hw.2.1 v fun c f n => hw.2.2.2.1 c f n (hX c n)]
  unfold Spec.gaussContrast
  rw [← Finset.sum_sub_distrib, ← Finset.sum_sub_distrib]
  refine Finset.sum_le_sum fun c _ => ?_
  rw [← Finset.sum_sub_distrib, ← Finset.sum_sub_distrib]
  refine Finset.sum_le_sum fun n _ => ?_
  have : v c n = 1 / (Spec.framePower (X c) n / F) := rfl
  rw [this]
  have h1 := hX c n
  have hF : (0 : ℝ) < F := by
    rcases (Nat.cast_nonneg F : (0 : ℝ) ≤ F).lt_or_eq with h | h
    · exact h
    · rw [← h, div_zero] at h1; linarith
  set a := Spec.framePower (X c) n
  have ha : 0 < a := by
    have : 0 < a / F := lt_of_lt_of_le heps h1
    exact (div_pos_iff_of_pos_right hF).1 this
  have hb := hY c n
  set b := Spec.framePower (Y c) n
  have hl := Real.log_le_sub_one_of_pos (div_pos hb ha)
  rw [Real.log_div hb.ne' ha.ne'] at hl
  rw [Real.log_div hb.ne' hF.ne', Real.log_div ha.ne' hF.ne']
  have e : 1 / (a / F) * b - 1 / (a / F) * a = F * (b / a - 1) := by field_simp
  rw [e]
  nlinarith

/-- The hypotheses of `laplace_majorizes`, `laplace_descent` and the rest of C77 are met by a constant nonzero signal and a different one. -/
example : ∃ X Y : Sig 1 1 1, (∀ c n, (1 : ℝ) ≤ 2 * √(Spec.framePower (X c) n)) ∧
    (∀ c n, (1 : ℝ) ≤ Spec.framePower (X c) n / (1 : ℕ)) ∧
    (∀ c n, 0 < Spec.framePower (Y c) n) ∧ X ≠ Y ∧
    Spec.weightedPower (laplaceForward 1 X) Y ≤ Spec.weightedPower (laplaceForward 1 X) X := by
  refine ⟨fun _ _ _ => 1, fun _ _ _ => 1 / 2, fun c n => ?_, fun c n => ?_, fun c n => ?_, ?_, ?_⟩
  · norm_num [Spec.framePower]
  · norm_num [Spec.framePower]
  · norm_num [Spec.framePower]
  · intro h
    have := congrFun (congrFun (congrFun h 0) 0) 0
    norm_num at this
  · simp only [Spec.weightedPower]
    refine Finset.sum_le_sum fun c _ => Finset.sum_le_sum fun f _ => Finset.sum_le_sum fun n _ => ?_
    refine mul_le_mul_of_nonneg_left (by norm_num) ?_
    exact ((laplace_weights 1 one_pos _).1 c f n).1.le

end classic

/-! ## C49: NMF state for every call history -/

section nmf
variable {B F N K : ℕ}

/-- What holds between calls: factors positive and `iR` the reciprocal of the floored product. -/
def NmfInv (eps : ℝ) (st : NmfState B F N K) : Prop :=
  (∀ b f k, 0 < st.T b f k) ∧ (∀ b n k, 0 < st.V b n k) ∧
    ∀ b f n, st.iR b f n = (max (∑ k, st.T b f k * st.V b n k) eps)⁻¹

theorem nmfInit_inv (eps : ℝ) (uT : Fin B → Fin F → Fin K → ℝ) (uV : Fin B → Fin N → Fin K → ℝ)
    (hT : ∀ b f k, 0 ≤ uT b f k) (hV : ∀ b n k, 0 ≤ uV b n k) : NmfInv eps (nmfInit eps uT uV) := by
  refine ⟨fun b f k => ?_, fun b n k => ?_, fun b f n => rfl⟩
  · show 0 < 0.9 * uT b f k + 0.1
    have := hT b f k; positivity
  · show 0 < 0.9 * uV b n k + 0.1
    have := hV b n k; positivity

theorem nmf_iR_pos {eps : ℝ} (heps : 0 < eps) {st : NmfState B F N K} (h : NmfInv eps st) (b f n) :
    0 < st.iR b f n ∧ st.iR b f n ≤ 1 / eps := by
  rw [h.2.2]
  have : 0 < max (∑ k, st.T b f k * st.V b n k) eps := lt_of_lt_of_le heps (le_max_right _ _)
  refine ⟨inv_pos.2 this, ?_⟩
  rw [one_div]
  exact inv_anti₀ heps (le_max_right _ _)

theorem nmfUpdateT_ok [NeZero N] {eps : ℝ} (heps : 0 < eps) (P : Fin B → Fin F → Fin N → ℝ)
    {st : NmfState B F N K} (h : NmfInv eps st) :
    ∃ st', nmfUpdateT eps P st = .ok st' ∧ NmfInv eps st' ∧ (∀ b f k, eps ≤ st'.T b f k) ∧
      st'.V = st.V := by
  have hd : ¬ ∃ b f k, (∑ n, st.iR b f n * st.V b n k) = 0 := by
    rintro ⟨b, f, k, h0⟩
    have : 0 < ∑ n, st.iR b f n * st.V b n k :=
      Finset.sum_pos (fun n _ => mul_pos (nmf_iR_pos heps h b f n).1 (h.2.1 b n k))
        Finset.univ_nonempty
    linarith
  refine ⟨_, if_neg hd, ⟨fun b f k => ?_, h.2.1, fun b f n => rfl⟩, fun b f k => ?_, rfl⟩
  · exact lt_of_lt_of_le heps (le_max_right _ _)
  · exact le_max_right _ _

theorem nmfUpdateV_ok [NeZero F] {eps : ℝ} (heps : 0 < eps) (P : Fin B → Fin F → Fin N → ℝ)
    {st : NmfState B F N K} (h : NmfInv eps st) :
    ∃ st', nmfUpdateV eps P st = .ok st' ∧ NmfInv eps st' ∧ (∀ b n k, eps ≤ st'.V b n k) ∧
      st'.T = st.T := by
  have hd : ¬ ∃ b n k, (∑ f, st.iR b f n * st.T b f k) = 0 := by
    rintro ⟨b, n, k, h0⟩
    have : 0 < ∑ f, st.iR b f n * st.T b f k :=
      Finset.sum_pos (fun f _ => mul_pos (nmf_iR_pos heps h b f n).1 (h.1 b f k))
        Finset.univ_nonempty
    linarith
  refine ⟨_, if_neg hd, ⟨h.1, fun b n k => ?_, fun b f n => rfl⟩, fun b n k => ?_, rfl⟩
  · exact lt_of_lt_of_le heps (le_max_right _ _)
  · exact le_max_right _ _

theorem nmfForward_ok [NeZero F] [NeZero N] {eps : ℝ} (heps : 0 < eps)
    (uT : Fin B → Fin F → Fin K → ℝ) (uV : Fin B → Fin N → Fin K → ℝ)
    (hT : ∀ b f k, 0 ≤ uT b f k) (hV : ∀ b n k, 0 ≤ uV b n k)
    (st : Option (NmfState B F N K)) (h : ∀ x, st = some x → NmfInv eps x) (X : Sig B F N) :
    ∃ st', nmfForward eps uT uV st X = .ok (st'.iR, some st') ∧ NmfInv eps st' ∧
      (∀ b f k, eps ≤ st'.T b f k) ∧ ∀ b n k, eps ≤ st'.V b n k := by
  have h0 : NmfInv eps (st.getD (nmfInit eps uT uV)) := by
    cases st with
    | none => exact nmfInit_inv eps uT uV hT hV
    | some x => exact h x rfl
  obtain ⟨s1, e1, i1, t1, -⟩ := nmfUpdateT_ok heps (fun b f n => magSq (X b f n)) h0
  obtain ⟨s2, e2, i2, t2, u2⟩ := nmfUpdateV_ok heps (fun b f n => magSq (X b f n)) i1
  refine ⟨s2, ?_, i2, u2 ▸ t1, t2⟩
  unfold nmfForward
  simp only [e1, e2, bind, Except.bind]

/-- Number of `forward` calls in a history. -/
def forwards : List (NmfCall B F N K) → ℕ
  | [] => 0
  | .reset :: cs => forwards cs
  | .forward _ _ _ :: cs => forwards cs + 1

/-- C49: start from a fresh `NMFModel` and make any sequence of `forward` and `reset` calls with
inputs of one shape.  Whatever the inputs and the random draws in `[0,1)`, no call divides by zero,
each `forward` returns weights in `(0, 1/eps]`, and afterwards an initialised model holds factors
that are at least `eps`, and the reciprocal of their floored product. -/
theorem nmf_history [NeZero F] [NeZero N] (eps : ℝ) (heps : 0 < eps)
    (calls : List (NmfCall B F N K))
    (hdraws : ∀ uT uV X, NmfCall.forward uT uV X ∈ calls →
      (∀ b f k, 0 ≤ uT b f k ∧ uT b f k < 1) ∧ ∀ b n k, 0 ≤ uV b n k ∧ uV b n k < 1) :
    ∃ ws st, nmfHistory eps none calls = .ok (ws, st) ∧ ws.length = forwards calls ∧
      (∀ w ∈ ws, ∀ b f n, 0 < w b f n ∧ w b f n ≤ 1 / eps) ∧
      ∀ x, st = some x → (∀ b f k, eps ≤ x.T b f k) ∧ (∀ b n k, eps ≤ x.V b n k) ∧
        ∀ b f n, x.iR b f n = 1 / max (∑ k, x.T b f k * x.V b n k) eps := by
  suffices H : ∀ (calls : List (NmfCall B F N K)) (st0 : Option (NmfState B F N K)),
      (∀ x, st0 = some x → NmfInv eps x ∧ (∀ b f k, eps ≤ x.T b f k) ∧ ∀ b n k, eps ≤ x.V b n k) →
      (∀ uT uV X, NmfCall.forward uT uV X ∈ calls →
        (∀ b f k, 0 ≤ uT b f k ∧ uT b f k < 1) ∧ ∀ b n k, 0 ≤ uV b n k ∧ uV b n k < 1) →
      ∃ ws st, nmfHistory eps st0 calls = .ok (ws, st) ∧ ws.length = forwards calls ∧
      (∀ w ∈ ws, ∀ b f n, 0 < w b f n ∧ w b f n ≤ 1 / eps) ∧
      ∀ x, st = some x → NmfInv eps x ∧ (∀ b f k, eps ≤ x.T b f k) ∧ ∀ b n k, eps ≤ x.V b n k by
    obtain ⟨ws, st, e, l, hw, hx⟩ := H calls none (by simp) hdraws
    refine ⟨ws, st, e, l, hw, fun x hxs => ?_⟩
    obtain ⟨h1, h2, h3⟩ := hx x hxs
    exact ⟨h2, h3, fun b f n => by rw [h1.2.2, one_div]⟩
  clear hdraws calls
  intro calls
  induction calls with
  | nil => exact fun st0 h0 _ => ⟨[], st0, rfl, rfl, by simp, h0⟩
  | cons c cs ih =>
    intro st0 h0 hd
    have hd' := fun uT uV X h => hd uT uV X (List.mem_cons_of_mem _ h)
    cases c with
    | reset =>
      obtain ⟨ws, st, e, l, hw, hx⟩ := ih none (by simp) hd'
      exact ⟨ws, st, by simp [nmfHistory, nmfCall, e, bind, Except.bind], l, hw, hx⟩
    | forward uT uV X =>
      obtain ⟨hT, hV⟩ := hd uT uV X List.mem_cons_self
      obtain ⟨s1, e1, i1, t1, v1⟩ := nmfForward_ok heps uT uV (fun b f k => (hT b f k).1)
        (fun b n k => (hV b n k).1) st0 (fun x hx => (h0 x hx).1) X
      obtain ⟨ws, st, e, l, hw, hx⟩ := ih (some s1)
        (fun x hx => by cases hx; exact ⟨i1, t1, v1⟩) hd'
      refine ⟨s1.iR :: ws, st, by simp [nmfHistory, nmfCall, e1, e, bind, Except.bind], ?_, ?_, hx⟩
      · simp [forwards, l]
      · intro w hwm
        rcases List.mem_cons.1 hwm with rfl | hwm
        · exact nmf_iR_pos heps i1
        · exact hw w hwm

/-- The hypotheses of C49 are met by a history with a reset between two calls, one on silence. -/
example : ∃ ws st, nmfHistory (B := 1) (F := 1) (N := 2) (K := 2) 1e-5 none
    [.forward (fun _ _ _ => 0.5) (fun _ _ _ => 0) (fun _ _ _ => 0), .reset,
      .forward (fun _ _ _ => 0) (fun _ _ _ => 0.25) (fun _ _ _ => 2)] = .ok (ws, st) ∧
    ws.length = 2 := by
  obtain ⟨ws, st, e, l, -⟩ := nmf_history (B := 1) (F := 1) (N := 2) (K := 2) 1e-5 (by norm_num)
    [.forward (fun _ _ _ => 0.5) (fun _ _ _ => 0) (fun _ _ _ => 0), .reset,
      .forward (fun _ _ _ => 0) (fun _ _ _ => 0.25) (fun _ _ _ => 2)] (by
    intro uT uV X h
    simp only [List.mem_cons, List.not_mem_nil, or_false, NmfCall.forward.injEq,
      reduceCtorEq, false_or] at h
    rcases h with ⟨rfl, rfl, rfl⟩ | ⟨rfl, rfl, rfl⟩ <;> norm_num)
  exact ⟨ws, st, e, l⟩

/-! ## C50: descent of the Itakura-Saito objective -/

/-- C50, basis half-update: from factors at least `eps` whose product is at least `eps` (the floor
on the estimate is inactive), the update succeeds and for every batch item the objective does not
increase, even when the floor on the new basis is active. -/
theorem nmf_basis_descent [NeZero N] (eps : ℝ) (heps : 0 < eps) (P : Fin B → Fin F → Fin N → ℝ)
    (hP : ∀ b f n, 0 ≤ P b f n) (T : Fin B → Fin F → Fin K → ℝ) (V : Fin B → Fin N → Fin K → ℝ)
    (hT : ∀ b f k, eps ≤ T b f k) (hV : ∀ b n k, 0 < V b n k)
    (hR : ∀ b f n, eps ≤ ∑ k, T b f k * V b n k) :
    ∃ st', nmfUpdateT eps P (nmfRecompute eps T V) = .ok st' ∧ st'.V = V ∧
      ∀ b, Spec.itakuraSaito (P b) (st'.T b) (V b) ≤ Spec.itakuraSaito (P b) (T b) (V b) := by
  have hinv : NmfInv eps (nmfRecompute eps T V) :=
    ⟨fun b f k => lt_of_lt_of_le heps (hT b f k), hV, fun b f n => rfl⟩
  obtain ⟨st', e, -, -, hv⟩ := nmfUpdateT_ok heps P hinv
  refine ⟨st', e, hv, fun b => ?_⟩
  unfold nmfUpdateT at e
  dsimp only at e
  split at e
  · cases e
  cases e
  refine Finset.sum_le_sum fun f _ => ?_
  exact nmf_row (P b f) (V b) (T b f) eps heps (hP b f) (hV b) (hT b f) (hR b f)

/-- The hypotheses of both half-updates are met by factors of two components that do not fit the powers. -/
example : ∃ (P : Fin 1 → Fin 2 → Fin 3 → ℝ) (T : Fin 1 → Fin 2 → Fin 2 → ℝ) (V : Fin 1 → Fin 3 → Fin 2 → ℝ),
    (∀ b f n, 0 ≤ P b f n) ∧ (∀ b f k, 1e-5 ≤ T b f k) ∧ (∀ b n k, 1e-5 ≤ V b n k) ∧
    (∀ b f n, 1e-5 ≤ ∑ k, T b f k * V b n k) ∧ P 0 0 0 ≠ ∑ k, T 0 0 k * V 0 0 k := by
  refine ⟨fun _ f n => f.1 + n.1, fun _ f k => f.1 + k.1 + 1, fun _ n k => n.1 + 2 * k.1 + 1, fun b f n => by positivity,
    fun b f k => ?_, fun b n k => ?_, fun b f n => ?_, ?_⟩
  · have h1 : (0 : ℝ) ≤ f.1 := Nat.cast_nonneg _
    have h2 : (0 : ℝ) ≤ k.1 := Nat.cast_nonneg _
    linarith
  · have h1 : (0 : ℝ) ≤ n.1 := Nat.cast_nonneg _
    have h2 : (0 : ℝ) ≤ k.1 := Nat.cast_nonneg _
    linarith
  · have h1 : (0 : ℝ) ≤ f.1 := Nat.cast_nonneg _
    have h2 : (0 : ℝ) ≤ n.1 := Nat.cast_nonneg _
    rw [Fin.sum_univ_two]
    simp
    nlinarith
  · rw [Fin.sum_univ_two]; norm_num

/-- C50, activation half-update. -/
theorem nmf_activation_descent [NeZero F] (eps : ℝ) (heps : 0 < eps)
    (P : Fin B → Fin F → Fin N → ℝ)
    (hP : ∀ b f n, 0 ≤ P b f n) (T : Fin B → Fin F → Fin K → ℝ) (V : Fin B → Fin N → Fin K → ℝ)
    (hT : ∀ b f k, 0 < T b f k) (hV : ∀ b n k, eps ≤ V b n k)
    (hR : ∀ b f n, eps ≤ ∑ k, T b f k * V b n k) :
    ∃ st', nmfUpdateV eps P (nmfRecompute eps T V) = .ok st' ∧ st'.T = T ∧
      ∀ b, Spec.itakuraSaito (P b) (T b) (st'.V b) ≤ Spec.itakuraSaito (P b) (T b) (V b) := by
  have hinv : NmfInv eps (nmfRecompute eps T V) :=
    ⟨hT, fun b n k => lt_of_lt_of_le heps (hV b n k), fun b f n => rfl⟩
  obtain ⟨st', e, -, -, hv⟩ := nmfUpdateV_ok heps P hinv
  refine ⟨st', e, hv, fun b => ?_⟩
  unfold nmfUpdateV at e
  dsimp only at e
  split at e
  · cases e
  cases e
  unfold Spec.itakuraSaito
  rw [Finset.sum_comm, Finset.sum_comm (s := Finset.univ (α := Fin F))]
  refine Finset.sum_le_sum fun n _ => ?_
  have := nmf_row (fun f => P b f n) (T b) (V b n) eps heps (fun f => hP b f n) (hT b) (hV b n)
    (fun f => by simpa only [mul_comm] using hR b f n)
  simp only [mul_comm (V b n _) (T b _ _)] at this
  simp only [nmfRecompute]
  refine le_of_eq_of_le ?_ this
  refine Finset.sum_congr rfl fun f _ => ?_
  simp only [mul_comm (T b _ _)]

/-- A concrete case: the example before this theorem also meets these hypotheses (one component here). -/
example : ∃ st', nmfUpdateV (B := 1) (F := 1) (N := 2) (K := 1) 1e-5 (fun _ _ n => n.1) (nmfRecompute 1e-5 (fun _ _ _ => 1)
    (fun _ _ _ => 2)) = .ok st' ∧ st'.T = fun _ _ _ => 1 :=
  (nmf_activation_descent 1e-5 (by norm_num) _ (fun _ _ n => by positivity) _ _ (fun _ _ _ => by norm_num)
    (fun _ _ _ => by norm_num) (fun _ _ _ => by norm_num)).imp fun _ h => ⟨h.1, h.2.1⟩

/-- C50, a whole call: the state before the call has factors and products at least `eps`, and so
has the product after the first half; then the call returns and the objective for the power
spectrogram `|X|²` of each item has not increased. -/
theorem nmf_forward_descent [NeZero F] [NeZero N] (eps : ℝ) (heps : 0 < eps)
    (uT : Fin B → Fin F → Fin K → ℝ) (uV : Fin B → Fin N → Fin K → ℝ) (X : Sig B F N)
    (T : Fin B → Fin F → Fin K → ℝ) (V : Fin B → Fin N → Fin K → ℝ)
    (hT : ∀ b f k, eps ≤ T b f k) (hV : ∀ b n k, eps ≤ V b n k)
    (hR : ∀ b f n, eps ≤ ∑ k, T b f k * V b n k)
    (hmid : ∀ st1, nmfUpdateT eps (fun b f n => ‖X b f n‖ ^ 2) (nmfRecompute eps T V) = .ok st1 →
      ∀ b f n, eps ≤ ∑ k, st1.T b f k * V b n k) :
    ∃ w st', nmfForward eps uT uV (some (nmfRecompute eps T V)) X = .ok (w, some st') ∧
      ∀ b, Spec.itakuraSaito (fun f n => ‖X b f n‖ ^ 2) (st'.T b) (st'.V b) ≤
        Spec.itakuraSaito (fun f n => ‖X b f n‖ ^ 2) (T b) (V b) := by
  have hP : ∀ b f n, 0 ≤ ‖X b f n‖ ^ 2 := fun _ _ _ => by positivity
  obtain ⟨s1, e1, v1, d1⟩ := nmf_basis_descent eps heps (fun b f n => ‖X b f n‖ ^ 2) hP T V hT
    (fun b n k => lt_of_lt_of_le heps (hV b n k)) hR
  have hT1 : ∀ b f k, 0 < s1.T b f k := fun b f k => by
    obtain ⟨s1', e1', i1, -⟩ := nmfUpdateT_ok heps (fun b f n => ‖X b f n‖ ^ 2)
      (st := nmfRecompute eps T V) ⟨fun b f k => lt_of_lt_of_le heps (hT b f k),
        fun b n k => lt_of_lt_of_le heps (hV b n k), fun b f n => rfl⟩
    rw [e1] at e1'; cases e1'; exact i1.1 b f k
  have hs1 : s1 = nmfRecompute eps s1.T V := by
    unfold nmfUpdateT at e1
    dsimp only at e1
    split at e1
    · cases e1
    · cases e1; rfl
  obtain ⟨s2, e2, v2, d2⟩ := nmf_activation_descent eps heps (fun b f n => ‖X b f n‖ ^ 2) hP s1.T V
    hT1 hV (hmid s1 e1)
  rw [← hs1] at e2
  refine ⟨s2.iR, s2, ?_, fun b => ?_⟩
  · unfold nmfForward
    simp only [magSq_eq, Option.getD_some, e1, e2, bind, Except.bind]
  · rw [v2]; exact (d2 b).trans (d1 b)

/-- C50: with `eps ≤ 0.01` and at least one basis function, the first basis update after
initialisation meets the hypotheses whatever the draws. -/
theorem nmf_first_update_descent [NeZero N] [NeZero K] (eps : ℝ) (heps : 0 < eps)
    (heps' : eps ≤ 0.01) (uT : Fin B → Fin F → Fin K → ℝ) (uV : Fin B → Fin N → Fin K → ℝ)
    (hT : ∀ b f k, 0 ≤ uT b f k) (hV : ∀ b n k, 0 ≤ uV b n k) (P : Fin B → Fin F → Fin N → ℝ)
    (hP : ∀ b f n, 0 ≤ P b f n) :
    ∃ st', nmfUpdateT eps P (nmfInit eps uT uV) = .ok st' ∧
      ∀ b, Spec.itakuraSaito (P b) (st'.T b) (st'.V b) ≤
        Spec.itakuraSaito (P b) ((nmfInit eps uT uV).T b) ((nmfInit eps uT uV).V b) := by
  have a1 : ∀ b f k, (0.1 : ℝ) ≤ 0.9 * uT b f k + 0.1 := fun b f k => by
    have := hT b f k; linarith
  have a2 : ∀ b n k, (0.1 : ℝ) ≤ 0.9 * uV b n k + 0.1 := fun b n k => by
    have := hV b n k; linarith
  obtain ⟨st', e, hv, d⟩ := nmf_basis_descent eps heps P hP
    (fun b f k => 0.9 * uT b f k + 0.1) (fun b n k => 0.9 * uV b n k + 0.1)
    (fun b f k => by have := a1 b f k; norm_num at *; linarith)
    (fun b n k => by have := a2 b n k; norm_num at *; linarith)
    (fun b f n => by
      have hk : (0.9 * uT b f 0 + 0.1) * (0.9 * uV b n 0 + 0.1) ≤
          ∑ k, (0.9 * uT b f k + 0.1) * (0.9 * uV b n k + 0.1) :=
        Finset.single_le_sum (f := fun k => (0.9 * uT b f k + 0.1) * (0.9 * uV b n k + 0.1))
          (fun k _ => mul_nonneg (by have := a1 b f k; norm_num at *; linarith)
            (by have := a2 b n k; norm_num at *; linarith)) (Finset.mem_univ 0)
      have h3 := mul_le_mul (a1 b f 0) (a2 b n 0) (by norm_num)
        (by have := a1 b f 0; norm_num at *; linarith)
      norm_num at *
      linarith)
  exact ⟨st', e, fun b => by rw [hv]; exact d b⟩

/-- The hypotheses of the whole-call theorem are met (here the power is below the estimate). -/
example : ∃ w st', nmfForward (B := 1) (F := 1) (N := 1) (K := 1) 1e-5 0 0
    (some (nmfRecompute 1e-5 (fun _ _ _ => 1) (fun _ _ _ => 1))) (fun _ _ _ => 1 / 2)
      = .ok (w, some st') ∧
    ∀ b, Spec.itakuraSaito (fun (_ _ : Fin 1) => ‖(1 / 2 : ℂ)‖ ^ 2) (st'.T b) (st'.V b) ≤
        Spec.itakuraSaito (F := 1) (N := 1) (K := 1) (fun _ _ => ‖(1 / 2 : ℂ)‖ ^ 2) (fun _ _ => 1)
          (fun _ _ => 1) := by
  refine nmf_forward_descent 1e-5 (by norm_num) 0 0 (fun _ _ _ => 1 / 2) (fun _ _ _ => 1)
    (fun _ _ _ => 1) (fun _ _ _ => by norm_num) (fun _ _ _ => by norm_num)
    (fun _ _ _ => by norm_num) ?_
  intro st1 h b f n
  obtain ⟨st', e, -, ht, -⟩ := nmfUpdateT_ok (B := 1) (F := 1) (N := 1) (K := 1) (eps := 1e-5)
    (by norm_num) (fun _ _ _ => ‖(1 / 2 : ℂ)‖ ^ 2)
    (st := nmfRecompute 1e-5 (fun _ _ _ => 1) (fun _ _ _ => 1))
    ⟨fun _ _ _ => one_pos, fun _ _ _ => one_pos, fun _ _ _ => rfl⟩
  rw [e] at h
  cases h
  simpa using ht b f 0

end nmf

/-! ## C51: mask ranges -/

section masks
variable {B F N : ℕ}

theorem affine_sigmoid (eps x : ℝ) (h1 : eps < 1) :
    eps < sigmoid x * (1 - eps) + eps ∧ sigmoid x * (1 - eps) + eps < 1 := by
  have := sigmoid_pos x
  have := sigmoid_lt_one x
  constructor <;> nlinarith

/-- C51: `GLUMask` masks lie in `(1e-5, 1)` for every network, input and feature option. -/
theorem glu_mask_range (logSpec : Bool)
    (net : (Fin B → Fin F → Fin N → ℝ) → Fin B → Fin F → Fin N → ℝ)
    (net' : (Fin B → Fin (F + F) → Fin N → ℝ) → Fin B → Fin F → Fin N → ℝ) (X : Sig B F N)
    (b : Fin B) (f : Fin F) (n : Fin N) :
    (1e-5 < gluMaskMag logSpec net X b f n ∧ gluMaskMag logSpec net X b f n < 1) ∧
      (1e-5 < gluMaskReIm logSpec net' X b f n ∧ gluMaskReIm logSpec net' X b f n < 1) :=
  ⟨affine_sigmoid _ _ (by norm_num), affine_sigmoid _ _ (by norm_num)⟩

/-- C51: `BLSTMMask` masks lie in `(1e-5, 1)`. -/
theorem blstm_mask_range (net : Sig B F N → Fin B → Fin F → Fin N → ℝ) (X : Sig B F N)
    (b : Fin B) (f : Fin F) (n : Fin N) :
    1e-5 < blstmMask net X b f n ∧ blstmMask net X b f n < 1 :=
  affine_sigmoid _ _ (by norm_num)

/-- C51: `MaskMVDRSupport` masks lie in `(eps, 1)` for every `eps < 1`. -/
theorem mask_mvdr_range {S M : ℕ} (eps : ℝ) (heps : eps < 1)
    (net : Sig B F N → Fin B → Fin (M * S * F) → Fin N → ℝ) (X : Sig B F N)
    (b : Fin B) (s : Fin S) (m : Fin M) (f : Fin F) (n : Fin N) :
    eps < maskMvdrSupport eps net X b s m f n ∧ maskMvdrSupport eps net X b s m f n < 1 := by
  unfold maskMvdrSupport
  rw [mul_comm]
  exact affine_sigmoid _ _ heps

/-- C51: distinct (source, mask, frequency) entries of `MaskMVDRSupport` read distinct network
outputs and every network output is read: with the identity-like network that marks output `j0` only,
exactly one mask entry is marked. -/
theorem mask_mvdr_layout {S M : ℕ} (eps : ℝ) (heps : eps < 1) (X : Sig B F N)
    (b : Fin B) (n : Fin N) (j0 : Fin (M * S * F)) (lo hi : ℝ) (hlo : lo < hi) :
    ∃! p : Fin S × Fin M × Fin F,
      maskMvdrSupport eps (fun _ _ j _ => if j = j0 then hi else lo) X b p.1 p.2.1 p.2.2 n
        = (1 - eps) * (1 / (1 + Real.exp (-hi))) + eps := by
  have hF : 0 < F := by
    rcases Nat.eq_zero_or_pos F with h | h
    · subst h; exact absurd j0.2 (by simp)
    · exact h
  have hM : 0 < M := by
    rcases Nat.eq_zero_or_pos M with h | h
    · subst h; exact absurd j0.2 (by simp)
    · exact h
  have hne : sigmoid lo ≠ sigmoid hi := by
    have : sigmoid lo < sigmoid hi := by
      unfold sigmoid
      refine one_div_lt_one_div_of_lt (by positivity) ?_
      have := Real.exp_lt_exp.2 (neg_lt_neg hlo)
      linarith
    exact this.ne
  have key : ∀ p : Fin S × Fin M × Fin F,
      (maskMvdrSupport eps (fun _ _ j _ => if j = j0 then hi else lo) X b p.1 p.2.1 p.2.2 n
        = (1 - eps) * (1 / (1 + Real.exp (-hi))) + eps) ↔
        (p.1.1 * M + p.2.1.1) * F + p.2.2.1 = j0.1 := by
    intro p
    unfold maskMvdrSupport
    beta_reduce
    constructor
    · intro h
      by_contra hc
      rw [if_neg (by rw [Fin.ext_iff]; exact hc)] at h
      have h1 : (1 - eps) * sigmoid lo = (1 - eps) * sigmoid hi := by
        simpa [sigmoid] using h
      exact hne (mul_left_cancel₀ (by linarith) h1)
    · intro h
      rw [if_pos (Fin.ext h)]; rfl
  have hj := j0.2
  have hq : j0.1 / F < M * S := by
    rw [Nat.div_lt_iff_lt_mul hF]; exact hj
  have hs : j0.1 / F / M < S := by
    rw [Nat.div_lt_iff_lt_mul hM]; exact hq.trans_eq (mul_comm _ _)
  refine ⟨(⟨j0.1 / F / M, hs⟩, ⟨j0.1 / F % M, Nat.mod_lt _ hM⟩, ⟨j0.1 % F, Nat.mod_lt _ hF⟩), ?_, ?_⟩
  · refine (key _).2 ?_
    dsimp only
    rw [Nat.div_add_mod', Nat.div_add_mod']
  · intro p hp
    replace hp := (key p).1 hp
    have h1 : j0.1 / F = p.1.1 * M + p.2.1.1 := by
      rw [← hp, Nat.mul_comm, Nat.mul_add_div hF, Nat.div_eq_of_lt p.2.2.2, add_zero]
    have h2 : j0.1 % F = p.2.2.1 := by
      rw [← hp, Nat.mul_comm, Nat.mul_add_mod, Nat.mod_eq_of_lt p.2.2.2]
    have h3 : j0.1 / F / M = p.1.1 := by
      rw [h1, Nat.mul_comm, Nat.mul_add_div hM, Nat.div_eq_of_lt p.2.1.2, add_zero]
    have h4 : j0.1 / F % M = p.2.1.1 := by
      rw [h1, Nat.mul_comm, Nat.mul_add_mod, Nat.mod_eq_of_lt p.2.1.2]
    refine Prod.ext (Fin.ext ?_) (Prod.ext (Fin.ext ?_) (Fin.ext ?_))
    · exact h3.symm
    · exact h4.symm
    · exact h2.symm

/-- Two sources, three masks, four frequencies: output 7 of the network ends up in exactly one mask entry. -/
example : ∃! p : Fin 2 × Fin 3 × Fin 4, maskMvdrSupport 1e-5 (fun _ _ j _ => if j = 7 then 1 else 0)
    (0 : Sig 1 4 1) 0 p.1 p.2.1 p.2.2 0 = (1 - 1e-5) * (1 / (1 + Real.exp (-1))) + 1e-5 :=
  mask_mvdr_layout 1e-5 (by norm_num) _ 0 0 7 0 1 one_pos

/-- C51: `SimpleModel` masks lie in `(0, 1)` ... -/
theorem simple_mask_range (eps : ℝ) (net : Sig B F N → Fin B → Fin F → Fin N → ℝ) (X : Sig B F N)
    (b : Fin B) (f : Fin F) (n : Fin N) :
    0 < simpleMask eps net X b f n ∧ simpleMask eps net X b f n < 1 :=
  ⟨sigmoid_pos _, sigmoid_lt_one _⟩

/-- ... but, unlike the other masks, they have no positive lower bound: its `eps` is applied
before the sigmoid. -/
theorem simple_mask_no_floor (eps : ℝ) (heps : eps < 1) (δ : ℝ) (hδ : 0 < δ) (X : Sig B F N) :
    ∃ net : Sig B F N → Fin B → Fin F → Fin N → ℝ, ∀ b f n, simpleMask eps net X b f n < δ := by
  refine ⟨fun _ _ _ _ => (-(1 / δ) - eps) / (1 - eps), fun b f n => ?_⟩
  unfold simpleMask sigmoid
  have h : eps + (1 - eps) * ((-(1 / δ) - eps) / (1 - eps)) = -(1 / δ) := by
    have : 1 - eps ≠ 0 := by linarith
    field_simp; ring
  rw [h, neg_neg]
  have h2 : 1 / δ < 1 + Real.exp (1 / δ) := by
    have := Real.add_one_le_exp (1 / δ); linarith
  calc 1 / (1 + Real.exp (1 / δ)) < 1 / (1 / δ) := one_div_lt_one_div_of_lt (by positivity) h2
    _ = δ := by rw [one_div_one_div]

/-- Range theorems (`mask_mvdr_range` and the others) are not about a constant mask: two networks give different masks. -/
example : blstmMask (B := 1) (F := 1) (N := 1) (fun _ _ _ _ => 0) 0 0 0 0 ≠
    blstmMask (B := 1) (F := 1) (N := 1) (fun _ _ _ _ => 1) 0 0 0 0 := by
  unfold blstmMask sigmoid
  have h : Real.exp (-1) < Real.exp (-0) := Real.exp_lt_exp.2 (by norm_num)
  have h2 : 1 / (1 + Real.exp (-0)) < 1 / (1 + Real.exp (-1)) :=
    one_div_lt_one_div_of_lt (by positivity) (by linarith)
  intro h3
  norm_num at h2 h3
  linarith

/-! ## C78: shape of `GLUMask` outputs -/

theorem gluLayer_same {nIn nOut m pool N : ℕ} (hpool : 0 < pool) (hm : 0 < m) (hN : 0 < N) :
    gluLayerShape nIn nOut m 3 pool (nIn, N) = .ok (nOut, N) := by
  have conv : ∀ t c, convShape t nIn c 3 (3 / 2) (nIn, N) = .ok (c, N) := by
    intro t c
    unfold convShape
    rw [if_neg (by simp)]
    cases t
    · rw [if_neg (by simp), if_neg (by simp; omega)]
      simp
    · rw [if_pos rfl, if_neg (by simp; omega)]
      congr 2
  have step : ∀ j, j < m → (List.range j).foldlM (init := (nIn, N)) (fun (x : ℕ × ℕ) i => do
      let y ← convShape (nIn < nOut) nIn (pool * if i = m - 1 then nOut else nIn) 3 (3 / 2) x
      Except.ok (y.1 / pool, y.2)) = .ok (nIn, N) := by
    intro j
    induction j with
    | zero => intro _; rfl
    | succ j ih =>
      intro hj
      rw [List.range_succ, List.foldlM_append, ih (by omega)]
      simp only [bind, Except.bind, List.foldlM_cons, List.foldlM_nil, conv, pure, Except.pure]
      rw [if_neg (by omega), Nat.mul_div_cancel_left _ hpool]
  unfold gluLayerShape
  rw [if_neg (by omega)]
  obtain ⟨j, rfl⟩ : ∃ j, m = j + 1 := ⟨m - 1, by omega⟩
  rw [List.range_succ, List.foldlM_append, step j (by omega)]
  simp only [bind, Except.bind, List.foldlM_cons, List.foldlM_nil, conv, pure, Except.pure]
  rw [if_pos (by omega), Nat.mul_div_cancel_left _ hpool]

/-- C78: for an odd `kernel_size` the mask has the shape of the input, for every bottleneck, pooling
size, number of sub-layers and number of frames. -/
theorem glu_shape_odd (nFreq nBot pool k : ℕ) (magSpec : Bool) (nSub N : ℕ) (hpool : 0 < pool)
    (hsub : 0 < nSub) (hN : 0 < N) (hk : k % 2 = 1) :
    gluMaskShape nFreq nBot pool k magSpec nSub nFreq N = .ok (nFreq, N) := by
  unfold gluMaskShape
  have e : ∀ m : Bool, ((if m then nFreq else 2 * nFreq : ℕ), N) =
      ((if m then nFreq else 2 * nFreq : ℕ), N) := fun _ => rfl
  have hc : convShape true nBot nFreq k (k / 2) (nBot, N) = .ok (nFreq, N) := by
    unfold convShape
    rw [if_neg (by simp), if_pos rfl, if_neg (by simp; omega)]
    congr 2
    simp; omega
  simp only [bind, Except.bind, gluLayer_same hpool Nat.one_pos hN, gluLayer_same hpool hsub hN, hc]
  simp

/-- C78: for an even `kernel_size` every call raises, although the constructor accepts it. -/
theorem glu_shape_even_raises (nFreq nBot pool k : ℕ) (magSpec : Bool) (nSub N : ℕ)
    (hpool : 0 < pool) (hsub : 0 < nSub) (hN : 0 < N) (hk : k % 2 = 0) (hF : 0 < nFreq) :
    gluMaskShape nFreq nBot pool k magSpec nSub nFreq N = .error .runtimeError := by
  unfold gluMaskShape
  simp only [bind, Except.bind, gluLayer_same hpool Nat.one_pos hN, gluLayer_same hpool hsub hN]
  unfold convShape
  rw [if_neg (by simp), if_pos rfl]
  by_cases h : N + k ≤ 1 + 2 * (k / 2)
  · rw [if_pos (by simpa using h)]
  · rw [if_neg (by simpa using h)]
    simp only
    rw [if_pos]
    intro h2
    have := Nat.eq_of_mul_eq_mul_left hF h2
    omega

/-- C78: `n_sublayers=0` is accepted by the constructor and makes every call raise
`AttributeError`. -/
theorem glu_shape_no_sublayer_raises (nFreq nBot pool k : ℕ) (magSpec : Bool) (N : ℕ)
    (hpool : 0 < pool) (hN : 0 < N) :
    gluMaskShape nFreq nBot pool k magSpec 0 nFreq N = .error .attributeError := by
  unfold gluMaskShape
  simp only [bind, Except.bind, gluLayer_same hpool Nat.one_pos hN]
  rfl

/-- 257 frequencies, pooling by two, 100 frames. -/
example : gluMaskShape 257 128 2 3 true 0 257 100 = .error .attributeError :=
  glu_shape_no_sublayer_raises _ _ _ _ _ _ (by norm_num) (by norm_num)

/-- C78: an input with another number of frequencies is rejected. -/
theorem glu_shape_wrong_freq (nFreq nBot pool k : ℕ) (magSpec : Bool) (nSub F N : ℕ)
    (hF : F ≠ nFreq) :
    gluMaskShape nFreq nBot pool k magSpec nSub F N = .error .runtimeError := by
  have h : (if magSpec then F else 2 * F) ≠ (if magSpec then nFreq else 2 * nFreq) := by
    cases magSpec <;> simp [hF]
  unfold gluMaskShape gluLayerShape
  simp only [Nat.one_ne_zero, if_false, bind, Except.bind, List.range_one, List.foldlM_cons,
    convShape, ne_eq, h, not_false_eq_true, if_true]

example : gluMaskShape 257 128 2 3 true 2 257 100 = .ok (257, 100) ∧
    gluMaskShape 257 128 2 4 true 2 257 100 = .error .runtimeError :=
  ⟨glu_shape_odd _ _ _ _ _ _ _ (by omega) (by omega) (by omega) rfl,
    glu_shape_even_raises _ _ _ _ _ _ _ (by omega) (by omega) (by omega) rfl (by omega)⟩

/-! ## C79: input level does not matter -/

/-- Mean power of one item. -/
noncomputable def meanPower (X : Sig B F N) (b : Fin B) : ℝ :=
  (∑ f, ∑ n, ‖X b f n‖ ^ 2) / (F * N)

theorem meanPower_smul (X : Sig B F N) (c : Fin B → ℂ) (b : Fin B) :
    meanPower (fun b f n => c b * X b f n) b = ‖c b‖ ^ 2 * meanPower X b := by
  unfold meanPower
  simp only [norm_mul, mul_pow, ← Finset.mul_sum]
  ring

/-- C79: `GLUMask(mag_spec=True)` returns the same mask when every item is multiplied by its own
complex gain, as long as the mean power of every item is at least 1e-5 before and after. -/
theorem glu_mask_scale_invariant (logSpec : Bool)
    (net : (Fin B → Fin F → Fin N → ℝ) → Fin B → Fin F → Fin N → ℝ) (X : Sig B F N)
    (c : Fin B → ℂ) (h1 : ∀ b, 1e-5 ≤ meanPower X b)
    (h2 : ∀ b, 1e-5 ≤ ‖c b‖ ^ 2 * meanPower X b) :
    gluMaskMag logSpec net (fun b f n => c b * X b f n) = gluMaskMag logSpec net X := by
  have e : gluPower (fun b f n => c b * X b f n) = gluPower X := by
    funext b f n
    have g : ∀ X : Sig B F N, gluPower X b f n =
        ‖X b f n‖ ^ 2 / max (max (meanPower X b) 1e-5) 1e-7 := fun X => by
      unfold gluPower meanPower clampMin; simp only [magSq_eq]
    have h3 := h2 b
    have h4 := h1 b
    rw [g, g, meanPower_smul, max_eq_left h3, max_eq_left h4, max_eq_left, max_eq_left, norm_mul,
      mul_pow, mul_div_mul_left]
    · rintro h0
      rw [h0, zero_mul] at h3
      norm_num at h3
    · exact le_trans (by norm_num) h4
    · exact le_trans (by norm_num) h3
  unfold gluMaskMag
  rw [e]

/-- C79: with `mag_spec=False, log_spec=True` the mask does not see the signs of the real and imaginary parts: it is a function of
their absolute values alone. -/
theorem glu_mask_log_sign_blind (net : (Fin B → Fin (F + F) → Fin N → ℝ) → Fin B → Fin F → Fin N → ℝ) (X X' : Sig B F N)
    (hre : ∀ b f n, |(X' b f n).re| = |(X b f n).re|) (him : ∀ b f n, |(X' b f n).im| = |(X b f n).im|) :
    gluMaskReIm true net X' = gluMaskReIm true net X := by
  have hm : ∀ b f n, magSq (X' b f n) = magSq (X b f n) := fun b f n => by
    rw [magSq_eq, magSq_eq, Complex.sq_norm, Complex.sq_norm, Complex.normSq_apply, Complex.normSq_apply,
      ← abs_mul_abs_self, hre, ← abs_mul_abs_self (X' b f n).im, him, abs_mul_abs_self, abs_mul_abs_self]
  have e : gluLog true (gluReIm X') = gluLog true (gluReIm X) := by
    funext b i n
    have : |gluReIm X' b i n| = |gluReIm X b i n| := by
      unfold gluReIm divide
      simp only [hm]
      refine Fin.addCases (fun f => ?_) (fun f => ?_) i
      · simp only [Fin.addCases_left, Complex.div_ofReal_re, abs_div, hre]
      · simp only [Fin.addCases_right, Complex.div_ofReal_im, abs_div, him]
    unfold gluLog
    simp only [this, if_true]
  unfold gluMaskReIm
  rw [e]

example (net : (Fin 1 → Fin (1 + 1) → Fin 1 → ℝ) → Fin 1 → Fin 1 → Fin 1 → ℝ) :
    gluMaskReIm true net (fun _ _ _ => ⟨3, -4⟩) = gluMaskReIm true net (fun _ _ _ => ⟨-3, 4⟩) :=
  glu_mask_log_sign_blind net _ _ (fun _ _ _ => by norm_num) fun _ _ _ => by norm_num

/-- C79: `GLUMask(mag_spec=False)` is invariant to positive gains. -/
theorem glu_mask_reim_scale_invariant (logSpec : Bool)
    (net : (Fin B → Fin (F + F) → Fin N → ℝ) → Fin B → Fin F → Fin N → ℝ) (X : Sig B F N)
    (c : Fin B → ℝ) (hc : ∀ b, 0 < c b) (h1 : ∀ b, 1e-5 ≤ meanPower X b)
    (h2 : ∀ b, 1e-5 ≤ c b ^ 2 * meanPower X b) :
    gluMaskReIm logSpec net (fun b f n => (c b : ℂ) * X b f n) = gluMaskReIm logSpec net X := by
  have e : gluReIm (fun b f n => (c b : ℂ) * X b f n) = gluReIm X := by
    have g : ∀ (X : Sig B F N) b f n, 1e-5 ≤ meanPower X b →
        divide (X b f n) (√(clampMin ((∑ f, ∑ n, magSq (X b f n)) / (F * N)) 1e-5)) 1e-7 =
          X b f n / (√(meanPower X b) : ℝ) := fun X b f n h => by
      have e1 : (∑ f, ∑ n, magSq (X b f n)) / (F * N) = meanPower X b := by
        unfold meanPower; simp only [magSq_eq]
      rw [e1]
      unfold divide clampMin
      rw [max_eq_left h, max_eq_left]
      refine Real.le_sqrt_of_sq_le (le_trans (by norm_num) h)
    funext b i n
    have h3 : 1e-5 ≤ meanPower (fun b f n => (c b : ℂ) * X b f n) b := by
      rw [meanPower_smul X (fun b => (c b : ℂ))]
      simpa using h2 b
    have key : ∀ f, ((c b : ℂ) * X b f n) / (√(meanPower (fun b f n => (c b : ℂ) * X b f n) b) : ℝ)
        = X b f n / (√(meanPower X b) : ℝ) := fun f => by
      rw [meanPower_smul X (fun b => (c b : ℂ))]
      have hc' := (hc b).ne'
      have : ‖(c b : ℂ)‖ = c b := by simp [abs_of_pos (hc b)]
      rw [this, Real.sqrt_mul (sq_nonneg _), Real.sqrt_sq (hc b).le]
      push_cast
      rw [mul_div_mul_left]
      exact_mod_cast hc'
    unfold gluReIm
    simp only
    congr 1
    · funext f
      rw [g (fun b f n => (c b : ℂ) * X b f n) b f n h3, g X b f n (h1 b), key]
    · funext f
      rw [g (fun b f n => (c b : ℂ) * X b f n) b f n h3, g X b f n (h1 b), key]
  unfold gluMaskReIm
  rw [e]

/-- The hypotheses of `glu_mask_scale_invariant` (C79) are met by a nonzero signal and a gain of two. -/
example : ∃ (X : Sig 1 1 1) (c : Fin 1 → ℂ), c ≠ 1 ∧ (∀ b, 1e-5 ≤ meanPower X b) ∧
    ∀ b, 1e-5 ≤ ‖c b‖ ^ 2 * meanPower X b := by
  refine ⟨fun _ _ _ => 1, fun _ => 2, fun h => ?_, fun b => ?_, fun b => ?_⟩
  · have := congrFun h 0; norm_num at this
  · norm_num [meanPower]
  · norm_num [meanPower]

end masks

end Torchiva.Props
