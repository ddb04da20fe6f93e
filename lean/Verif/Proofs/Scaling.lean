import Verif.Model.Scaling
import Verif.Spec.Scaling
import Verif.Proofs.TIss
import Mathlib.Analysis.MeanInequalities

/-! # Helper lemmas for the scaling step -/

namespace Torchiva

open Spec

variable {B C F N : ℕ}

/-- Expansion of the squared error of a complex scale factor with real weights. -/
lemma wsq_expand (w : Fin N → ℝ) (r y : Fin N → ℂ) (a : ℂ) :
    ∑ n, w n * ‖r n - a * y n‖ ^ 2 = ∑ n, w n * ‖r n‖ ^ 2 + ‖a‖ ^ 2 * ∑ n, w n * ‖y n‖ ^ 2
      - 2 * (star a * ∑ n, (w n : ℂ) * (r n * star (y n))).re := by
  rw [Finset.mul_sum, Finset.mul_sum, Complex.re_sum, Finset.mul_sum, ← Finset.sum_add_distrib, ← Finset.sum_sub_distrib]
  refine Finset.sum_congr rfl fun n _ => ?_
  simp only [Complex.sq_norm, Complex.normSq_apply, Complex.star_def]
  simp
  ring

/-- The weighted least squares factor, shrunk by `t = W / W'` with `W' ≥ W`, never does worse than zero, and is optimal
when `W' = W`. -/
lemma wsq_gap (w : Fin N → ℝ) (r y : Fin N → ℂ) (W' : ℝ) (hW : W' ≠ 0) (a : ℂ) :
    ∑ n, w n * ‖r n - (∑ n, (w n : ℂ) * (r n * star (y n))) / (W' : ℂ) * y n‖ ^ 2
      + W' * ‖a - (∑ n, (w n : ℂ) * (r n * star (y n))) / (W' : ℂ)‖ ^ 2
      + (W' - ∑ n, w n * ‖y n‖ ^ 2) * ‖(∑ n, (w n : ℂ) * (r n * star (y n))) / (W' : ℂ)‖ ^ 2
    = ∑ n, w n * ‖r n - a * y n‖ ^ 2 + (W' - ∑ n, w n * ‖y n‖ ^ 2) * ‖a‖ ^ 2 := by
  rw [wsq_expand, wsq_expand]
  set S := ∑ n, (w n : ℂ) * (r n * star (y n)) with hS
  set W := ∑ n, w n * ‖y n‖ ^ 2
  have h1 : ‖a - S / (W' : ℂ)‖ ^ 2 = ‖a‖ ^ 2 + ‖S / (W' : ℂ)‖ ^ 2 - 2 * (star a * S).re / W' := by
    rw [show S / (W' : ℂ) = ((W'⁻¹ : ℝ) : ℂ) * S by push_cast; rw [div_eq_inv_mul]]
    simp only [Complex.sq_norm, Complex.normSq_apply, Complex.star_def]
    simp
    field_simp
    ring
  have h2 : (star (S / (W' : ℂ)) * S).re = W' * ‖S / (W' : ℂ)‖ ^ 2 := by
    rw [show S / (W' : ℂ) = ((W'⁻¹ : ℝ) : ℂ) * S by push_cast; rw [div_eq_inv_mul]]
    simp only [Complex.sq_norm, Complex.normSq_apply, Complex.star_def]
    simp
    field_simp
  rw [h1, h2]
  field_simp
  ring

lemma lpThreshold_pos (p : ℝ) : 0 < lpThreshold p := Real.rpow_pos_of_pos (by norm_num) _

lemma lpThreshold_pow {p : ℝ} (hp : p < 2) : 2 * lpThreshold p ^ (2 - p) = 1e-5 := by
  rw [lpThreshold, ← Real.rpow_mul (by norm_num), one_div, inv_mul_cancel₀ (by linarith), Real.rpow_one]
  norm_num

/-- Above the threshold the weight is not clamped. -/
lemma weight_above {p u : ℝ} (hp : p < 2) (hu : lpThreshold p ≤ u) :
    max (2 * u ^ (2 - p)) 1e-5 = 2 * u ^ (2 - p) := by
  apply max_eq_left
  rw [← lpThreshold_pow hp]
  have := Real.rpow_le_rpow (lpThreshold_pos p).le hu (by linarith : 0 ≤ 2 - p)
  linarith

lemma weight_below {p u : ℝ} (hp : p < 2) (h0 : 0 ≤ u) (hu : u ≤ lpThreshold p) :
    max (2 * u ^ (2 - p)) 1e-5 = 1e-5 := by
  apply max_eq_right
  rw [← lpThreshold_pow hp]
  have := Real.rpow_le_rpow h0 hu (by linarith : 0 ≤ 2 - p)
  linarith

/-- Tangent majorisation of `u^p` by a parabola. -/
lemma rpow_tangent {p u v : ℝ} (h0 : 0 < p) (hp : p < 2) (hu : 0 ≤ u) (hv : 0 < v) :
    u ^ p ≤ v ^ p + p / (2 * v ^ (2 - p)) * (u ^ 2 - v ^ 2) := by
  have h := Real.geom_mean_le_arith_mean2_weighted (w₁ := p / 2) (w₂ := 1 - p / 2) (p₁ := u ^ 2) (p₂ := v ^ 2)
    (by linarith) (by linarith) (by positivity) (by positivity) (by ring)
  have e1 : (u ^ 2) ^ (p / 2) = u ^ p := by
    rw [← Real.rpow_natCast, ← Real.rpow_mul hu]; congr 1; push_cast; ring
  have e2 : (v ^ 2) ^ (1 - p / 2) = v ^ (2 - p) := by
    rw [← Real.rpow_natCast, ← Real.rpow_mul hv.le]; congr 1; push_cast; ring
  have e3 : v ^ p * v ^ (2 - p) = v ^ 2 := by
    rw [← Real.rpow_add hv, ← Real.rpow_natCast]; congr 1; push_cast; ring
  rw [e1, e2] at h
  have hv2 : 0 < v ^ (2 - p) := Real.rpow_pos_of_pos hv _
  have : u ^ p = (u ^ p * v ^ (2 - p)) / v ^ (2 - p) := by field_simp
  rw [this, div_le_iff₀ hv2, add_mul, e3]
  have e4 : p / (2 * v ^ (2 - p)) * (u ^ 2 - v ^ 2) * v ^ (2 - p) = p / 2 * (u ^ 2 - v ^ 2) := by field_simp
  rw [e4]
  linarith

/-- MM inequality for the clamped power. -/
lemma clampedPow_majorize {p u v : ℝ} (h0 : 0 < p) (hp : p < 2) (hu : 0 ≤ u) (hv : 0 ≤ v) :
    clampedPow p u ≤ clampedPow p v + p / max (2 * v ^ (2 - p)) 1e-5 * (u ^ 2 - v ^ 2) := by
  have ht := lpThreshold_pos p
  have htw : p / (2 * lpThreshold p ^ (2 - p)) = p / 1e-5 := by rw [lpThreshold_pow hp]
  unfold clampedPow
  by_cases h1 : lpThreshold p ≤ u <;> by_cases h2 : lpThreshold p ≤ v
  · rw [if_pos h1, if_pos h2, weight_above hp h2]
    exact rpow_tangent h0 hp hu (lt_of_lt_of_le ht h2)
  · rw [if_pos h1, if_neg h2, weight_below hp hv (le_of_not_ge h2)]
    have := rpow_tangent h0 hp hu ht
    rw [htw] at this
    linarith
  · rw [if_neg h1, if_pos h2, weight_above hp h2]
    have h3 := rpow_tangent h0 hp ht.le (lt_of_lt_of_le ht h2)
    push Not at h1
    have h4 : p / (2 * v ^ (2 - p)) ≤ p / 1e-5 := by
      apply div_le_div_of_nonneg_left h0.le (by norm_num)
      rw [← lpThreshold_pow hp]
      have := Real.rpow_le_rpow ht.le h2 (by linarith : 0 ≤ 2 - p)
      linarith
    have h5 : u ^ 2 - lpThreshold p ^ 2 ≤ 0 := by nlinarith
    nlinarith
  · rw [if_neg h1, if_neg h2, weight_below hp hv (le_of_not_ge h2)]
    linarith

lemma mdNorm_eq (k : MdScale B F C) : mdNorm k = scaleNorm k := rfl

lemma scaleNorm_nonneg (k : Spec.Scale B F C) : 0 ≤ scaleNorm k := Real.sqrt_nonneg _

lemma mdClose_iff (rtol : ℝ) (k k' : MdScale B F C) :
    (mdNorm k ≠ 0 ∧ mdNorm (fun b f c => k' b f c - k b f c) / mdNorm k < rtol) ↔ Close rtol k k' := by
  have h0 : 0 ≤ scaleNorm k := scaleNorm_nonneg k
  constructor
  · rintro ⟨h1, h2⟩
    have hp : 0 < scaleNorm k := lt_of_le_of_ne h0 (Ne.symm h1)
    exact ⟨hp, (div_lt_iff₀ hp).1 h2⟩
  · rintro ⟨h1, h2⟩
    exact ⟨h1.ne', (div_lt_iff₀ h1).2 h2⟩

/-- The loop from its second update on, when the updates succeed. -/
lemma mdLoop_some (step : MdScale B F C → Except Err (MdScale B F C)) (g : MdScale B F C → MdScale B F C)
    (hg : ∀ k, step k = .ok (g k)) (rtol : ℝ) (x : MdScale B F C) :
    ∀ fuel j, 1 ≤ j → ∃ k, mdLoop step rtol fuel (some (g^[j] x)) (g^[j] x) = .ok (g^[k] x) ∧ j ≤ k ∧ k ≤ j + fuel ∧
      (∀ i, j < i → i < k → ¬ Close rtol (g^[i - 1] x) (g^[i] x)) ∧
      (k = j + fuel ∨ (j < k ∧ Close rtol (g^[k - 1] x) (g^[k] x))) := by
  intro fuel
  induction fuel with
  | zero => exact fun j hj => ⟨j, rfl, le_rfl, le_rfl, fun i h1 h2 => absurd h1 (by omega), Or.inl rfl⟩
  | succ fuel ih =>
    intro j hj
    have hs : g (g^[j] x) = g^[j + 1] x := (Function.iterate_succ_apply' g j x).symm
    rw [mdLoop]
    simp only [hg, bind, Except.bind]
    by_cases hc : Close rtol (g^[j] x) (g (g^[j] x))
    · rw [if_pos ((mdClose_iff _ _ _).2 hc)]
      refine ⟨j + 1, by rw [hs], by omega, by omega, fun i h1 h2 => absurd h1 (by omega), Or.inr ⟨by omega, ?_⟩⟩
      rw [← hs]; simpa using hc
    · rw [if_neg (fun h => hc ((mdClose_iff _ _ _).1 h)), hs]
      obtain ⟨k, h1, h2, h3, h4, h5⟩ := ih (j + 1) (by omega)
      refine ⟨k, h1, by omega, by omega, fun i hi hik => ?_, ?_⟩
      · rcases Nat.lt_or_ge (j + 1) i with h | h
        · exact h4 i h hik
        · have : i = j + 1 := by omega
          subst this
          rw [← hs]; simpa using hc
      · rcases h5 with h | h
        · exact Or.inl (by omega)
        · exact Or.inr ⟨by omega, h.2⟩

/-- The whole loop. -/
lemma mdLoop_none (step : MdScale B F C → Except Err (MdScale B F C)) (g : MdScale B F C → MdScale B F C)
    (hg : ∀ k, step k = .ok (g k)) (rtol : ℝ) (maxIter : ℕ) :
    ∃ k, mdLoop step rtol maxIter none (fun _ _ _ => 1) = .ok (g^[k] 1) ∧ StopsAt g rtol maxIter k := by
  have h1 : (fun _ _ _ => 1 : MdScale B F C) = 1 := rfl
  rw [h1]
  cases maxIter with
  | zero => exact ⟨0, rfl, le_rfl, fun i h h' => absurd h (by omega), Or.inl rfl⟩
  | succ fuel =>
    rw [mdLoop]
    simp only [hg, bind, Except.bind]
    obtain ⟨k, h1, h2, h3, h4, h5⟩ := mdLoop_some step g hg rtol 1 fuel 1 le_rfl
    refine ⟨k, h1, by omega, fun i hi hik => h4 i (by omega) hik, ?_⟩
    rcases h5 with h | h
    · exact Or.inl (by omega)
    · exact Or.inr ⟨by omega, h.2⟩

end Torchiva
