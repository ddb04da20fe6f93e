import Verif.Model.Models
import Verif.Spec.Models
import Verif.Proofs.Eig2
import Mathlib.Algebra.Order.Chebyshev
import Mathlib.Algebra.BigOperators.Field

/-! Lemmas for the source models. -/

namespace Torchiva

/-- `t ↦ a²A/t + tB` does not increase when moving from `a` to the clamped minimiser. -/
theorem nmf_scalar {a A B eps : ℝ} (ha : 0 < a) (hA : 0 ≤ A) (hB : 0 < B) (heps : 0 < eps)
    (hae : eps ≤ a) :
    a ^ 2 * A / max (a * √(A / B)) eps + max (a * √(A / B)) eps * B ≤ a * A + a * B := by
  set r := √(A / B) with hr
  have hr0 : 0 ≤ r := Real.sqrt_nonneg _
  have hA' : A = r ^ 2 * B := by
    rw [hr, Real.sq_sqrt (div_nonneg hA hB.le)]; field_simp
  set t := max (a * r) eps with ht
  have ht0 : 0 < t := lt_of_lt_of_le heps (le_max_right _ _)
  have key : a ^ 2 * A + t ^ 2 * B ≤ (a * A + a * B) * t := by
    rw [hA']
    have : 0 ≤ (a - t) * (t - a * r ^ 2) := by
      rcases le_total (a * r) eps with h | h
      · have e : t = eps := max_eq_right h
        rw [e]
        have : a * r ^ 2 ≤ eps := by
          have : r ≤ 1 := by
            by_contra hc; push Not at hc; nlinarith
          nlinarith
        exact mul_nonneg (by linarith) (by linarith)
      · have e : t = a * r := max_eq_left h
        rw [e]
        have : (a - a * r) * (a * r - a * r ^ 2) = a ^ 2 * r * (1 - r) ^ 2 := by ring
        rw [this]; positivity
    nlinarith
  have : a ^ 2 * A / t + t * B = (a ^ 2 * A + t ^ 2 * B) / t := by field_simp
  rw [this, div_le_iff₀ ht0]; exact key

/-- One row of the IS-NMF multiplicative update: `a` is the current row, `v n` the activations. -/
theorem nmf_row {ν κ : Type} [Fintype ν] [Fintype κ] [Nonempty ν] (P : ν → ℝ) (v : ν → κ → ℝ)
    (a : κ → ℝ) (eps : ℝ) (heps : 0 < eps) (hP : ∀ n, 0 ≤ P n) (hv : ∀ n k, 0 < v n k)
    (ha : ∀ k, eps ≤ a k) (hR : ∀ n, eps ≤ ∑ k, a k * v n k) :
    let iR := fun n => (clampMin (∑ k, a k * v n k) eps)⁻¹
    let t := fun k => clampMin (a k * √((∑ n, P n * iR n ^ 2 * v n k) / ∑ n, iR n * v n k)) eps
    ∑ n, (P n / (∑ k, t k * v n k) + Real.log (∑ k, t k * v n k)) ≤
      ∑ n, (P n / (∑ k, a k * v n k) + Real.log (∑ k, a k * v n k)) := by
  intro iR t
  rcases isEmpty_or_nonempty κ with hκ | hκ
  · simp
  set R := fun n => ∑ k, a k * v n k with hRdef
  have hR0 : ∀ n, 0 < R n := fun n => lt_of_lt_of_le heps (hR n)
  have hiR : ∀ n, iR n = (R n)⁻¹ := fun n => by
    show (max (R n) eps)⁻¹ = _
    rw [max_eq_left (hR n)]
  have ha0 : ∀ k, 0 < a k := fun k => lt_of_lt_of_le heps (ha k)
  have ht0 : ∀ k, 0 < t k := fun k => lt_of_lt_of_le heps (le_max_right _ _)
  have hS0 : ∀ n, 0 < ∑ k, t k * v n k := fun n =>
    Finset.sum_pos (fun k _ => mul_pos (ht0 k) (hv n k)) Finset.univ_nonempty
  -- majorisation of each frame
  have hmaj : ∀ n, P n / (∑ k, t k * v n k) + Real.log (∑ k, t k * v n k) ≤
      ∑ k, (P n * (a k ^ 2 * v n k / t k) / R n ^ 2 + t k * v n k / R n) + Real.log (R n) - 1 := by
    intro n
    have h1 : (R n) ^ 2 / (∑ k, t k * v n k) ≤ ∑ k, a k ^ 2 * v n k / t k := by
      have := Finset.sum_sq_le_sum_mul_sum_of_sq_eq_mul Finset.univ
        (r := fun k => a k * v n k) (f := fun k => a k ^ 2 * v n k / t k)
        (g := fun k => t k * v n k) (fun k _ => by have := hv n k; have := ht0 k; positivity)
        (fun k _ => (mul_pos (ht0 k) (hv n k)).le)
        (fun k _ => by have := (ht0 k).ne'; field_simp)
      rwa [div_le_iff₀ (hS0 n)]
    have h2 : P n / (∑ k, t k * v n k) ≤ P n * (∑ k, a k ^ 2 * v n k / t k) / R n ^ 2 := by
      have hr := hR0 n
      rw [le_div_iff₀ (by positivity)]
      calc P n / (∑ k, t k * v n k) * R n ^ 2 = P n * (R n ^ 2 / ∑ k, t k * v n k) := by ring
        _ ≤ _ := mul_le_mul_of_nonneg_left h1 (hP n)
    have h3 : Real.log (∑ k, t k * v n k) ≤ Real.log (R n) + (∑ k, t k * v n k) / R n - 1 := by
      have := Real.log_le_sub_one_of_pos (div_pos (hS0 n) (hR0 n))
      rw [Real.log_div (hS0 n).ne' (hR0 n).ne'] at this
      linarith
    have e : ∑ k, (P n * (a k ^ 2 * v n k / t k) / R n ^ 2 + t k * v n k / R n) =
        P n * (∑ k, a k ^ 2 * v n k / t k) / R n ^ 2 + (∑ k, t k * v n k) / R n := by
      rw [Finset.sum_add_distrib, Finset.mul_sum, Finset.sum_div, Finset.sum_div]
    rw [e]; linarith
  refine (Finset.sum_le_sum fun n _ => hmaj n).trans ?_
  have eL : ∑ n, (∑ k, (P n * (a k ^ 2 * v n k / t k) / R n ^ 2 + t k * v n k / R n) +
      Real.log (R n) - 1) = ∑ k, (a k ^ 2 * (∑ n, P n * iR n ^ 2 * v n k) / t k +
        t k * ∑ n, iR n * v n k) + ∑ n, (Real.log (R n) - 1) := by
    simp only [add_sub_assoc]
    rw [Finset.sum_add_distrib, Finset.sum_comm]
    congr 1
    refine Finset.sum_congr rfl fun k _ => ?_
    rw [Finset.sum_add_distrib, Finset.mul_sum, Finset.sum_div, Finset.mul_sum]
    congr 1
    · refine Finset.sum_congr rfl fun n _ => ?_
      rw [hiR]; field_simp
    · refine Finset.sum_congr rfl fun n _ => ?_
      rw [hiR]; field_simp
  have eR : ∑ n, (P n / R n + Real.log (R n)) = ∑ k, (a k * (∑ n, P n * iR n ^ 2 * v n k) +
        a k * ∑ n, iR n * v n k) + ∑ n, (Real.log (R n) - 1) := by
    have h1 : ∀ n, P n / R n + Real.log (R n) =
        (∑ k, (a k * (P n * iR n ^ 2 * v n k) + a k * (iR n * v n k))) +
          (Real.log (R n) - 1) := by
      intro n
      have e1 : ∑ k, (a k * (P n * iR n ^ 2 * v n k) + a k * (iR n * v n k)) =
          (P n * iR n ^ 2 + iR n) * R n := by
        rw [hRdef]; dsimp only
        rw [Finset.mul_sum]
        exact Finset.sum_congr rfl fun k _ => by ring
      rw [e1, hiR]
      have := (hR0 n).ne'
      field_simp
      ring
    rw [Finset.sum_congr rfl fun n _ => h1 n, Finset.sum_add_distrib, Finset.sum_comm]
    congr 1
    refine Finset.sum_congr rfl fun k _ => ?_
    rw [Finset.sum_add_distrib, Finset.mul_sum, Finset.mul_sum]
  show _ ≤ ∑ n, (P n / R n + Real.log (R n))
  rw [eL, eR]
  refine add_le_add_left (Finset.sum_le_sum fun k _ => ?_) _
  refine nmf_scalar (ha0 k) ?_ ?_ heps (ha k)
  · exact Finset.sum_nonneg fun n _ => by
      have := hP n; have := (hv n k).le; positivity
  · exact Finset.sum_pos (fun n _ => by
      rw [hiR]; have := hv n k; have := hR0 n; positivity) Finset.univ_nonempty

theorem sigmoid_pos (x : ℝ) : 0 < sigmoid x := by unfold sigmoid; positivity

theorem sigmoid_lt_one (x : ℝ) : sigmoid x < 1 := by
  unfold sigmoid
  rw [div_lt_one (by positivity)]
  linarith [Real.exp_pos (-x)]

end Torchiva
