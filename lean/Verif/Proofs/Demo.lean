import Verif.Model.Models
import Verif.Spec.Linalg
import Mathlib.Analysis.Matrix.PosDef

/-!
# Concrete data for the non-vacuity examples

These are used by the `example`s beside the property theorems only.
-/

namespace Torchiva.Demo

open Torchiva Matrix

/-- A signal in which no channel, frequency or frame repeats another one. -/
noncomputable def sig (C F N : ℕ) : Sig C F N := fun c f n =>
  ((c.1 + 1 : ℝ) : ℂ) + ((f.1 + (n.1 + 1) * (c.1 + 2) ^ 2 : ℝ) : ℂ) * Complex.I

/-- One frequency of `sig`. -/
noncomputable def frames (C N : ℕ) : Fin C → Fin N → ℂ := fun c => sig C 1 N c 0

/-- A demixing matrix that is neither diagonal nor triangular. -/
noncomputable def demix (s C : ℕ) : Matrix (Fin s) (Fin C) ℂ :=
  Matrix.of fun k c => if k.1 = c.1 then 2 else Complex.I

theorem sig_ne_zero {C F N : ℕ} (c : Fin C) (f : Fin F) (n : Fin N) : sig C F N c f n ≠ 0 := by
  intro h
  have := congrArg Complex.re h
  unfold sig at this
  rw [Complex.add_re, Complex.re_ofReal_mul, Complex.I_re, mul_zero, add_zero, Complex.ofReal_re, Complex.zero_re] at this
  have h2 : (0 : ℝ) ≤ c.1 := Nat.cast_nonneg _
  linarith

/-- The weights of the Laplace model are nonnegative. -/
theorem laplace_nonneg {F N : ℕ} (s : ℕ) (ms : Unit) (Y : Sig s F N) (k : Fin s) (f : Fin F) (n : Fin N) :
    0 ≤ ((laplaceModel 1e-5 : SourceModel Unit F N) s ms Y).1 k f n := by
  show 0 ≤ 1 / clampMin _ (1e-5 : ℝ)
  have : (0 : ℝ) < clampMin (2 * √(∑ f, magSq (Y k f n))) (1e-5 : ℝ) := by
    exact lt_of_lt_of_le (by norm_num) (le_max_right _ _)
  positivity

/-- A vector without zero entries. -/
noncomputable def vec (C : ℕ) : Fin C → ℂ := fun c => ((c.1 + 1 : ℝ) : ℂ) + Complex.I

open scoped ComplexOrder

/-- A rank-one covariance matrix, complex off the diagonal. -/
noncomputable def rankOne (C : ℕ) : Matrix (Fin C) (Fin C) ℂ := Matrix.of fun i j => vec C i * star (vec C j)

/-- A positive definite covariance matrix, complex off the diagonal. -/
noncomputable def cov (C : ℕ) : Matrix (Fin C) (Fin C) ℂ := 1 + rankOne C

theorem rankOne_psd (C : ℕ) : (rankOne C).PosSemidef := Matrix.posSemidef_vecMulVec_self_star (vec C)

theorem cov_pd (C : ℕ) : (cov C).PosDef := Matrix.PosDef.add_posSemidef Matrix.PosDef.one (rankOne_psd C)

theorem cov_psd (C : ℕ) : (cov C).PosSemidef := (cov_pd C).posSemidef

theorem cov_power (C : ℕ) (v : Fin C → ℂ) : 1e-5 * ∑ k, ‖v k‖ ^ 2 ≤ Spec.power (cov C) v := by
  have h := (Complex.le_def.1 ((rankOne_psd C).dotProduct_mulVec_nonneg v)).1
  have h0 : 0 ≤ ∑ k, ‖v k‖ ^ 2 := Finset.sum_nonneg fun _ _ => by positivity
  have e : (star v ⬝ᵥ v).re = ∑ k, ‖v k‖ ^ 2 := by
    simp only [dotProduct, Pi.star_apply, Complex.star_def, Complex.conj_mul', Complex.re_sum]
    exact Finset.sum_congr rfl fun c _ => by rw [← Complex.ofReal_pow, Complex.ofReal_re]
  unfold Spec.power cov
  rw [Matrix.add_mulVec, Matrix.one_mulVec, dotProduct_add, Complex.add_re, e]
  simp only [Complex.zero_re] at h
  nlinarith

theorem vec_ne_zero {C : ℕ} (c : Fin C) : vec C c ≠ 0 := fun h => by
  have := congrArg Complex.im h
  simp [vec] at this

end Torchiva.Demo
