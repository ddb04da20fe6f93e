import Verif.Spec.Linalg
import Verif.Spec.Contrast
import Mathlib.LinearAlgebra.Matrix.NonsingularInverse

/-!
# How well conditioned the linear systems of AuxIVA-IP are

For one frequency: `x` are the microphone signals, `w k` the frame weights used for source `k`.
-/

namespace Spec

variable {C N : ℕ}

/-- Weighted sum of the outer products of the frames. -/
noncomputable def covSum (x : Fin C → Fin N → ℂ) (w : Fin N → ℝ) : Matrix (Fin C) (Fin C) ℂ :=
  Matrix.of fun c d => ∑ n, (w n : ℂ) * x c n * star (x d n)

/-- The demixing matrix at the moment when source `k` is updated: the earlier sources have their new rows, the others
the old rows divided by the level of the source. -/
noncomputable def ipStage (W W' : Matrix (Fin C) (Fin C) ℂ) (level : Fin C → ℝ) (k : Fin C) : Matrix (Fin C) (Fin C) ℂ :=
  Matrix.of fun i c => if i < k then W' i c else W i c / (level i : ℂ)

/-- `κ` bounds the condition numbers of the weighted covariances, and `μ` bounds from below the squared singular values of
the linear systems, after the normalisation of their rows. -/
structure IpConditioned (x : Fin C → Fin N → ℂ) (w : Fin C → Fin N → ℝ) (M : Fin C → Matrix (Fin C) (Fin C) ℂ)
    (eps κ μ : ℝ) : Prop where
  cov : ∀ k, ∃ a : ℝ, 0 < a ∧ ∀ v : Fin C → ℂ, a * ∑ c, ‖v c‖ ^ 2 ≤ ∑ n, w k n * ‖∑ c, v c * x c n‖ ^ 2 ∧
    ∑ n, w k n * ‖∑ c, v c * x c n‖ ^ 2 ≤ κ * (a * ∑ c, ‖v c‖ ^ 2)
  sys : ∀ k (v : Fin C → ℂ), μ * ∑ c, ‖v c‖ ^ 2 ≤
    ∑ i, (1 / max (l2 ((M k * covSum x (w k)) i)) eps) ^ 2 * ‖((M k * covSum x (w k)).mulVec v) i‖ ^ 2

/-- The level of a source, from below bounded by `eps`: mean power over frequencies and frames. -/
noncomputable def ipPower {F : ℕ} (Y : Fin C → Fin F → Fin N → ℂ) (eps : ℝ) (k : Fin C) : ℝ :=
  max ((∑ f, ∑ n, ‖Y k f n‖ ^ 2) / (F * N)) eps

/-- One more iteration of AuxIVA-IP, from the output `Y = W X` to the output `Y' = W' X` and with the weights `r` of the
source model: the linear systems are well conditioned and no output row had to be clamped, at all frequencies. -/
structure IpRegular {F : ℕ} (X : Fin C → Fin F → Fin N → ℂ) (r : Fin C → Fin F → Fin N → ℝ) (Y Y' : Fin C → Fin F → Fin N → ℂ)
    (W W' : Fin F → Matrix (Fin C) (Fin C) ℂ) (eps κ μ : ℝ) : Prop where
  cond : ∀ f, IpConditioned (fun c => X c f) (fun k n => r k f n * ipPower Y eps k)
    (ipStage (W f) (W' f) fun k => max (√(ipPower Y eps k)) eps) eps κ μ
  unit : ∀ k f, ∑ n, r k f n * ipPower Y eps k * ‖Y' k f n‖ ^ 2 = 1

end Spec
