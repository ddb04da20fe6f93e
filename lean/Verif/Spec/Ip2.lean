import Mathlib.Analysis.SpecialFunctions.Log.Basic
import Mathlib.Analysis.Complex.Basic
import Mathlib.LinearAlgebra.Matrix.Determinant.Basic
import Verif.Spec.Linalg
import Mathlib.LinearAlgebra.Matrix.Adjugate

/-! # Specification of the independent vector analysis auxiliary cost at one frequency -/

namespace Spec

variable {C N : ℕ}

/-- Weighted covariance `1/N ∑ₙ wₙ xₙ xₙᴴ`. -/
noncomputable def wcov (x : Fin C → Fin N → ℂ) (w : Fin N → ℝ) : Matrix (Fin C) (Fin C) ℂ :=
  Matrix.of fun c d => (∑ n, (w n : ℂ) * x c n * star (x d n)) / N

/-- Output `k` of the demixing matrix `W`. -/
noncomputable def out (W : Matrix (Fin C) (Fin C) ℂ) (x : Fin C → Fin N → ℂ) (k : Fin C) (n : Fin N) : ℂ :=
  ∑ c, W k c * x c n

/-- Weighted energy of a signal. -/
noncomputable def wenergy (w : Fin N → ℝ) (y : Fin N → ℂ) : ℝ := (∑ n, w n * ‖y n‖ ^ 2) / N

/-- Auxiliary cost: weighted energies of the outputs minus `2 log |det W|`. -/
noncomputable def ivaCost (x : Fin C → Fin N → ℂ) (w : Fin C → Fin N → ℝ) (W : Matrix (Fin C) (Fin C) ℂ) : ℝ :=
  ∑ k, wenergy (w k) (out W x k) - 2 * Real.log ‖W.det‖

/-- Two-channel data and weights away from all the clamps of the two-channel update: the weighted covariances are
well conditioned, the generalised eigenvalues are apart, every unit-norm filter has weighted energy at least
`max(1e-7, eps²)` and the unnormalised eigenvectors are longer than `eps`. -/
structure Ip2Regular (x : Fin 2 → Fin N → ℂ) (w : Fin 2 → Fin N → ℝ) (eps : ℝ) : Prop where
  det : eps ≤ (wcov x (w 0)).det.re
  disc : eps ≤ (wcov x (w 1) * (wcov x (w 0)).adjugate).trace.re ^ 2
    - 4 * ((wcov x (w 1)).det.re * (wcov x (w 0)).det.re)
  low : ∀ k u, l2 u = 1 → max 1e-7 (eps ^ 2) ≤ power (wcov x (w k)) u
  raw : ∀ l : ℝ, eps ≤ l2 ![(l : ℂ) * wcov x (w 0) 0 1 - wcov x (w 1) 0 1,
    wcov x (w 1) 0 0 - (l : ℂ) * wcov x (w 0) 0 0]

end Spec
