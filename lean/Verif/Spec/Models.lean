import Mathlib.Analysis.Complex.Basic
import Mathlib.Analysis.SpecialFunctions.Log.Basic

/-! Specifications for the source models. -/

namespace Spec

/-- Power of one frame of a source, summed over frequency. -/
noncomputable def framePower {F N : ℕ} (x : Fin F → Fin N → ℂ) (n : Fin N) : ℝ :=
  ∑ f, ‖x f n‖ ^ 2

/-- The Itakura-Saito fitting objective of a nonnegative factorisation `P ≈ T Vᵀ` (up to a term
depending on `P` only). -/
noncomputable def itakuraSaito {F N K : ℕ} (P : Fin F → Fin N → ℝ) (T : Fin F → Fin K → ℝ)
    (V : Fin N → Fin K → ℝ) : ℝ :=
  ∑ f, ∑ n, (P f n / (∑ k, T f k * V n k) + Real.log (∑ k, T f k * V n k))

/-- The spherical Laplace contrast: the sum over sources of the mean over frames of the frame
norms. -/
noncomputable def laplaceContrast {s F N : ℕ} (Y : Fin s → Fin F → Fin N → ℂ) : ℝ :=
  ∑ c, (∑ n, √(framePower (Y c) n)) / N

/-- The Gaussian contrast with one variance per frame. -/
noncomputable def gaussContrast {s F N : ℕ} (Y : Fin s → Fin F → Fin N → ℂ) : ℝ :=
  ∑ c, ∑ n, (F : ℝ) * Real.log (framePower (Y c) n / F)

/-- Weighted power of a signal. -/
noncomputable def weightedPower {s F N : ℕ} (w : Fin s → Fin F → Fin N → ℝ)
    (Y : Fin s → Fin F → Fin N → ℂ) : ℝ := ∑ c, ∑ f, ∑ n, w c f n * ‖Y c f n‖ ^ 2

end Spec
