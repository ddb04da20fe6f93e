import Verif.Spec.Models
import Mathlib.LinearAlgebra.Matrix.NonsingularInverse

/-! # The objectives of independent vector analysis, with the scale of the sources removed

`Y` are the separated signals, `W` the demixing matrices (rows = sources).  Both objectives are
unchanged when a source, and its row of `W`, is multiplied by a nonzero number. -/

namespace Spec

variable {C F N : ℕ}

/-- Mean over the frames of the norm of a source. -/
noncomputable def meanNorm (y : Fin F → Fin N → ℂ) : ℝ := (∑ n, √(framePower y n)) / N

/-- `-2 ∑_f log |det W_f|` -/
noncomputable def logdetTerm (W : Fin F → Matrix (Fin C) (Fin C) ℂ) : ℝ :=
  - 2 * ∑ f, Real.log ‖(W f).det‖

/-- Negative log-likelihood of IVA with a spherical Laplace source, minimised over the scale of each
source (up to a constant). -/
noncomputable def laplaceLoss (Y : Fin C → Fin F → Fin N → ℂ) : ℝ :=
  ∑ k, 2 * F * Real.log (meanNorm (Y k))

/-- Negative log-likelihood of IVA with a Gaussian source that has one variance per frame (up to a
constant). -/
noncomputable def gaussLoss (Y : Fin C → Fin F → Fin N → ℂ) : ℝ :=
  ∑ k, F * ((∑ n, Real.log (framePower (Y k) n)) / N)

end Spec
