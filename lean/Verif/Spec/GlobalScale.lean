import Mathlib.Analysis.Complex.Norm
import Mathlib.Algebra.BigOperators.Ring.Finset

/-!
# Distances and powers of spectrograms
-/

namespace Spec

variable {F N : ℕ}

/-- The squared distance of two signals. -/
noncomputable def sqDist (A B : Fin F → Fin N → ℂ) : ℝ := ∑ f, ∑ n, ‖A f n - B f n‖ ^ 2

/-- The mean power of a signal. -/
noncomputable def spectrogramPower (A : Fin F → Fin N → ℂ) : ℝ := (∑ f, ∑ n, ‖A f n‖ ^ 2) / (F * N : ℕ)

end Spec
