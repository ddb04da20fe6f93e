import Mathlib.Data.Real.Basic
import Mathlib.Algebra.BigOperators.Fin

namespace Spec

/-- Linear convolution of two finite signals, sample `k`. -/
noncomputable def linConv {n1 n2 : ℕ} (x1 : Fin n1 → ℝ) (x2 : Fin n2 → ℝ) (k : ℕ) : ℝ :=
  ∑ i, ∑ j, if i.1 + j.1 = k then x1 i * x2 j else 0

end Spec
