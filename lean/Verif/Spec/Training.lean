import Mathlib.Analysis.Complex.Basic
import Mathlib.Data.Finset.Lattice.Fold
import Mathlib.Data.Fintype.Perm

/-! # What the training and evaluation scripts are expected to compute -/

namespace Spec

/-- The smallest total loss over all assignments of the `K` estimates to the `K` references. -/
noncomputable def bestAssignment {X : Type} {K : ℕ} (loss : X → X → ℝ) (est ref : Fin K → X) : ℝ :=
  Finset.univ.inf' Finset.univ_nonempty fun σ : Equiv.Perm (Fin K) => ∑ k, loss (est (σ k)) (ref k)

/-- The first `m` samples. -/
def firstSamples {n m : ℕ} (h : m ≤ n) (x : Fin n → ℂ) : Fin m → ℂ := fun t => x (Fin.castLE h t)

/-- Energy of a signal. -/
noncomputable def energyOf {n : ℕ} (x : Fin n → ℂ) : ℝ := ∑ t, ‖x t‖ ^ 2

/-- The average of a list of numbers. -/
noncomputable def average (l : List ℝ) : ℝ := l.sum / l.length

end Spec
