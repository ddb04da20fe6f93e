import Mathlib.Analysis.Complex.Basic
import Mathlib.LinearAlgebra.Matrix.Hermitian
import Mathlib.LinearAlgebra.Matrix.PosDef

/-!
# Specifications for linear algebra (independent of the model)
-/

namespace Spec

open Matrix

/-- Weighted ridge-regression cost of `x` for the system `A x = b`:
`∑ₖ wₖ² |(A x)ₖ - bₖ|² + load ‖x‖²`. -/
noncomputable def ridgeCost {ι κ : Type} [Fintype ι] [Fintype κ] (w : κ → ℝ)
    (A : Matrix κ ι ℂ) (b : κ → ℂ) (load : ℝ) (x : ι → ℂ) : ℝ :=
  ∑ k, w k ^ 2 * ‖(A *ᵥ x) k - b k‖ ^ 2 + load * ∑ j, ‖x j‖ ^ 2

/-- Euclidean norm of a complex vector. -/
noncomputable def l2 {ι : Type} [Fintype ι] (x : ι → ℂ) : ℝ := √(∑ j, ‖x j‖ ^ 2)

/-- `x` is the unique minimiser of `f`. -/
def IsUniqueMin {α : Type} (f : α → ℝ) (x : α) : Prop :=
  ∀ y, f x ≤ f y ∧ (f y = f x → y = x)

/-- `xᴴ R x` (real part; `R` Hermitian makes it real). -/
noncomputable def power {ι : Type} [Fintype ι] (R : Matrix ι ι ℂ) (x : ι → ℂ) : ℝ :=
  (star x ⬝ᵥ R *ᵥ x).re

/-- Diagonal loading of `R` for the parameter `eps`: `eps * max(1, largest |entry| of R)`. -/
def IsLoad {ι : Type} (R : Matrix ι ι ℂ) (eps lam : ℝ) : Prop :=
  ∃ m, IsGreatest (Set.range fun p : ι × ι => ‖R p.1 p.2‖) m ∧ lam = max (eps * m) eps

/-- `(λ, v)` is a generalised eigenpair of `(A, B)`. -/
def IsEigenpair {ι : Type} [Fintype ι] (A B : Matrix ι ι ℂ) (lam : ℝ) (v : ι → ℂ) : Prop :=
  A *ᵥ v = (lam : ℂ) • (B *ᵥ v)

end Spec
