import Mathlib.Data.Complex.Basic
import Mathlib.Algebra.BigOperators.Group.Finset.Basic

/-!
# Specification for C104: recordings whose channels do not overlap
-/

namespace Torchiva.Spec

variable {C F N : ℕ}

/-- At every frequency, different channels are never active within `L` frames of one another. -/
def Apart (L : ℕ) (X : Fin C → Fin F → Fin N → ℂ) : Prop :=
  ∀ c d, c ≠ d → ∀ f (n m : Fin N), n.1 ≤ m + L → m.1 ≤ n + L → X c f n = 0 ∨ X d f m = 0

/-- The value `δ` frames earlier, zero before the start. -/
def past (x : Fin N → ℂ) (δ : ℕ) (n : Fin N) : ℂ := if h : δ ≤ n.1 then x ⟨n - δ, by omega⟩ else 0

end Torchiva.Spec
