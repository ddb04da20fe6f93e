import Mathlib.Data.Complex.Basic
import Mathlib.Analysis.Complex.Basic
import Mathlib.LinearAlgebra.Matrix.NonsingularInverse
import Mathlib.Analysis.SpecialFunctions.Sqrt

/-!
# Torch and Python primitives used by the model

Idealisations: tensors hold exact real/complex numbers and are functions on finite
index types; Python exceptions are values of `Err`.
-/

namespace Torchiva

/-- For instance torchiva/t_iss.py:453: Python exceptions that the modelled code can raise (type only, not message).
`nonFinite` is not an exception: it is the outcome "a division by exactly zero
produced inf/nan". -/
inductive Err
  | valueError | typeError | assertionError | nameError | unboundLocalError
  | attributeError | importError | keyError | indexError | runtimeError
  | zeroDivisionError | notImplementedError | notADirectory | fileNotFound
  | osError | singular | nonFinite | crash
  deriving DecidableEq, Repr

open Matrix

variable {ι κ : Type} [Fintype ι] [DecidableEq ι]

/-- For instance torchiva/linalg.py:32: `torch.clamp(x, min=eps)` on one element. -/
noncomputable def clampMin (x eps : ℝ) : ℝ := max x eps

/-- torchiva/linalg.py:88, 107: `torch.linalg.solve(A, b)`: raises `LinAlgError` exactly when `A` is singular,
otherwise returns the exact solution (idealised arithmetic). -/
noncomputable def solve (A : Matrix ι ι ℂ) (b : Matrix ι κ ℂ) : Except Err (Matrix ι κ ℂ) :=
  open Classical in if IsUnit A.det then .ok (A⁻¹ * b) else .error .singular

/-- torchiva/linalg.py:116: `torch.linalg.inv(A)`. -/
noncomputable def inv (A : Matrix ι ι ℂ) : Except Err (Matrix ι ι ℂ) :=
  open Classical in if IsUnit A.det then .ok A⁻¹ else .error .singular

/-- `A.abs().max(dim=-2, keepdim=True).values.max(dim=-1, keepdim=True).values`
(torchiva/linalg.py:85). Reducing an empty dimension raises `IndexError`. -/
noncomputable def maxAbs [Fintype κ] (A : Matrix ι κ ℂ) : Except Err ℝ :=
  open Classical in
  if h : Nonempty ι ∧ Nonempty κ then
    .ok (Finset.univ.sup' (Finset.univ_nonempty_iff.2 h.2)
          fun j => Finset.univ.sup' (Finset.univ_nonempty_iff.2 h.1) fun i => ‖A i j‖)
  else .error .indexError

end Torchiva
