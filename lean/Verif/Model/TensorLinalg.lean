import Verif.Model.Tensor

/-!
# More operations on tensors with values

Reshaping, maxima, divisions that are not guarded, and the loaded solvers of torchiva/linalg.py.
-/

namespace Torchiva

/-- For instance torchiva/wpe.py:75: position of an entry in memory order (the last dimension, which is the first of the
list, varies fastest). -/
def flatIdx : Shape → List ℕ → ℕ
  | n :: s, i :: β => i + n * flatIdx s β
  | _, _ => 0

/-- For instance torchiva/wpe.py:75: the index of the entry at a position in memory order. -/
def unflatIdx : Shape → ℕ → List ℕ
  | [], _ => []
  | n :: s, k => k % n :: unflatIdx s (k / n)

namespace Ten

variable {α : Type}

/-- For instance torchiva/wpe.py:75: `x.reshape(s)`: the same entries in memory order. -/
def reshape (t : Ten α) (s : Shape) : Except Err (Ten α) := do
  let s ← reshapeS t.shape s
  .ok ⟨s, fun idx => t.val (unflatIdx t.shape (flatIdx s idx))⟩

/-- torchiva/linalg.py:85: `x.max(dim, keepdim=True).values` over dimension `k` from the end. -/
noncomputable def maxKeep (k : ℕ) (t : Ten ℝ) : Except Err (Ten ℝ) := do
  let s ← Torchiva.maxKeep k t.shape
  .ok ⟨s, fun idx => sSup {x | ∃ i, i < t.shape.getD k 0 ∧ x = t.val (idx.set k i)}⟩

open Classical in
/-- For instance torchiva/wpe.py:33-34: a division that is not guarded: dividing by zero gives inf or nan, reported here as
`nonFinite`. -/
noncomputable def div {𝕜 : Type} [Field 𝕜] (a d : Ten 𝕜) : Except Err (Ten 𝕜) := do
  let s ← bcast a.shape d.shape
  if ∃ idx, Inside idx s ∧ d.read idx = 0 then .error .nonFinite
  else .ok ⟨s, fun idx => a.read idx / d.read idx⟩

/-- For instance torchiva/wpe.py:33: a number used as a tensor. -/
def scalar (a : α) : Ten α := ⟨[], fun _ => a⟩

end Ten

/-- torchiva/linalg.py:83-87, 111-115: the matrices with their diagonal loading. -/
noncomputable def loadT (A : Ten ℂ) (load : ℝ) : Except Err (Ten ℂ) := do
  let n := A.shape.headD 0
  let m1 ← Ten.maxKeep 1 (A.map fun z => ‖z‖)
  let m ← m1.maxKeep 0
  let loadFactor := m.map fun x => clampMin (load * x) load
  let D ← Ten.map2 (fun x y => x * y) loadFactor.toC (Ten.eye n n)
  Ten.map2 (fun x y => x + y) A D

/-- torchiva/linalg.py:82-88 `solve_loaded`. -/
noncomputable def solveLoadedT (A B : Ten ℂ) (load : ℝ) : Except Err (Ten ℂ) := do
  let L ← loadT A load
  solveT L B

open Classical in
/-- torchiva/linalg.py:116: `torch.linalg.inv`: raises when one of the matrices is singular. -/
noncomputable def invT (A : Ten ℂ) : Except Err (Ten ℂ) :=
  match A.shape with
  | n :: n' :: s =>
    if n = n' then
      if ∀ β, Inside β s → IsUnit (matAt A n β).det then
        .ok ⟨A.shape, fun idx =>
          if h : idx.getD 1 0 < n ∧ idx.getD 0 0 < n then
            (matAt A n (idx.drop 2))⁻¹ ⟨idx.getD 1 0, h.1⟩ ⟨idx.getD 0 0, h.2⟩
          else 0⟩
      else .error .singular
    else .error .runtimeError
  | _ => .error .runtimeError

/-- torchiva/linalg.py:110-116 `inv_loaded`. -/
noncomputable def invLoadedT (A : Ten ℂ) (load : ℝ) : Except Err (Ten ℂ) := do
  let L ← loadT A load
  invT L

end Torchiva
