import Verif.Model.TensorLinalg
import Verif.Model.Scaling

/-!
# Scaling on tensors

`projection_back`, `minimum_distortion_l2` and `minimum_distortion_l2_phase` of torchiva/scaling.py, statement by
statement, on signals with any number of batch dimensions.
-/

namespace Torchiva

/-- torchiva/scaling.py:81-101 `minimum_distortion_l2`.  Dividing the real and imaginary parts by a real number is
dividing the complex number. -/
noncomputable def minDistL2T (Y ref : Ten ℂ) : Except Err (Ten ℂ) := do
  let nFrames := Y.shape.headD 0
  let r ← ref.unsq 2
  let prod ← Ten.map2 (fun x y => star x * y) r Y
  let num ← prod.sum 0
  let num := num.map fun z => z / (nFrames : ℂ)
  let den ← (magSqT Y).sum 0
  let den := den.map fun x => x / (nFrames : ℝ)
  let c ← Ten.map2 (fun z d => z / ((clampMin d 1e-7 : ℝ) : ℂ)) num den
  let c1 ← c.unsq 0
  Ten.map2 (fun y z => y * star z) Y c1

/-- torchiva/scaling.py:104-123 `minimum_distortion_l2_phase`. -/
noncomputable def minDistL2PhaseT (Y ref : Ten ℂ) : Except Err (Ten ℂ) := do
  let Y ← Y.swap12
  let nFrames := Y.shape.headD 0
  let r ← ref.unsq 1
  let prod ← Ten.map2 (fun x y => star x * y) r Y
  let num ← prod.sum 0
  let num := num.map fun z => z / (nFrames : ℂ)
  let c := num.map fun z => z / ((clampMin ‖z‖ 1e-5 : ℝ) : ℂ)
  let c1 ← c.unsq 0
  let Z ← Ten.map2 (fun y z => y * star z) Y c1
  Z.swap12

/-- torchiva/scaling.py:61: what `torch.argsort` does with one row. -/
abbrev Sorter := (n : ℕ) → (Fin n → ℝ) → Equiv.Perm (Fin n)

/-- torchiva/scaling.py:61: `torch.argsort(x, dim=-1)`. -/
noncomputable def argsortT (sorter : Sorter) (x : Ten ℝ) : Except Err (Ten ℕ) :=
  match x.shape with
  | [] => .error .indexError
  | n :: s => .ok ⟨n :: s, fun idx =>
      if h : idx.headD 0 < n then sorter n (fun i => x.val (i :: idx.tail)) ⟨idx.headD 0, h⟩ else 0⟩

/-- torchiva/scaling.py:61: `x[..., -m:]`, all of `x` when `m` is zero or exceeds the size. -/
def lastT {α : Type} (m : ℕ) (x : Ten α) : Except Err (Ten α) :=
  x.drop 0 (if m = 0 then 0 else x.shape.headD 0 - m)

/-- torchiva/scaling.py:63-64: the first result of `torch.broadcast_tensors(x, y)`. -/
def bcastWith {α γ : Type} (x : Ten α) (y : Ten γ) : Except Err (Ten α) :=
  Ten.map2 (fun a _ => a) x y

/-- torchiva/scaling.py:66-67: `torch.gather(x, dim=-1, index)`: along the other dimensions the index must not be larger than
`x`.  The indices come from `argsort` and are in range, so this is not checked. -/
def gather0 {α : Type} (x : Ten α) (ix : Ten ℕ) : Except Err (Ten α) :=
  if x.shape.length = ix.shape.length ∧ ∀ p ∈ ix.shape.tail.zip x.shape.tail, p.1 ≤ p.2 then
    .ok ⟨ix.shape, fun idx => x.val (ix.val idx :: idx.tail)⟩
  else .error .runtimeError

/-- torchiva/scaling.py:72-73: `x.reshape((-1,) + s)`. -/
def flatT {α : Type} (x : Ten α) (s : Shape) : Except Err (Ten α) := do
  let s ← reshapeFlat x.shape s
  .ok ⟨s, fun idx => x.val (unflatIdx x.shape (flatIdx s idx))⟩

/-- torchiva/scaling.py:42-78 `projection_back`. -/
noncomputable def projectionBackT (sorter : Sorter) (Y ref : Ten ℂ) : Except Err (Ten ℂ) :=
  match Y.shape with
  | _ :: F :: C :: b => do
    let Y ← Y.swap12
    let e ← Ten.sum 2 (Y.map fun z => ‖z‖)
    let e ← e.sum 1
    let I ← argsortT sorter e
    let I ← lastT C I
    let I1 ← I.unsq 1
    let I2 ← I1.unsq 2
    let Yc ← Y.take 0 C
    let IY ← bcastWith I2 Yc
    let rc ← ref.take 0 C
    let Ir ← bcastWith I1 rc
    let A ← gather0 Y IY
    let A ← A.swap01
    let bb ← gather0 ref Ir
    let bb ← bb.unsq 0
    let A ← flatT A [C, C]
    let bb ← flatT bb [1, C]
    let A ← Ten.map2 (fun x y => x + y) A ((Ten.eye C C).map fun x => (1e-5 : ℂ) * x)
    let c ← solveT A bb
    let c ← c.reshape (1 :: C :: F :: b)
    let Z ← Ten.map2 (fun x y => x * y) Y c
    Z.swap12
  | _ => .error .valueError

end Torchiva
