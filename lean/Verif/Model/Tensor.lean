import Verif.Model.Shape

/-!
# Tensors with values

`Model/Shape.lean` follows the shapes of the torch operations; here the same operations are modelled
with the numbers in them, for tensors of any number of dimensions and any number of leading (batch)
dimensions.  As for shapes, indices are written **last dimension first**, so that the batch index is
the tail of the list.  Whether an operation raises is decided by `Model/Shape.lean` (and by the values
for `torch.linalg.solve`).  Real tensors are `Ten ℝ`, complex tensors `Ten ℂ`.
-/

namespace Torchiva

/-- For instance torchiva/t_iss.py:67: a tensor: its shape and its entries.  Only the entries at
indices inside the shape mean something. -/
structure Ten (α : Type) where
  shape : Shape
  val : List ℕ → α

/-- For instance torchiva/t_iss.py:67: the indices of a tensor of the given shape. -/
def Inside : List ℕ → Shape → Prop
  | [], [] => True
  | i :: β, n :: s => i < n ∧ Inside β s
  | _, _ => False

/-- For instance torchiva/scaling.py:63-64: the index read in a tensor of shape `s` when it is
broadcast to a shape with index `idx`: dimensions of size one are read at zero, missing dimensions
are dropped. -/
def bIdx : Shape → List ℕ → List ℕ
  | [], _ => []
  | _, [] => []
  | n :: s, i :: β => (if n = 1 then 0 else i) :: bIdx s β

namespace Ten

variable {α γ δ : Type}

/-- For instance torchiva/scaling.py:63-64: reading with broadcasting. -/
def read (t : Ten α) (idx : List ℕ) : α := t.val (bIdx t.shape idx)

/-- For instance torchiva/linalg.py:56: a function applied to every entry. -/
def map (g : α → γ) (t : Ten α) : Ten γ := ⟨t.shape, fun idx => g (t.val idx)⟩

/-- For instance torchiva/linalg.py:32: an operation on two tensors, entry by entry, with
broadcasting. -/
def map2 (g : α → γ → δ) (a : Ten α) (b : Ten γ) : Except Err (Ten δ) := do
  let s ← bcast a.shape b.shape
  .ok ⟨s, fun idx => g (a.read idx) (b.read idx)⟩

/-- torchiva/auxiva_ip.py:83, 99: `torch.broadcast_to(x, s)`. -/
def expand (t : Ten α) (s : Shape) : Except Err (Ten α) := do
  let s ← bcastTo t.shape s
  .ok ⟨s, t.read⟩

/-- For instance torchiva/t_iss.py:68: indexing dimension `k` from the end with an integer. -/
def sel (k i : ℕ) (t : Ten α) : Except Err (Ten α) := do
  let s ← Torchiva.sel k i t.shape
  .ok ⟨s, fun idx => t.val (idx.insertIdx k i)⟩

/-- torchiva/t_iss.py:287, 296: indexing with a list of one index: the dimension stays with size one. -/
def pick (k i : ℕ) (t : Ten α) : Except Err (Ten α) := do
  let s ← Torchiva.pick k i t.shape
  .ok ⟨s, fun idx => t.val (idx.set k i)⟩

/-- For instance torchiva/t_iss.py:207: `x[..., :m]` on dimension `k` from the end. -/
def take (k m : ℕ) (t : Ten α) : Except Err (Ten α) := do
  let s ← onDim k (min m) t.shape
  .ok ⟨s, t.val⟩

/-- For instance torchiva/t_iss.py:208: `x[..., m:]` on dimension `k` from the end. -/
def drop (k m : ℕ) (t : Ten α) : Except Err (Ten α) := do
  let s ← onDim k (· - m) t.shape
  .ok ⟨s, fun idx => t.val (idx.modify k (· + m))⟩

/-- For instance torchiva/t_iss.py:244: `None` in an index. -/
def unsq (k : ℕ) (t : Ten α) : Except Err (Ten α) := do
  let s ← Torchiva.unsq k t.shape
  .ok ⟨s, fun idx => t.val (idx.eraseIdx k)⟩

/-- torchiva/t_iss.py:297-298: the index with its first two entries exchanged. -/
def swapIdx01 : List ℕ → List ℕ
  | i :: j :: β => j :: i :: β
  | l => l

/-- torchiva/t_iss.py:297, 302: the index with its second and third entries exchanged. -/
def swapIdx12 : List ℕ → List ℕ
  | i :: j :: k :: β => i :: k :: j :: β
  | l => l

/-- torchiva/t_iss.py:225: the index before `moveaxis(-1, -3)`. -/
def moveIdx13 : List ℕ → List ℕ
  | i :: j :: k :: β => k :: i :: j :: β
  | l => l

/-- torchiva/t_iss.py:298: `x.transpose(-2, -1)`. -/
def swap01 (t : Ten α) : Except Err (Ten α) := do
  let s ← Torchiva.swap01 t.shape
  .ok ⟨s, fun idx => t.val (swapIdx01 idx)⟩

/-- torchiva/t_iss.py:297, 302: `x.transpose(-3, -2)`. -/
def swap12 (t : Ten α) : Except Err (Ten α) := do
  let s ← Torchiva.swap12 t.shape
  .ok ⟨s, fun idx => t.val (swapIdx12 idx)⟩

/-- torchiva/t_iss.py:225: `x.moveaxis(-1, -3)`. -/
def move13 (t : Ten α) : Except Err (Ten α) := do
  let s ← Torchiva.move13 t.shape
  .ok ⟨s, fun idx => t.val (moveIdx13 idx)⟩

/-- torchiva/t_iss.py:290: `x.permute(dims)`, `dims` given last first, `k` standing for dimension
`-(k+1)`: dimension number `p` of the result is dimension `dims[p]` of `x`. -/
def permute (dims : List ℕ) (t : Ten α) : Except Err (Ten α) := do
  let s ← Torchiva.permute dims t.shape
  .ok ⟨s, fun idx => t.val ((List.range t.shape.length).map fun p => idx.getD (dims.idxOf p) 0)⟩

/-- For instance torchiva/t_iss.py:76: `x[..., i, :] = v` on dimension `k` from the end. -/
def setSel (k i : ℕ) (t v : Ten α) : Except Err (Ten α) := do
  let s ← Torchiva.sel k i t.shape
  let _ ← bcastTo v.shape s
  .ok ⟨t.shape, fun idx => if idx.getD k 0 = i then v.read (idx.eraseIdx k) else t.val idx⟩

/-- torchiva/t_iss.py:181: `x[..., :m] = v`. -/
def setTake (k m : ℕ) (t v : Ten α) : Except Err (Ten α) := do
  let s ← onDim k (min m) t.shape
  let _ ← bcastTo v.shape s
  .ok ⟨t.shape, fun idx => if idx.getD k 0 < m then v.read idx else t.val idx⟩

/-- torchiva/t_iss.py:192: `x[..., i, j] = v`. -/
def setLast2 (i j : ℕ) (t v : Ten α) : Except Err (Ten α) := do
  let s1 ← Torchiva.sel 1 i t.shape
  let s ← Torchiva.sel 0 j s1
  let _ ← bcastTo v.shape s
  .ok ⟨t.shape, fun idx => if idx.getD 1 0 = i ∧ idx.getD 0 0 = j then v.read (idx.drop 2)
    else t.val idx⟩

/-- torchiva/t_iss.py:239: the sum over dimension `k` from the end, `keepdim=True`. -/
def sumKeep [AddCommMonoid α] (k : ℕ) (t : Ten α) : Except Err (Ten α) := do
  let s ← reduceKeep k t.shape
  .ok ⟨s, fun idx => ∑ i ∈ Finset.range (t.shape.getD k 0), t.val (idx.set k i)⟩

/-- torchiva/models/classic.py:60: the sum over dimension `k` from the end. -/
def sum [AddCommMonoid α] (k : ℕ) (t : Ten α) : Except Err (Ten α) := do
  let s ← reduce k t.shape
  .ok ⟨s, fun idx => ∑ i ∈ Finset.range (t.shape.getD k 0), t.val (idx.insertIdx k i)⟩

/-- torchiva/auxiva_ip.py:49, 98, 274: `x @ y` for arguments with at least two dimensions. -/
def matmul [CommSemiring α] (a b : Ten α) : Except Err (Ten α) := do
  let s ← Torchiva.matmul a.shape b.shape
  .ok ⟨s, fun idx => ∑ l ∈ Finset.range (a.shape.headD 0),
    a.read (l :: idx.getD 1 0 :: idx.drop 2) * b.read (idx.getD 0 0 :: l :: idx.drop 2)⟩

/-- torchiva/auxiva_ip.py:115, 275-277, 293: `torch.cat` of two tensors along dimension `k` from the
end. -/
def cat (k : ℕ) (a b : Ten α) : Except Err (Ten α) := do
  let s ← catS k a.shape b.shape
  let m := a.shape.getD k 0
  .ok ⟨s, fun idx => if idx.getD k 0 < m then a.val idx else b.val (idx.modify k (· - m))⟩

/-- For instance torchiva/linalg.py:83: `torch.eye(n)`. -/
def eye (n m : ℕ) : Ten ℂ := ⟨[m, n], fun idx => if idx.getD 1 0 = idx.getD 0 0 then 1 else 0⟩

/-- torchiva/t_iss.py:477, 485: `x.new_zeros(shape)`. -/
def zeros (s : Shape) : Ten ℂ := ⟨s, fun _ => 0⟩

/-- For instance torchiva/t_iss.py:236: a real tensor used in a product with a complex one. -/
noncomputable def toC (t : Ten ℝ) : Ten ℂ := t.map fun x : ℝ => (x : ℂ)

end Ten

open Ten

/-! ## `torch.einsum` -/

/-- For instance torchiva/t_iss.py:40-41: the sum over all values of the subscripts that do not appear
in the result. -/
def sumOver {α : Type} [AddCommMonoid α] : List (Char × ℕ) → (List (Char × ℕ) → α) → α
  | [], g => g []
  | (c, n) :: l, g => ∑ i : Fin n, sumOver l fun asg => g ((c, (i : ℕ)) :: asg)

/-- For instance torchiva/t_iss.py:40-41: the index of an operand for given values of the subscripts
and a given index of the dimensions of the ellipsis. -/
def opIdx (sub : String) (asg : List (Char × ℕ)) (ell : List ℕ) : List ℕ :=
  sub.toList.reverse.map (fun c => (asg.lookup c).getD 0) ++ ell

/-- For instance torchiva/t_iss.py:40-41: `torch.einsum`, every operand and the result being written
`...` followed by the given subscripts: the products of the operands are summed over the subscripts
missing from the result. -/
def einsumT {α : Type} [CommSemiring α] (ops : List (String × Ten α)) (out : String) :
    Except Err (Ten α) := do
  let s ← einsum (ops.map fun p => (p.1, p.2.shape)) out
  let e ← bindOps [] [] (ops.map fun p => (p.1, p.2.shape))
  let o := out.toList.reverse
  .ok ⟨s, fun idx => sumOver (e.1.filter fun p => !o.contains p.1) fun asg =>
    (ops.map fun p => p.2.read (opIdx p.1 (o.zip idx ++ asg) (idx.drop o.length))).prod⟩

/-! ## torchiva/linalg.py -/

/-- torchiva/linalg.py:31-32 `divide`, complex numerator and real denominator. -/
noncomputable def divideT (num : Ten ℂ) (denom : Ten ℝ) (eps : ℝ) : Except Err (Ten ℂ) :=
  Ten.map2 (fun a d => a / (d : ℂ)) num (denom.map fun d => clampMin d eps)

/-- torchiva/linalg.py:54-56 `mag_sq` of a complex tensor. -/
noncomputable def magSqT (x : Ten ℂ) : Ten ℝ := x.map fun z => z.re ^ 2 + z.im ^ 2

/-- For instance torchiva/linalg.py:88: the matrix at one batch index. -/
def matAt (A : Ten ℂ) (n : ℕ) (β : List ℕ) : Matrix (Fin n) (Fin n) ℂ :=
  Matrix.of fun i j => A.read (j :: i :: β)

open Classical in
/-- torchiva/linalg.py:88, 107: `torch.linalg.solve(A, B)`: raises when one of the matrices is singular.  `B` is a batch of
vectors when its shape is `A.shape[:-1]` or it has one dimension, otherwise a batch of matrices. -/
noncomputable def solveT (A B : Ten ℂ) : Except Err (Ten ℂ) := do
  let s ← solveS A.shape B.shape
  let n := A.shape.headD 0
  if B.shape = A.shape.tail ∨ B.shape.length = 1 then
    if ∀ β, Inside β s.tail → IsUnit (matAt A n β).det then
      .ok ⟨s, fun idx =>
        if h : idx.headD 0 < n then
          ((matAt A n idx.tail)⁻¹.mulVec fun l : Fin n => B.read (l :: idx.tail)) ⟨idx.headD 0, h⟩
        else 0⟩
    else .error .singular
  else
    if ∀ β, Inside β (s.drop 2) → IsUnit (matAt A n β).det then
      .ok ⟨s, fun idx =>
        if h : idx.getD 1 0 < n then
          ((matAt A n (idx.drop 2))⁻¹.mulVec fun l : Fin n => B.read (idx.headD 0 :: l :: idx.drop 2))
            ⟨idx.getD 1 0, h⟩
        else 0⟩
    else .error .singular

/-- torchiva/linalg.py:96, 205-206: `torch.linalg.norm(A, dim=-1, keepdim=True)`. -/
noncomputable def normKeep (A : Ten ℂ) : Except Err (Ten ℝ) := do
  let q ← Ten.sumKeep 0 (A.map fun z => ‖z‖ ^ 2)
  .ok (q.map fun x => √x)

/-- torchiva/linalg.py:91-107 `solve_loaded_general`. -/
noncomputable def solveLoadedGeneralT (A b : Ten ℂ) (load eps : ℝ) : Except Err (Ten ℂ) := do
  let norm ← normKeep A
  let weights := norm.map fun x => 1 / clampMin x eps
  let n := A.shape.headD 0
  let loadEye := (Ten.eye n n).map fun x => (load : ℂ) * x
  let A2 ← Ten.map2 (fun x y => x * y) A weights.toC
  let b2 ← Ten.map2 (fun x y => x * y) b weights.toC
  let AA ← einsumT [("km", A2.map star), ("kn", A2)] "mn"
  let Ab ← einsumT [("km", A2.map star), ("kn", b2)] "mn"
  let L ← Ten.map2 (fun x y => x + y) AA loadEye
  solveT L Ab

/-! ## The Hankel view -/

/-- torchiva/t_iss.py:464 and torchiva/wpe.py:158: `torch.nn.functional.pad(X, (p, 0))`. -/
def padLeft {α : Type} [Zero α] (p : ℕ) (t : Ten α) : Except Err (Ten α) :=
  match t.shape with
  | [] => .error .runtimeError
  | n :: s => .ok ⟨(n + p) :: s, fun idx =>
      if idx.headD 0 < p then 0 else t.val ((idx.headD 0 - p) :: idx.tail)⟩

/-- torchiva/linalg.py:315-321 `hankel_view` of a tensor with an entry in the last dimension for every row and column:
row `r`, column `c` is the entry `r + c` (that this is what the strides of the code read is proved for
one row in `Props/Hankel.lean`; here a view with fewer entries than rows is an error, as there). -/
def hankelT {α : Type} (t : Ten α) (nRows : ℕ) : Except Err (Ten α) :=
  match t.shape with
  | [] => .error .indexError
  | n :: s =>
    if n + 1 < nRows then .error .runtimeError
    else .ok ⟨(n + 1 - nRows) :: nRows :: s, fun idx =>
      t.val ((idx.getD 1 0 + idx.getD 0 0) :: idx.drop 2)⟩

/-- torchiva/t_iss.py:464-466 and torchiva/wpe.py:158-160: the delayed frames: pad, Hankel view, slice of the rows. -/
def delayedT {α : Type} [Zero α] (T D : ℕ) (X : Ten α) : Except Err (Ten α) := do
  let Xpad ← padLeft (T + D) X
  let h ← hankelT Xpad (T + D + 1)
  -- X_hankel[..., : -n_delay - 1, :]
  let s ← onDim 1 (fun n => pySliceStop n (-(D : ℤ) - 1)) h.shape
  .ok ⟨s, h.val⟩

end Torchiva
