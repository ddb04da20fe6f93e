import Verif.Model.TIss

/-!
# Shapes of torch operations

A shape is a list of sizes, **last dimension first** (so that `...` is the tail of the list).
Each function maps the shapes of the arguments of a torch operation to the shape of its result, or
to the exception it raises.
-/

namespace Torchiva

/-- Shapes, last dimension first; for instance torchiva/auxiva_ip.py:39. -/
abbrev Shape := List ℕ

/-- Used wherever tensors are combined, for instance torchiva/scaling.py:63-64: One dimension of a broadcast: equal sizes, or one of them is one. -/
def comb (m n : ℕ) : Except Err ℕ :=
  if m = n then .ok m else if m = 1 then .ok n else if n = 1 then .ok m else .error .runtimeError

/-- For instance torchiva/scaling.py:63-64: Broadcasting of two shapes (elementwise operations, `broadcast_tensors`). -/
def bcast : Shape → Shape → Except Err Shape
  | [], t => .ok t
  | s, [] => .ok s
  | m :: s, n :: t => do
    let k ← comb m n
    let r ← bcast s t
    .ok (k :: r)

/-- torchiva/auxiva_ip.py:83, 99: `torch.broadcast_to(x, t)`, also the check made by `y[...] = x`. -/
def bcastTo (s t : Shape) : Except Err Shape := do
  let r ← bcast s t
  if r = t then .ok t else .error .runtimeError

/-- For instance torchiva/five.py:196: Indexing the dimension number `k` from the end with an integer `i ≥ 0`: `x[..., i]` is `k = 0`,
`x[..., i, :]` is `k = 1`, ... -/
def sel : ℕ → ℕ → Shape → Except Err Shape
  | _, _, [] => .error .indexError
  | 0, i, n :: s => if i < n then .ok s else .error .indexError
  | k + 1, i, n :: s => do
    let r ← sel k i s
    .ok (n :: r)

/-- torchiva/auxiva_ip.py:96 and torchiva/auxiva_ip2.py:210: Indexing with a list of one index, `x[..., [i]]`: the dimension stays with size one. -/
def pick : ℕ → ℕ → Shape → Except Err Shape
  | _, _, [] => .error .indexError
  | 0, i, n :: s => if i < n then .ok (1 :: s) else .error .indexError
  | k + 1, i, n :: s => do
    let r ← pick k i s
    .ok (n :: r)

/-- For instance torchiva/auxiva_ip.py:51: Apply a function to the size of dimension `k` from the end: slices `x[..., :m]`, `x[..., m:]`. -/
def onDim : ℕ → (ℕ → ℕ) → Shape → Except Err Shape
  | _, _, [] => .error .indexError
  | 0, g, n :: s => .ok (g n :: s)
  | k + 1, g, n :: s => do
    let r ← onDim k g s
    .ok (n :: r)

/-- For instance torchiva/auxiva_ip.py:290: `None` in an index: `x[..., None]` is `k = 0`, `x[..., None, :]` is `k = 1`, ... -/
def unsq : ℕ → Shape → Except Err Shape
  | 0, s => .ok (1 :: s)
  | _ + 1, [] => .error .indexError
  | k + 1, n :: s => do
    let r ← unsq k s
    .ok (n :: r)

/-- torchiva/auxiva_ip.py:53, 84: `x.transpose(-2, -1)`. -/
def swap01 : Shape → Except Err Shape
  | a :: b :: s => .ok (b :: a :: s)
  | _ => .error .indexError

/-- torchiva/auxiva_ip.py:85, 101: `x.transpose(-3, -2)`. -/
def swap12 : Shape → Except Err Shape
  | a :: b :: c :: s => .ok (a :: c :: b :: s)
  | _ => .error .indexError

/-- torchiva/auxiva_ip2.py:210 and torchiva/t_iss.py:225: `x.moveaxis(-1, -3)`. -/
def move13 : Shape → Except Err Shape
  | a :: b :: c :: s => .ok (b :: c :: a :: s)
  | _ => .error .indexError

/-- torchiva/t_iss.py:290: `x.permute(dims)`: `dims` must name every dimension.  `dims` is given last first, `k` standing for
dimension `-(k+1)`. -/
def permute (dims : List ℕ) (s : Shape) : Except Err Shape :=
  if dims.length = s.length then .ok (dims.map fun k => s.getD k 0) else .error .runtimeError

/-- torchiva/auxiva_ip.py:256: Reduction of dimension `k` from the end with `keepdim=True`. -/
def reduceKeep (k : ℕ) (s : Shape) : Except Err Shape := onDim k (fun _ => 1) s

/-- torchiva/linalg.py:85: `x.max(dim, keepdim=True)`: an empty dimension has no maximum (IndexError). -/
def maxKeep : ℕ → Shape → Except Err Shape
  | _, [] => .error .indexError
  | 0, n :: s => if n = 0 then .error .indexError else .ok (1 :: s)
  | k + 1, n :: s => do
    let r ← maxKeep k s
    .ok (n :: r)

/-- For instance torchiva/scaling.py:94-95: Reduction of dimension `k` from the end (`keepdim=False`). -/
def reduce : ℕ → Shape → Except Err Shape
  | _, [] => .error .indexError
  | 0, _ :: s => .ok s
  | k + 1, n :: s => do
    let r ← reduce k s
    .ok (n :: r)

/-- For instance torchiva/t_iss.py:40-41: Bind a subscript of `einsum` to a size; like all of torch's `einsum`, sizes of one broadcast. -/
def bindLabel (env : List (Char × ℕ)) (c : Char) (n : ℕ) : Except Err (List (Char × ℕ)) :=
  match env.lookup c with
  | none => .ok (env ++ [(c, n)])
  | some m => do
    let k ← comb m n
    .ok (env.map fun p => if p.1 = c then (c, k) else p)

/-- For instance torchiva/t_iss.py:40-41: Bind the subscripts of one operand (last first); the rest of the shape is the ellipsis. -/
def bindOp (env : List (Char × ℕ)) : List Char → Shape → Except Err (List (Char × ℕ) × Shape)
  | [], s => .ok (env, s)
  | _ :: _, [] => .error .runtimeError
  | c :: cs, n :: s => do
    let env' ← bindLabel env c n
    bindOp env' cs s

/-- For instance torchiva/t_iss.py:40-41: All operands, from left to right. -/
def bindOps : List (Char × ℕ) → Shape → List (String × Shape) →
    Except Err (List (Char × ℕ) × Shape)
  | env, ell, [] => .ok (env, ell)
  | env, ell, (sub, s) :: ops => do
    let (env', e) ← bindOp env sub.toList.reverse s
    let ell' ← bcast ell e
    bindOps env' ell' ops

/-- For instance torchiva/t_iss.py:40-41: `torch.einsum`: every operand is written `...` followed by the subscripts given here, and so is the
result; no operand repeats a subscript. -/
def einsum (ops : List (String × Shape)) (out : String) : Except Err Shape := do
  let (env, ell) ← bindOps [] [] ops
  .ok (out.toList.reverse.map (fun c => (env.lookup c).getD 0) ++ ell)

/-- torchiva/auxiva_ip.py:49, 98, 274: `x @ y` for arguments with at least two dimensions. -/
def matmul : Shape → Shape → Except Err Shape
  | k :: m :: s, n :: k' :: t => do
    if k = k' then
      let r ← bcast s t
      .ok (n :: m :: r)
    else .error .runtimeError
  | _, _ => .error .runtimeError

/-- torchiva/linalg.py:88, 107: `torch.linalg.solve(A, B)`: `B` is a vector (or a batch of vectors) if it has one dimension or if
its shape is `A.shape[:-1]`; otherwise it is a batch of matrices. -/
def solveS : Shape → Shape → Except Err Shape
  | n :: n' :: s, B =>
    if n = n' then
      if B = n' :: s then .ok B
      else match B with
        | [m] => if m = n then .ok (n :: s) else .error .runtimeError
        | k :: m :: t => do
          if m = n then
            let r ← bcast s t
            .ok (k :: n :: r)
          else .error .runtimeError
        | [] => .error .runtimeError
    else .error .runtimeError
  | _, _ => .error .runtimeError

/-- torchiva/auxiva_ip.py:115, 276-277: `torch.cat` of two tensors along dimension `k` from the end. -/
def catS : ℕ → Shape → Shape → Except Err Shape
  | 0, m :: s, n :: t => if s = t then .ok ((m + n) :: s) else .error .runtimeError
  | k + 1, m :: s, n :: t => do
    if m = n then
      let r ← catS k s t
      .ok (m :: r)
    else .error .runtimeError
  | _, _, _ => .error .runtimeError

/-- For instance torchiva/scaling.py:72-73: Number of elements. -/
def numel (s : Shape) : ℕ := s.prod

/-- For instance torchiva/scaling.py:78: `x.reshape(t)`. -/
def reshapeS (s t : Shape) : Except Err Shape :=
  if numel s = numel t then .ok t else .error .runtimeError

/-- torchiva/scaling.py:72-73: `x.reshape((-1,) + t)`: the missing size must be determined by the others. -/
def reshapeFlat (s t : Shape) : Except Err Shape :=
  if numel t = 0 then .error .runtimeError
  else if numel s % numel t = 0 then .ok (t ++ [numel s / numel t]) else .error .runtimeError

/-- torchiva/linalg.py:265, 269: `torch.linalg.eigh`: shapes of the eigenvalues and eigenvectors. -/
def eighS : Shape → Except Err (Shape × Shape)
  | n :: n' :: s => if n = n' then .ok (n :: s, n :: n :: s) else .error .runtimeError
  | _ => .error .runtimeError

/-! ## torchiva/linalg.py on shapes -/

/-- torchiva/linalg.py:82-88 `solve_loaded`. -/
def solveLoadedS (A b : Shape) : Except Err Shape := do
  let n := A.headD 0
  let m1 ← maxKeep 1 A
  let lf ← maxKeep 0 m1
  let D ← bcast lf [n, n]
  let A' ← bcast A D
  solveS A' b

/-- torchiva/linalg.py:91-107 `solve_loaded_general`. -/
def solveLoadedGeneralS (A b : Shape) : Except Err Shape := do
  let w ← reduceKeep 0 A
  let n := A.headD 0
  let A2 ← bcast A w
  let b2 ← bcast b w
  let AA ← einsum [("km", A2), ("kn", A2)] "mn"
  let Ab ← einsum [("km", A2), ("kn", b2)] "mn"
  let L ← bcast AA [n, n]
  solveS L Ab

/-- torchiva/linalg.py:110-116 `inv_loaded` (same loading; the inverse of a square matrix). -/
def invLoadedS (A : Shape) : Except Err Shape := do
  let n := A.headD 0
  let m1 ← maxKeep 1 A
  let lf ← maxKeep 0 m1
  let D ← bcast lf [n, n]
  let A' ← bcast A D
  match A' with
  | n :: n' :: s => if n = n' then .ok (n :: n' :: s) else .error .runtimeError
  | _ => .error .runtimeError

/-- torchiva/linalg.py:152-253 `eigh_2x2`: shapes of the eigenvalues and the eigenvectors. -/
def eigh2S (A : Shape) (B : Option Shape) : Except Err (Shape × Shape) :=
  match A with
  | 2 :: 2 :: _ =>
    match B with
    | some (2 :: 2 :: t) => do
      let r ← bcast A (2 :: 2 :: t)
      .ok (r.tail, r)
    | some _ => .error .assertionError
    | none => .ok (A.tail, A)
  | _ => .error .assertionError

/-- torchiva/linalg.py:272-312 `eigh`. -/
def eighFullS (A : Shape) (B : Option Shape) : Except Err (Shape × Shape) :=
  match A with
  | [] => .error .indexError
  | n :: _ =>
    if n = 2 then eigh2S A B
    else match B with
      | some B => if A = B then eighS A else .error .assertionError
      | none => eighS A

/-- torchiva/linalg.py:65-72 `bmm`: products of the real and imaginary parts. -/
def bmmS (A B : Shape) : Except Err Shape := matmul A B

/-- torchiva/t_iss.py:464-466 = torchiva/wpe.py:158-160: pad, Hankel view, slice of the rows.  The
first size is the number of frames. -/
def delayedS (T D : ℕ) : Shape → Except Err Shape
  | n :: s => .ok ((n + (T + D) + 1 - (T + D + 1)) :: (T + D + 1 - (D + 1)) :: s)
  | [] => .error .indexError

end Torchiva
