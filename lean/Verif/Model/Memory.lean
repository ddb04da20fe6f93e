import Verif.Model.TIss
import Mathlib.Logic.Encodable.Basic
import Mathlib.Logic.Encodable.Pi

/-!
# Storage, views, in-place writes and autograd bookkeeping

The item models (`Model/TIss.lean`, ...) treat tensors as values.  Here tensors are references into
storages, so that aliasing, in-place assignment and the version counters that autograd checks in the
backward pass can be expressed.

* A storage holds one number per position.  A tensor is a reference: a storage together with the
  position of each of its elements.  A slice, a transpose or a strided view is another reference to
  the *same* storage (`Ref.view`), a new tensor gets a storage of its own (`alloc`).
* A storage has a version, which every in-place write increments.
* An operation that needs some tensors in its backward pass records their storage and current version.
  The backward pass raises `RuntimeError` ("one of the variables needed for gradient computation has
  been modified by an inplace operation") as soon as a recorded version is out of date.

What torch operations record (PyTorch's derivative formulas; this is part of the trusted base): products
and `einsum` record both operands, divisions both operands, `clamp` and `mag_sq` their operand,
additions, subtractions, `clone`, sums and assignments nothing.  Temporaries inside one expression are
not bound to a name, so nothing can write to them; they are not modelled as storages.
-/

namespace Torchiva
namespace Memory

/-- For instance torchiva/t_iss.py:166-192: the storages, their versions, the number of storages and
what autograd has recorded (storage, version). -/
structure Heap where
  cell : ℕ → ℕ → ℂ
  ver : ℕ → ℕ
  next : ℕ
  saved : List (ℕ × ℕ)

/-- For instance torchiva/t_iss.py:68: a tensor with elements indexed by `ι`: a storage and the position
of every element. -/
structure Ref (ι : Type) where
  id : ℕ
  pos : ι → ℕ

/-- For instance torchiva/t_iss.py:68 `X[..., src, :, :]`: basic indexing returns a view of the same storage. -/
def Ref.view {ι κ : Type} (r : Ref ι) (g : κ → ι) : Ref κ := ⟨r.id, fun k => r.pos (g k)⟩

/-- For instance torchiva/t_iss.py:71: the values a tensor has at the moment. -/
def Heap.read {ι : Type} (h : Heap) (r : Ref ι) : ι → ℂ := fun i => h.cell r.id (r.pos i)

/-- For instance torchiva/t_iss.py:72: the values of a real tensor. -/
def Heap.readR {ι : Type} (h : Heap) (r : Ref ι) : ι → ℝ := fun i => (h.read r i).re

/-- For instance torchiva/t_iss.py:172: an operation records the storages `ids` for the backward pass
and puts its result into a new storage.  The layout is that of `Encodable`: nothing depends on it, except
that different elements have different positions. -/
def Heap.out {ι : Type} [Encodable ι] (h : Heap) (ids : List ℕ) (f : ι → ℂ) : Heap where
  cell := Function.update h.cell h.next fun j => match Encodable.decode (α := ι) j with
    | some i => f i
    | none => 0
  ver := Function.update h.ver h.next 0
  next := h.next + 1
  saved := ids.map (fun i => (i, h.ver i)) ++ h.saved

/-- For instance torchiva/t_iss.py:181 `W[..., :n_src] = v`: write `v` into the elements `g k` of `r`, in place. -/
noncomputable def Heap.set {ι κ : Type} (h : Heap) (r : Ref ι) (g : κ → ι) (v : κ → ℂ) : Heap :=
  open Classical in
  { h with
    cell := Function.update h.cell r.id fun j =>
      if e : ∃ k, r.pos (g k) = j then v e.choose else h.cell r.id j
    ver := Function.update h.ver r.id (h.ver r.id + 1) }

/-- For instance torchiva/t_iss.py:125-194: a computation on the heap that can raise. -/
def Mem (α : Type) := Heap → Except Err α × Heap

instance : Monad Mem where
  pure a := fun h => (.ok a, h)
  bind m k := fun h => match m h with
    | (.ok a, h') => k a h'
    | (.error e, h') => (.error e, h')

/-- For instance torchiva/t_iss.py:172: see `Heap.out`. -/
def out {ι : Type} [Encodable ι] (ids : List ℕ) (f : ι → ℂ) : Mem (Ref ι) := fun h =>
  (.ok ⟨h.next, Encodable.encode⟩, h.out ids f)

/-- For instance torchiva/t_iss.py:224 (`torch.linalg.solve` raises on a singular matrix): an operation that may raise. -/
def outE {ι : Type} [Encodable ι] (ids : List ℕ) (f : Except Err (ι → ℂ)) : Mem (Ref ι) :=
  match f with
  | .ok f => out ids f
  | .error e => fun h => (.error e, h)

/-- For instance torchiva/t_iss.py:453 (raises) or torchiva/auxiva_ip.py:240 (the result `J` is kept as a value): a
computation that does not involve the heap. -/
def lift {β : Type} (e : Except Err β) : Mem β := fun h => (e, h)

/-- For instance torchiva/t_iss.py:71: see `Heap.read`. -/
def read {ι : Type} (r : Ref ι) : Mem (ι → ℂ) := fun h => (.ok (h.read r), h)

/-- For instance torchiva/t_iss.py:72: see `Heap.readR`. -/
def readR {ι : Type} (r : Ref ι) : Mem (ι → ℝ) := fun h => (.ok (h.readR r), h)

/-- For instance torchiva/t_iss.py:181: see `Heap.set`. -/
noncomputable def set {ι κ : Type} (r : Ref ι) (g : κ → ι) (v : κ → ℂ) : Mem Unit := fun h =>
  (.ok (), h.set r g v)

/-- For instance torchiva/t_iss.py:170: a Python loop. -/
def forEach {ι α : Type} (l : List ι) (a : α) (f : α → ι → Mem α) : Mem α :=
  match l with
  | [] => pure a
  | i :: l => do
    let a ← f a i
    forEach l a f

/-- For instance torchiva/t_iss.py:494: `for epoch in range(n)`. -/
def times {α : Type} (f : α → Mem α) : ℕ → α → Mem α
  | 0, a => pure a
  | n + 1, a => do
    let a ← f a
    times f n a

/-! ## torchiva/t_iss.py -/

section tiss
variable {s C F N T : ℕ}

/-- torchiva/t_iss.py:39-194: index types of tensors with two, three and four dimensions. -/
abbrev I2 (a b : ℕ) := Fin a × Fin b
/-- torchiva/t_iss.py:39-194: see `I2`. -/
abbrev I3 (a b c : ℕ) := Fin a × Fin b × Fin c
/-- torchiva/t_iss.py:39-194: see `I2`. -/
abbrev I4 (a b c d : ℕ) := Fin a × Fin b × Fin c × Fin d

/-- torchiva/t_iss.py:56-78 `iss_block_update_type_1`, with the in-place write of line 76. -/
noncomputable def type1 (src : Fin s) (X : Ref (I3 s F N)) (weights : Ref (I3 s F N)) (eps : ℝ) :
    Mem (Ref (I2 s F)) := do
  let Xs : Ref (I2 F N) := X.view fun i => (src, i.1, i.2)
  let norm : ℝ := 1 / N
  let x ← read X
  let w ← readR weights
  let xs ← read Xs
  let vNum ← out (ι := I2 s F) [weights.id, X.id, Xs.id] fun i =>
    (∑ n, (w (i.1, i.2, n) : ℂ) * x (i.1, i.2, n) * star (xs (i.2, n))) * (norm : ℂ)
  let vDenom ← out (ι := I2 s F) [weights.id, Xs.id] fun i =>
    (((∑ n, w (i.1, i.2, n) * magSq (xs (i.2, n))) * norm : ℝ) : ℂ)
  let num ← read vNum
  let den ← readR vDenom
  let v ← out (ι := I2 s F) [vNum.id, vDenom.id] fun i => divide (num i) (den i) eps
  let vs ← out (ι := Fin F) [vDenom.id] fun f =>
    ((1 - 1 / √(clampMin (den (src, f)) eps) : ℝ) : ℂ)
  let vsVal ← read vs
  set v (fun f => (src, f)) vsVal
  return v

/-- torchiva/t_iss.py:81-98 `iss_block_update_type_2`. -/
noncomputable def type2 (X : Ref (I3 s F N)) (Zs : Ref (I2 F N)) (weights : Ref (I3 s F N)) (eps : ℝ) :
    Mem (Ref (I2 s F)) := do
  let x ← read X
  let w ← readR weights
  let zs ← read Zs
  let vNum ← out (ι := I2 s F) [weights.id, X.id, Zs.id] fun i =>
    ∑ n, (w (i.1, i.2, n) : ℂ) * x (i.1, i.2, n) * star (zs (i.2, n))
  let vDenom ← out (ι := I2 s F) [weights.id, Zs.id] fun i =>
    ((∑ n, w (i.1, i.2, n) * magSq (zs (i.2, n)) : ℝ) : ℂ)
  let num ← read vNum
  let den ← readR vDenom
  out [vNum.id, vDenom.id] fun i => divide (num i) (den i) eps

/-- torchiva/t_iss.py:101-122 `iss_block_update_type_3`: lines 114-120 are lines 92-96 with `Xst` for `Zs`. -/
noncomputable def type3 (src : Fin C) (tap : Fin T) (X : Ref (I3 s F N)) (Xbar : Ref (I4 C F T N))
    (weights : Ref (I3 s F N)) (eps : ℝ) : Mem (Ref (I2 s F)) :=
  type2 X (Xbar.view fun i => (src, i.1, tap, i.2)) weights eps

/-- torchiva/t_iss.py:166-194: the three names `X`, `W`, `H` of `iss_updates_with_H`. -/
structure Names (s C F N T : ℕ) where
  X : Ref (I3 s F N)
  W : Ref (I3 s F C)
  H : Ref (I4 s F C T)

/-- torchiva/t_iss.py:170-174: one source separation step; the three names are rebound. -/
noncomputable def srcStep (weights : Ref (I3 s F N)) (eps : ℝ) (r : Names s C F N T) (src : Fin s) :
    Mem (Names s C F N T) := do
  let v ← type1 src r.X weights eps
  let vv ← read v
  let x ← read r.X
  let X ← out [v.id, r.X.id] fun i => x i - vv (i.1, i.2.1) * x (src, i.2)
  let w ← read r.W
  let W ← out [v.id, r.W.id] fun i => w i - vv (i.1, i.2.1) * w (src, i.2)
  let hh ← read r.H
  let H ← out [v.id, r.H.id] fun i => hh i - vv (i.1, i.2.1) * hh (src, i.2)
  return ⟨X, W, H⟩

/-- torchiva/t_iss.py:178-184: one background step; `W` is written in place, twice. -/
noncomputable def bakStep (hs : s ≤ C) (weights : Ref (I3 s F N)) (eps : ℝ) (Z : Ref (I3 (C - s) F N))
    (J : Ref (I3 (C - s) F s)) (r : Names s C F N T) (bak : Fin (C - s)) :
    Mem (Names s C F N T) := do
  let Zb : Ref (I2 F N) := Z.view fun i => (bak, i.1, i.2)
  let v ← type2 r.X Zb weights eps
  let vv ← read v
  let x ← read r.X
  let z ← read Zb
  let X ← out [v.id, Zb.id] fun i => x i - vv (i.1, i.2.1) * z i.2
  -- W[..., :n_src] = W[..., :n_src] - ...
  let front : I3 s F s → I3 s F C := fun i => (i.1, i.2.1, Fin.castLE hs i.2.2)
  let w ← read r.W
  let j ← read J
  let new ← out (ι := I3 s F s) [v.id, J.id] fun i => w (front i) - vv (i.1, i.2.1) * j (bak, i.2)
  let newVal ← read new
  set r.W front newVal
  -- W[..., n_src + bak] = W[..., n_src + bak] + v
  let col : I2 s F → I3 s F C := fun i => (i.1, i.2, ⟨s + bak, by omega⟩)
  let w ← read r.W
  let new ← out (ι := I2 s F) [] fun i => w (col i) + vv i
  let newVal ← read new
  set r.W col newVal
  return ⟨X, r.W, r.H⟩

/-- torchiva/t_iss.py:189-192: one dereverberation step; `H` is written in place. -/
noncomputable def tapStep (weights : Ref (I3 s F N)) (eps : ℝ) (Xbar : Ref (I4 C F T N))
    (r : Names s C F N T) (src : Fin C) (tap : Fin T) : Mem (Names s C F N T) := do
  let v ← type3 src tap r.X Xbar weights eps
  let vv ← read v
  let x ← read r.X
  let xb ← read Xbar
  let X ← out [v.id, Xbar.id] fun i => x i - vv (i.1, i.2.1) * xb (src, i.2.1, tap, i.2.2)
  let entry : I2 s F → I4 s F C T := fun i => (i.1, i.2, src, tap)
  let hh ← read r.H
  let HV ← out (ι := I2 s F) [] fun i => hh (entry i) + vv i
  let hv ← read HV
  set r.H entry hv
  return ⟨X, r.W, r.H⟩

/-- torchiva/t_iss.py:125-194 `iss_updates_with_H`.  `Z` and `J` are both present or both `None`, and
`n_chan` is `C` in both cases (see `Torchiva.issUpdates`). -/
noncomputable def issUpdatesMem (hs : s ≤ C) (X : Ref (I3 s F N)) (Xbar : Ref (I4 C F T N))
    (W : Ref (I3 s F C)) (H : Ref (I4 s F C T)) (weights : Ref (I3 s F N)) (eps : ℝ)
    (ZJ : Option (Ref (I3 (C - s) F N) × Ref (I3 (C - s) F s))) : Mem (Names s C F N T) := do
  -- H = H.clone(); W = W.clone()
  let hh ← read H
  let H ← out [] hh
  let w ← read W
  let W ← out [] w
  let r ← forEach (List.finRange s) ⟨X, W, H⟩ (srcStep weights eps)
  let r ← match ZJ with
    | some ZJ => forEach (List.finRange (C - s)) r (bakStep hs weights eps ZJ.1 ZJ.2)
    | none => pure r
  forEach (List.finRange C) r fun r src =>
    forEach (List.finRange T) r fun r tap => tapStep weights eps Xbar r src tap

end tiss

end Memory
end Torchiva
