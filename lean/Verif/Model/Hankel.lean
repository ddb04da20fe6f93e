import Verif.Model.Torch
import Mathlib.Data.List.OfFn

/-!
# Strided views, `hankel_view` and the delayed-tap tensor

Model of torchiva/linalg.py:315-321 on an explicit storage/offset/size/stride
representation of a torch tensor, and of its use in torchiva/t_iss.py:464-466 and
torchiva/wpe.py:158-160.
-/

namespace Torchiva

/-- torchiva/linalg.py:315-321: A torch tensor: a view into a flat storage. -/
structure View (α : Type) where
  storage : List α
  offset : ℕ
  size : List ℕ
  stride : List ℕ

namespace View

variable {α : Type}

/-- torchiva/linalg.py:319: Storage position of a multi-index. -/
def addr (v : View α) (idx : List ℕ) : ℕ :=
  v.offset + (List.zipWith (· * ·) idx v.stride).sum

/-- torchiva/linalg.py:319: Element read at a multi-index (`none` = outside the storage: undefined behaviour). -/
def get (v : View α) (idx : List ℕ) : Option α := v.storage[v.addr idx]?

/-- torchiva/linalg.py:319: Largest storage position used plus one, for a non-empty view. -/
def extent (offset : ℕ) (size stride : List ℕ) : ℕ :=
  offset + (List.zipWith (fun n s => (n - 1) * s) size stride).sum + 1

end View

/-- torchiva/linalg.py:319: `torch.as_strided(x, size, stride)`: negative sizes raise; a non-empty result must fit into
the storage, otherwise `RuntimeError`. -/
def asStrided {α : Type} (x : View α) (size : List ℤ) (stride : List ℕ) : Except Err (View α) :=
  if size.any (· < 0) then .error .runtimeError
  else
    let sz := size.map Int.toNat
    if sz.all (0 < ·) ∧ x.storage.length < View.extent x.offset sz stride then .error .runtimeError
    else .ok ⟨x.storage, x.offset, sz, stride⟩

/-- torchiva/linalg.py:315-321 `hankel_view`.  A zero-dimensional tensor has no last
dimension (`IndexError`). -/
def hankelView {α : Type} (x : View α) (nRows : ℤ) : Except Err (View α) :=
  match x.size.getLast?, x.stride.getLast? with
  | some len, some st =>
    let nCols : ℤ := (len : ℤ) - nRows + 1
    asStrided x (x.size.dropLast.map (fun n : ℕ => (n : ℤ)) ++ [nRows, nCols]) (x.stride ++ [st])
  | _, _ => .error .indexError

/-- torchiva/t_iss.py:466 and torchiva/wpe.py:160: Python slice end `:stop` for a dimension of length `n`. -/
def pySliceStop (n : ℕ) (stop : ℤ) : ℕ :=
  if stop < 0 then (n + stop).toNat else min stop.toNat n

/-- torchiva/t_iss.py:466 and torchiva/wpe.py:160: `v[..., :stop, :]` for a two-dimensional view. -/
def sliceRows {α : Type} (v : View α) (stop : ℤ) : Except Err (View α) :=
  match v.size with
  | [r, c] => .ok { v with size := [pySliceStop r stop, c] }
  | _ => .error .indexError

/-- torchiva/t_iss.py:464 and torchiva/wpe.py:158: A freshly allocated one-dimensional tensor. -/
def contiguous {α : Type} (x : List α) : View α := ⟨x, 0, [x.length], [1]⟩

/-- torchiva/t_iss.py:464-466 = torchiva/wpe.py:158-160 for one (channel, frequency) row:
pad `n_taps + n_delay` zeros on the left, take the Hankel view with `n_taps + n_delay + 1` rows and
drop the last `n_delay + 1` rows.  `n_taps`, `n_delay` are assumed nonnegative. -/
def delayedView {α : Type} [Zero α] (x : List α) (nTaps nDelay : ℕ) : Except Err (View α) := do
  let xPad := contiguous (List.replicate (nTaps + nDelay) 0 ++ x)
  let h ← hankelView xPad ((nTaps + nDelay + 1 : ℕ) : ℤ)
  sliceRows h (-(nDelay : ℤ) - 1)

/-- torchiva/t_iss.py:464-466 and torchiva/wpe.py:158-160: The delayed-tap tensor `X_bar` of one row, read off `delayedView`. -/
def xbarRow {α : Type} [Zero α] {N : ℕ} (x : Fin N → α) (nTaps nDelay : ℕ) :
    Fin nTaps → Fin N → α := fun t n =>
  match delayedView (List.ofFn x) nTaps nDelay with
  | .ok v => (v.get [t, n]).getD 0
  | .error _ => 0

end Torchiva
