import Verif.Model.Torch
import Mathlib.Algebra.Order.Floor.Ring
import Mathlib.Data.Rat.Floor

/-!
# Model of the training utilities: examples/autoclip_module.py, examples/dataloader.py, examples/test.py
-/

namespace Torchiva

/-! ## examples/autoclip_module.py -/

/-- examples/autoclip_module.py:64: `bisect.insort` (insertion after equal elements), on a sorted list. -/
noncomputable def insort (x : ℝ) (l : List ℝ) : List ℝ :=
  l.takeWhile (· ≤ x) ++ x :: l.dropWhile (· ≤ x)

/-- examples/autoclip_module.py:27-37 `grad_norm`: parameters without gradient are skipped. -/
noncomputable def gradNorm (grads : List (Option (List ℝ))) : ℝ :=
  Real.sqrt (((grads.filterMap id).map fun g => (Real.sqrt (g.map (· ^ 2)).sum) ^ 2).sum)

/-- examples/autoclip_module.py:70: Python's `l[i]` with a possibly negative index. -/
def pyIndex {α : Type} (l : List α) (i : ℤ) : Except Err α :=
  match (if 0 ≤ i then l[i.toNat]? else
    if (i.natAbs : ℤ) ≤ l.length then l[l.length - i.natAbs]? else none) with
  | some a => .ok a
  | none => .error .indexError

/-- examples/autoclip_module.py:67: Python's `int(x)`: truncation towards zero. -/
def pyInt (x : ℚ) : ℤ := if 0 ≤ x then ⌊x⌋ else ⌈x⌉

/-- examples/autoclip_module.py:62-70: insert the norm, choose the threshold.  `p` is the percentile
given to the constructor (line 52 divides it by 100). -/
noncomputable def autoclipThreshold (p : ℚ) (history : List ℝ) (gnorm : ℝ) :
    Except Err ℝ × List ℝ :=
  let h := insort gnorm history
  let index := pyInt (p / 100 * h.length)
  let index := if index = h.length then index - 1 else index
  (pyIndex h index, h)

/-- examples/autoclip_module.py:73: `torch.nn.utils.clip_grad_norm_(parameters, max_norm)`: gradients are multiplied by
`min(1, max_norm / (total_norm + 1e-6))`. -/
noncomputable def clipGradNorm (maxNorm : ℝ) (grads : List (Option (List ℝ))) :
    List (Option (List ℝ)) :=
  let coef := min 1 (maxNorm / (gradNorm grads + 1e-6))
  grads.map fun g => g.map fun v => v.map fun x => x * coef

/-- examples/autoclip_module.py:55-75 `AutoClipper.__call__`: returns the two norms, and leaves the
new history and gradients. -/
noncomputable def autoclipCall (p : ℚ) (history : List ℝ) (grads : List (Option (List ℝ))) :
    Except Err (ℝ × ℝ) × List ℝ × List (Option (List ℝ)) :=
  let g := gradNorm grads
  match autoclipThreshold p history g with
  | (.error e, h) => (.error e, h, grads)
  | (.ok c, h) => (.ok (g, c), h, clipGradNorm c grads)

/-- examples/autoclip_module.py:55-73: The history after a sequence of calls with these gradients. -/
noncomputable def autoclipHistory (p : ℚ) : List ℝ → List (List (Option (List ℝ))) → List ℝ
  | h, [] => h
  | h, g :: gs => autoclipHistory p (autoclipCall p h g).2.1 gs

/-! ## examples/dataloader.py -/

/-- examples/dataloader.py:34-75 `compute_interval`.  `sources` are the pairs (offset, number of
samples).  The midpoint is a multiple of one half, so twice its value is an integer: `start2`,
`end2` are twice the code's `start`, `end`; `int` truncates. -/
def computeInterval (nTarget nMix : ℤ) (sources : List (ℤ × ℤ)) : Except Err (ℤ × ℤ) :=
  if nTarget ≥ nMix then .ok (0, nMix)
  else match (sources.map Prod.fst).max?, (sources.map fun s => s.1 + s.2).min? with
    | some left, some right =>
      let start2 := (left + right) - 2 * (nTarget / 2)
      let end2 := start2 + 2 * nTarget
      if start2 < 0 then .ok (0, nTarget)
      else if end2 ≥ 2 * nMix then .ok (nMix - nTarget, nMix)
      else .ok (start2.tdiv 2, end2.tdiv 2)
    | _, _ => .error .valueError       -- maximum of an empty array

/-- examples/dataloader.py:216-235: A mixture and its reference, each a list of channels. -/
structure Item where
  mix : List (List ℝ)
  ref : List (List ℝ)
  /-- `shape[-1]` of the two tensors -/
  mixLen : ℕ
  refLen : ℕ

/-- examples/dataloader.py:235: `z[o : o + len(d)] = d` for a tensor of zeros with `z.length` samples; the sizes must agree. -/
def assignSlice (z : List ℝ) (o : ℕ) (d : List ℝ) : Except Err (List ℝ) :=
  if o + d.length ≤ z.length then .ok (z.take o ++ d ++ z.drop (o + d.length))
  else .error .runtimeError

/-- examples/dataloader.py:235: `data[b, :, o : o + n] = d` for one item: as many channels as the batch has. -/
def assignItem (chans maxLen o : ℕ) (d : List (List ℝ)) : Except Err (List (List ℝ)) :=
  if d.length = chans then d.mapM fun c => assignSlice (List.replicate maxLen 0) o c
  else .error .runtimeError

/-- examples/dataloader.py:216-238 `collator`.  Items with a single channel, which torch would
broadcast, are not distinguished: they raise like any other mismatch. -/
def collate (batch : List Item) : Except Err (List (List (List ℝ)) × List (List (List ℝ))) :=
  match (batch.map (·.mixLen)).max?, batch.head? with
  | some maxLen, some first => do
    let data ← batch.mapM fun s => assignItem first.mix.length maxLen ((maxLen - s.mixLen) / 2) s.mix
    let target ← batch.mapM fun s =>
      assignItem first.ref.length maxLen ((maxLen - s.mixLen) / 2) s.ref
    .ok (data, target)
  | _, _ => .error .valueError

variable {B : Type}

/-- examples/dataloader.py:301-312, the loop of `InterleavedLoaders.__next__`: `skipped` are the
exhausted iterators before the current one. An iterator is the list of its remaining batches. -/
def nextBatch (skipped : List (List B)) : List (List B) → Option (B × List (List B))
  | [] => none
  | [] :: r => nextBatch (skipped ++ [[]]) r
  | (b :: t) :: r => some (b, r ++ (skipped ++ [t]))

/-- examples/dataloader.py:300-316 `__next__`; `fresh` are new iterators over the loaders.  `none` is
`StopIteration`. -/
def interleavedNext (fresh : List (List B)) (iters : List (List B)) : Option B × List (List B) :=
  match nextBatch [] iters with
  | some (b, s) => (some b, s)
  | none => (none, fresh)

/-- examples/dataloader.py:300: The results of `n` calls of `next`. -/
def interleavedCalls (fresh : List (List B)) : ℕ → List (List B) → List (Option B) × List (List B)
  | 0, st => ([], st)
  | n + 1, st =>
    let (b, st') := interleavedNext fresh st
    let (bs, fin) := interleavedCalls fresh n st'
    (b :: bs, fin)

/-- examples/dataloader.py:294-295 `__len__`. -/
def interleavedLen (loaders : List (List B)) : ℕ := (loaders.map List.length).sum

/-! ## examples/test.py -/

/-- examples/test.py:140-157 `load_ensemble_model`: the state dictionary that is loaded. `load` gives
the state of an epoch's checkpoint (a missing checkpoint raises `UnboundLocalError`), keys are those
of the first model; only floating point entries are modelled. -/
noncomputable def ensembleState {K : Type} (load : ℕ → Except Err (K → ℝ)) : List ℕ → Except Err (K → ℝ)
  | [] => .error .unboundLocalError
  | e :: es => do
    let s0 ← load e
    let s ← es.foldlM (fun acc e' => do
      let s' ← load e'
      pure fun k => acc k + s' k) s0
    .ok fun k => s k / ((e :: es).length : ℝ)

end Torchiva
