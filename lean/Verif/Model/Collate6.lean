import Verif.Model.Examples

/-!
# examples/dataloader.py: `collator_6ch`

Batches of mixtures and references with the geometry of the room.
-/

namespace Torchiva

/-- examples/dataloader.py:259, 261, 268, 270: a Python number in a list given to `torch.tensor`. -/
inductive PyNum where
  | int (z : ℤ)
  | flt (x : ℝ)

/-- examples/dataloader.py:268: the value of the number (rounding to single precision is not modelled). -/
noncomputable def PyNum.val : PyNum → ℝ
  | .int z => z
  | .flt x => x

/-- examples/dataloader.py:259: `torch.tensor(list)` is a floating-point tensor when the list has a `float`. -/
def PyNum.isFloat : PyNum → Bool
  | .int _ => false
  | .flt _ => true

/-- examples/dataloader.py:266: a mixture and its reference, the centre of the microphones (a list), the positions of the microphones
(a tensor, `micFloat` tells whether its dtype is floating point) and of the speakers (a list of lists). -/
structure Item6 extends Item where
  center : List PyNum
  micFloat : Bool
  micPos : List (List ℝ)
  spk : List (List PyNum)

/-- examples/dataloader.py:268-270: a value written into a tensor of zeros: an integer tensor keeps the part before the point. -/
noncomputable def storeNum (float : Bool) (x : ℝ) : ℝ :=
  if float then x else if 0 ≤ x then (⌊x⌋ : ℝ) else (⌈x⌉ : ℝ)

/-- examples/dataloader.py:268: `mic_center[b] = ...`: three coordinates.  (A single number, which torch would broadcast, is treated
like any other mismatch.) -/
noncomputable def storePoint (float : Bool) (p : List ℝ) : Except Err (List ℝ) :=
  if p.length = 3 then .ok (p.map (storeNum float)) else .error .runtimeError

/-- examples/dataloader.py:269-270: `mic_position[b] = mp`, `speaker_position[b] = ...`: `n` points. -/
noncomputable def storePoints (float : Bool) (n : ℕ) (ps : List (List ℝ)) : Except Err (List (List ℝ)) :=
  if ps.length = n then ps.mapM (storePoint float) else .error .runtimeError

/-- examples/dataloader.py:241-272 `collator_6ch`.  The dtypes of the geometry are those of the first item (lines 259-261).  The loop
of the code runs over the items; here each of the five tensors is filled in turn, which only matters for which error is raised first. -/
noncomputable def collate6 (batch : List Item6) : Except Err ((List (List (List ℝ)) × List (List (List ℝ))) ×
    List (List ℝ) × List (List (List ℝ)) × List (List (List ℝ))) :=
  match batch.head? with
  | none => .error .valueError
  | some first => do
    let signals ← collate (batch.map Item6.toItem)
    let center ← batch.mapM fun s => storePoint (first.center.any PyNum.isFloat) (s.center.map PyNum.val)
    let mic ← batch.mapM fun s => storePoints first.micFloat first.mix.length s.micPos
    let spk ← batch.mapM fun s => storePoints (first.spk.any fun p => p.any PyNum.isFloat) 2 (s.spk.map (·.map PyNum.val))
    return (signals, center, mic, spk)

end Torchiva
