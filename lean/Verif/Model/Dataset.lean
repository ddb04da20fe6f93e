import Verif.Model.Examples

/-!
# Model of `WSJ1SpatialDataset` (examples/dataloader.py)

An audio tensor is a number of channels, a number of samples and its values; values outside the sizes are never looked at.  A decoded
file is a tensor and a sampling frequency; finding the file (lines 144-160, 164, 183) is not modelled.
-/

namespace Torchiva

/-- examples/dataloader.py:163, 184: A tensor of shape (channels, samples). -/
structure Audio where
  chans : ℕ
  len : ℕ
  val : ℕ → ℕ → ℝ

/-- examples/dataloader.py:132, 206, 213: Python's rule for a slice bound on an axis of size `n`. -/
def sliceBound (n : ℕ) (i : ℤ) : ℕ := if i < 0 then (i + n).toNat else min i.toNat n

/-- examples/dataloader.py:206, 213: `x[..., s:e]`. -/
def Audio.cut (a : Audio) (s e : ℤ) : Audio :=
  ⟨a.chans, sliceBound a.len e - sliceBound a.len s, fun c t => a.val c (sliceBound a.len s + t)⟩

/-- examples/dataloader.py:192: `x[p]` for a tensor `p` of channel indices, all of which are in range. -/
def Audio.pick (a : Audio) (p : List ℕ) : Audio := ⟨p.length, a.len, fun c t => a.val (p.getD c 0) t⟩

/-- examples/dataloader.py:142-155, 199-200: One entry of the metadata, with the decoded files it names: tensor and sampling frequency.  `sources` are the pairs
(`wav_offset`, `wav_n_samples_original`). -/
structure Room where
  mixNoisy : Audio × ℕ
  mixNoiseless : Audio × ℕ
  refsReverb : List (Audio × ℕ)
  refsAnechoic : List (Audio × ℕ)
  sources : List (ℤ × ℤ)

/-- examples/dataloader.py:102-121: the arguments kept by the constructor. An integer `ref_mic` is assumed. -/
structure DataCfg where
  maxLenS : Option ℚ
  refMic : ℤ
  shuffleChannels : Bool
  shuffleRef : Bool
  refIsReverb : Bool
  noiseless : Bool

/-- examples/dataloader.py:170, 179, 211: The random numbers of one call: `torch.randperm(n)`, `torch.randint(n)`, `random.randint(0, n - 1)`. -/
structure Draw where
  perm : ℕ → List ℕ
  ref : ℕ → ℕ
  next : ℕ → ℕ

/-- examples/dataloader.py:123-130: the metadata list, cut to `max_n_samples`. -/
def metadataOf (rooms : List Room) : Option ℤ → List Room
  | none => rooms
  | some n => rooms.take (sliceBound rooms.length n)

/-- examples/dataloader.py:144-147. -/
def Room.mixFile (c : DataCfg) (r : Room) : Audio × ℕ := if c.noiseless then r.mixNoiseless else r.mixNoisy

/-- examples/dataloader.py:152-155. -/
def Room.refFiles (c : DataCfg) (r : Room) : List (Audio × ℕ) := if c.refIsReverb then r.refsReverb else r.refsAnechoic

/-- examples/dataloader.py:180-188, one reference: line 185 compares the sampling frequencies, line 187 picks the channel. -/
def refRow (fs mic : ℕ) (f : Audio × ℕ) : Except Err (ℕ × (ℕ → ℝ)) :=
  if fs ≠ f.2 then .error .assertionError
  else if mic < f.1.chans then .ok (f.1.len, f.1.val mic)
  else .error .indexError

/-- examples/dataloader.py:189 `torch.cat`. -/
def catRows : List (ℕ × (ℕ → ℝ)) → Except Err Audio
  | [] => .error .runtimeError
  | r :: rs =>
    if ∀ q ∈ rs, q.1 = r.1 then .ok ⟨rs.length + 1, r.1, fun k => (((r :: rs).map Prod.snd).getD k fun _ => 0)⟩
    else .error .runtimeError

open Classical in
/-- examples/dataloader.py:140-213, one pass of `__getitem__`: `none` when the item is rejected at line 208.  The mean of an empty
slice is nan, which is not equal to zero. -/
noncomputable def sampleOnce (c : DataCfg) (r : Room) (d : Draw) : Except Err (Option (Audio × Audio)) := do
  let mix := (r.mixFile c).1
  let fs := (r.mixFile c).2
  let n := mix.chans
  let p := if c.shuffleChannels then d.perm n else List.range n
  let mic ← (if c.shuffleRef then .ok (d.ref n) else pyIndex p c.refMic : Except Err ℕ)
  let rows ← (r.refFiles c).mapM (refRow fs mic)
  let ref ← catRows rows
  let mix := mix.pick p
  match c.maxLenS with
  | none => .ok (some (mix, ref))
  | some len =>
    let (s, e) ← computeInterval (pyInt (fs * len)) mix.len r.sources
    let cut := ref.cut s e
    if ∃ k < cut.chans, cut.len ≠ 0 ∧ (∑ t ∈ Finset.range cut.len, cut.val k t) / cut.len = 0 then .ok none
    else .ok (some (mix.cut s e, cut))

/-- examples/dataloader.py:140-213 `__getitem__`; `depth` is what is left of the recursion limit (`RecursionError` is a
`RuntimeError`), `draws i` the random numbers of the call at depth `i`. -/
noncomputable def getItem (c : DataCfg) (meta_ : List Room) : ℕ → ℤ → (ℕ → Draw) → Except Err (Audio × Audio)
  | 0, _, _ => .error .runtimeError
  | depth + 1, idx, draws => do
    let r ← pyIndex meta_ idx
    match ← sampleOnce c r (draws 0) with
    | some out => .ok out
    | none => getItem c meta_ depth ((draws 0).next meta_.length) (fun i => draws (i + 1))

end Torchiva
