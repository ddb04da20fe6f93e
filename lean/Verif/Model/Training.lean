import Verif.Model.Utils
import Verif.Model.Dataset
import Verif.Model.TIss

/-!
# Model of the training and evaluation scripts: examples/separation_model.py, examples/data_module.py, examples/test.py,
examples/example.py, examples/samples/make_mix.py, examples/samples/read_samples.py

PyTorch Lightning, `DataLoader`, `fast_bss_eval`, `pyroomacoustics` and the file formats are outside the model: what the code relies on
is a parameter or a contract here.
-/

namespace Torchiva

variable {B C S n n' : ℕ}

/-! ## examples/separation_model.py -/

/-- examples/separation_model.py:119: Contract of `fast_bss_eval.sdr_pit_loss(est, ref)` for one item with as many estimates as references: the losses of the references
for the assignment of estimates to references with the smallest sum.  The loss of a pair is a parameter. -/
def PitContract (loss : ∀ m, (Fin m → ℂ) → (Fin m → ℂ) → ℝ)
    (pit : ∀ m, List (Fin m → ℂ) → List (Fin m → ℂ) → Except Err (List ℝ)) : Prop :=
  ∀ (m K : ℕ) (est ref : Fin K → Fin m → ℂ), ∃ σ : Equiv.Perm (Fin K),
    pit m (List.ofFn est) (List.ofFn ref) = .ok (List.ofFn fun k => loss m (est (σ k)) (ref k)) ∧
    ∀ τ : Equiv.Perm (Fin K), ∑ k, loss m (est (σ k)) (ref k) ≤ ∑ k, loss m (est (τ k)) (ref k)

/-- examples/separation_model.py:119: `torch.Tensor.mean()`; the mean of an empty tensor is nan. -/
noncomputable def tensorMean (l : List ℝ) : Except Err ℝ :=
  if l = [] then .error .nonFinite else .ok (l.sum / l.length)

/-- examples/separation_model.py:105-121 `WSJModel.compute_metrics`, the entry `cisdr_loss`.  `argsort` is the parameter of
`select_most_energetic`, signals are real numbers seen as complex ones. -/
noncomputable def computeMetrics (argsort : (Fin C → ℝ) → Equiv.Perm (Fin C))
    (pit : ∀ m, List (Fin m → ℂ) → List (Fin m → ℂ) → Except Err (List ℝ)) (nSrc : ℤ)
    (yhat : Fin B → Fin C → Fin n → ℂ) (y : Fin B → Fin S → Fin n' → ℂ) : Except Err ℝ := do
  let yh : Fin B → Fin C → Fin (min n n') → ℂ := fun b c t => yhat b c ⟨t, by omega⟩
  let yr : Fin B → Fin S → Fin (min n n') → ℂ := fun b c t => y b c ⟨t, by omega⟩
  let losses ← seqAll fun b : Fin B => pit (min n n') (selectMostEnergetic argsort (yh b) nSrc) (List.ofFn (yr b))
  tensorMean (List.ofFn losses).flatten

/-- examples/separation_model.py:101-103: What the separator returns for a batch: the number of channels and of samples are its own. -/
structure SepBatch (B : ℕ) where
  chans : ℕ
  len : ℕ
  val : Fin B → Fin chans → Fin len → ℂ

/-- examples/separation_model.py:123-136 `training_step` and 142-152 `validation_step` (the same number, there under the name
`val_loss` too).  A batch of mixtures is a list of channels per item; lines 126 and 147 pass the first `n_chan` channels. -/
noncomputable def trainingStep (argsort : ∀ C, (Fin C → ℝ) → Equiv.Perm (Fin C))
    (pit : ∀ m, List (Fin m → ℂ) → List (Fin m → ℂ) → Except Err (List ℝ)) (nSrc nChan : ℤ)
    (separator : (Fin B → List (List ℝ)) → Except Err (SepBatch B))
    (x : Fin B → List (List ℝ)) (y : Fin B → Fin S → Fin n' → ℂ) : Except Err ℝ := do
  let out ← separator fun b => (x b).take (sliceBound (x b).length nChan)
  computeMetrics (argsort out.chans) pit nSrc out.val y

/-- examples/separation_model.py:175-179: What `validation_epoch_end` logs. -/
structure ValLog where
  valLoss : ℝ
  valCisdr : ℝ

/-- examples/separation_model.py:154-179 `validation_epoch_end`, for the list of the losses returned by the validation steps.  (A
single result that is not in a list is put in one.)  With no result `0 / 0` raises. -/
noncomputable def validationEpochEnd (outputs : List ℝ) : Except Err ValLog :=
  let cisdr := outputs.foldl (fun a r => a - r) 0
  let loss := outputs.foldl (fun a r => a + r) 0
  if outputs.length = 0 then .error .zeroDivisionError
  else .ok ⟨loss / outputs.length, cisdr / outputs.length⟩

/-- examples/separation_model.py:209-220: The numbers logged by `on_after_backward`. -/
structure GradLog where
  norm : ℝ
  clippedNorm : ℝ
  stepSize : ℝ

/-- examples/separation_model.py:209-227 `on_after_backward`: calls the clipper; every 25 steps the norms are logged.  Returns the log,
the new history and the new gradients. -/
noncomputable def onAfterBackward (p : ℚ) (lr : ℝ) (globalStep : ℕ) (history : List ℝ) (grads : List (Option (List ℝ))) :
    Except Err (Option GradLog) × List ℝ × List (Option (List ℝ)) :=
  match autoclipCall p history grads with
  | (.error e, h, g) => (.error e, h, g)
  | (.ok (norm, thr), h, g) =>
    (.ok (if globalStep % 25 = 0 then some ⟨norm, min norm thr, lr * min norm thr⟩ else none), h, g)

/-! ## examples/data_module.py -/

/-- examples/data_module.py:78-92: Assignment `d[k] = v` to a dictionary in insertion order. -/
def dictPut {K V : Type} [DecidableEq K] (d : List (K × V)) (k : K) (v : V) : List (K × V) :=
  if d.any (fun e => e.1 = k) then d.map fun e => if e.1 = k then (k, v) else e else d ++ [(k, v)]

/-- examples/data_module.py:47, 71-76: The argument `train_n_channels`: a number, a list, or a dictionary from numbers of channels to numbers of samples. -/
inductive NChannels
  | one (n : ℤ)
  | list (l : List ℤ)
  | dict (d : List (ℤ × Option ℤ))

/-- examples/data_module.py:70-83: the dictionary from numbers of channels to numbers of samples, `-1` meaning all. -/
def trainChannels (a : NChannels) : List (ℤ × Option ℤ) :=
  let d : List (ℤ × Option ℤ) := match a with
    | .one n => [(n, none)]
    | .list l => l.foldl (fun d n => dictPut d n none) []
    | .dict d => d
  d.foldl (fun t e => dictPut t e.1 (if e.2 = some (-1) then none else e.2)) []

/-- examples/data_module.py:85-92: the batch size of each number of channels.  The dictionary `train_n_batch_sizes` is looked up with
`str(nch)`; here its keys are the numbers. -/
def trainBatchSizes (channels : List (ℤ × Option ℤ)) (batchSize : ℕ) : Option (List (ℤ × ℕ)) → Except Err (List (ℤ × ℕ))
  | none => .ok (channels.map fun e => (e.1, batchSize))
  | some sizes => channels.mapM fun e =>
      match sizes.find? (fun s => s.1 = e.1) with
      | some s => .ok (e.1, s.2)
      | none => .error .keyError

/-- examples/data_module.py:38-92: The arguments of `WSJ6chDataModule` that reach the data sets. -/
structure DataModuleCfg where
  batchSize : ℕ
  maxLenS : Option ℚ
  shuffleChannels : Bool
  shuffleRef : Bool
  trainNChannels : NChannels
  trainNBatchSizes : Option (List (ℤ × ℕ))
  validNChannels : Option (List ℤ)
  noiseless : Bool
  refIsReverb : Bool

/-- examples/data_module.py:94-128: One data set: its configuration (`ref_mic` keeps its default 0) and its items. -/
structure DataSet where
  cfg : DataCfg
  rooms : List Room

/-- examples/data_module.py:94-128 `setup` with 61-63: the training sets, one per number of channels, from the folder `si284`, and the
validation set, from `dev93` (the test set, from `eval92`, is configured like it). -/
def setupData (c : DataModuleCfg) (si284 dev93 : List Room) : List (ℤ × DataSet) × DataSet :=
  let maxLen := if c.maxLenS = some (-1) then none else c.maxLenS
  ((trainChannels c.trainNChannels).map fun e =>
      (e.1, ⟨⟨maxLen, 0, c.shuffleChannels, c.shuffleRef, c.refIsReverb, c.noiseless⟩, metadataOf si284 e.2⟩),
    ⟨⟨none, 0, false, false, c.refIsReverb, c.noiseless⟩, metadataOf dev93 none⟩)

/-- examples/data_module.py:133-135, 148-150: `DataLoader` with the given batch size over items in this order: consecutive groups, the last one may be smaller. -/
def chunk {α : Type} (bs : ℕ) (l : List α) : List (List α) :=
  if h : l = [] ∨ bs = 0 then [] else l.take bs :: chunk bs (l.drop bs)
termination_by l.length
decreasing_by
  rw [not_or] at h
  rw [List.length_drop]
  have := List.length_pos_iff.2 h.1
  omega

/-- examples/data_module.py:130-144 `train_dataloader`: the loaders that are interleaved.  `order` is the order in which the sampler of a
training set visits its items: `shuffle=True` draws it, otherwise it is the natural one. -/
def trainLoaders (c : DataModuleCfg) (si284 : List Room) (order : ℤ → List ℕ) : Except Err (List (List (List (ℤ × ℕ)))) := do
  let sizes ← trainBatchSizes (trainChannels c.trainNChannels) c.batchSize c.trainNBatchSizes
  ((setupData c si284 []).1).mapM fun e =>
    match sizes.find? (fun s => s.1 = e.1) with
    | some s => if s.2 = 0 then .error .valueError else .ok (chunk s.2 ((order e.1).map fun i => (e.1, i)))
    | none => .error .keyError

/-! ## examples/test.py -/

/-- examples/test.py:279-356: the choice of the model. -/
inductive EvalModel
  | ilrma | gauss | nn (algorithm sourceModel : String) | laplace

/-- examples/test.py:279-354: `algo_model` for the chosen model and the option `--algo`. -/
def algoModel (m : EvalModel) (algo : String) : String :=
  match m with
  | .ilrma => algo
  | .gauss => algo
  | .nn a s => a ++ "-" ++ s
  | .laplace => "iva" ++ "_" ++ "laplace"

/-- examples/test.py:46-74 `get_paths`: the output folder, relative to `--output`. -/
def outputDir (datasetName tagDataset dirName : String) : List String := [datasetName, tagDataset, dirName]

/-- examples/test.py:267-276: the channels used, for `--n_chan`; any other value leaves `chan` undefined. -/
def evalChannels (nChan : ℤ) : Except Err (List ℕ) :=
  if nChan = 2 then .ok [0, 3] else if nChan = 3 then .ok [0, 2, 4] else if nChan = 4 then .ok [0, 1, 3, 4]
  else if nChan = 5 then .ok [0, 1, 2, 3, 4] else if nChan = 6 then .ok [0, 1, 2, 3, 4, 5] else .error .nameError

/-- examples/test.py:108-122 `load_model`: the checkpoint of an epoch.  `files` are the full paths in the folder, in the order in which
the operating system lists them. -/
def findCheckpoint (files : List (List Char)) (epoch : List Char) : Except Err (List Char) :=
  match files.find? fun f => decide (("epoch=".toList ++ epoch ++ "-".toList) <:+: f) with
  | some f => .ok f
  | none => .error .unboundLocalError

/-- examples/test.py:410-412, 506-508: The totals accumulated by the evaluation loop. -/
structure EvalTotals where
  sdr : ℝ
  mixSdr : ℝ

/-- examples/test.py:410-512, the loop over the data set: `idx` is the index of the first item of the list, `limit` the option
`--limit`, each item is the mean SDR of the outputs and of the mixture (the SIR is accumulated in the same way).  Returns the totals and
the indices of the items processed. -/
noncomputable def evalLoop (limit : Option ℤ) : ℕ → List (ℝ × ℝ) → EvalTotals → EvalTotals × List ℕ
  | _, [], t => (t, [])
  | idx, item :: rest, t =>
    let t' : EvalTotals := ⟨t.sdr + item.1, t.mixSdr + item.2⟩
    if limit = some (idx : ℤ) then (t', [idx])
    else
      let r := evalLoop limit (idx + 1) rest t'
      (r.1, idx :: r.2)

/-- examples/test.py:410-538: the summary that is saved: the totals divided by `idx + 1`, for the last value of `idx`.  An empty data
set leaves `idx` undefined. -/
noncomputable def evalSummary (limit : Option ℤ) (items : List (ℝ × ℝ)) : Except Err EvalTotals :=
  let r := evalLoop limit 0 items ⟨0, 0⟩
  match r.2.getLast? with
  | none => .error .nameError
  | some idx => .ok ⟨r.1.sdr / ((idx : ℝ) + 1), r.1.mixSdr / ((idx : ℝ) + 1)⟩

/-- examples/test.py:439-442: Contract of `fast_bss_eval.bss_eval_sources(ref, est)` with as many estimates as references: the SDR of each reference with the
estimate assigned to it, and the assignment. -/
def BssEvalContract {Sg : Type} (sdr : Sg → Sg → ℝ) (eval : ∀ K, (Fin K → Sg) → (Fin K → Sg) → (Fin K → ℝ) × Equiv.Perm (Fin K)) : Prop :=
  ∀ K ref est k, (eval K ref est).1 k = sdr (ref k) (est ((eval K ref est).2 k))

/-- examples/test.py:474-495: One row of the results and the sound file saved with it. -/
structure EvalRow (Sg : Type) where
  src : ℕ
  sdr : ℝ
  saved : Sg

/-- examples/test.py:417-495, one item: the rows of the results, with the signal that is saved for each (before `write_wav`).  `mixRef` is
the mixture at the reference microphone.  The lists of speakers, utterances and transcripts are as long as the references. -/
noncomputable def evalRows {Sg : Type} (eval : ∀ K, (Fin K → Sg) → (Fin K → Sg) → (Fin K → ℝ) × Equiv.Perm (Fin K)) {K : ℕ}
    (ref y : Fin K → Sg) (mixRef : Sg) : List (EvalRow Sg) :=
  let e := eval K ref y
  let e0 := eval K ref fun _ => mixRef
  List.ofFn fun k : Fin K => ⟨k.1, e.1 k - e0.1 k, y (e.2 k)⟩

/-- examples/test.py:95 and examples/samples/make_mix.py:18: `astype(numpy.int16)` of a real number: truncation towards zero, then the value modulo `2^16` in the range of the type. -/
noncomputable def toInt16 (x : ℝ) : ℤ :=
  let i : ℤ := if 0 ≤ x then ⌊x⌋ else ⌈x⌉
  (i + 2 ^ 15) % 2 ^ 16 - 2 ^ 15

/-- examples/test.py:91: `numpy.abs(x).max()`, raising on an empty array. -/
noncomputable def maxAbsList (l : List ℝ) : Except Err ℝ :=
  match (l.map fun x => |x|).max? with
  | some m => .ok m
  | none => .error .valueError

/-- examples/test.py:89-96 `write_wav(filename, fs, data)` for floating point data: the file and its samples.  The file that is written
is the one named by the global variable `wav_filename`, not by the argument. -/
noncomputable def writeWav (_filename wavFilename : String) (data : List ℝ) : Except Err (String × List ℤ) := do
  let m ← maxAbsList data
  if m = 0 then .error .nonFinite
  else .ok (wavFilename, data.map fun x => toInt16 (0.95 * x / m * 2 ^ 15))

/-- examples/test.py:99-105 `table_2_file(filename, table, sort_keys=True)`: the rows, sorted by their first entry. -/
def sortedTable {V : Type} (table : List (String × V)) : List (String × V) :=
  table.mergeSort fun a b => decide (a.1 ≤ b.1)

/-- examples/test.py:540-549: the three tables that are written: transcripts, utterance files, and speakers, where every speaker is replaced
by the first. -/
def evalTables (rows : List (String × String × String × String)) :
    Except Err (List (String × String) × List (String × String) × List (String × String)) :=
  match rows with
  | [] => .error .indexError
  | first :: _ => .ok (sortedTable (rows.map fun r => (r.1, r.2.1)), sortedTable (rows.map fun r => (r.1, r.2.2.1)),
      sortedTable (rows.map fun r => (r.1, first.2.2.2)))

/-! ## examples/example.py and examples/samples -/

/-- examples/example.py:34-43: Signals of one item: a list of channels, all of them with the same number of samples. -/
abbrev Chans := List (List ℝ)

/-- examples/example.py:37, 43: `x.shape[-1]`. -/
def nSamples (x : Chans) : ℕ := (x.headD []).length

/-- examples/example.py:34-46 `make_batch_array` (examples/samples/read_samples.py:7-10 and examples/test.py:77-80 are the case `"min"`).
Items are not empty. -/
def makeBatchArray (lst : List Chans) (adjust : String) : Except Err (List Chans) :=
  if adjust = "max" then
    match (lst.map nSamples).max? with
    | none => .error .valueError
    | some m => lst.mapM fun x => assignItem (lst.headD []).length m 0 x
  else if adjust = "min" then
    match (lst.map nSamples).min? with
    | none => .error .valueError
    | some m =>
      if lst.all fun x => x.length = (lst.headD []).length then .ok (lst.map fun x => x.map fun c => c.take m)
      else .error .runtimeError
  else .error .notImplementedError

/-- examples/samples/read_samples.py:13-29 `read_audio` with a reference microphone: the files, each with its sampling frequency, are cut
to the reference channel and concatenated. -/
def readAudio (files : List (Chans × ℕ)) (refMic : ℤ) (fsExpected : Option ℕ) : Except Err Chans := do
  let rows ← files.mapM fun f =>
    if ∀ fs ∈ fsExpected, fs = f.2 then pyIndex f.1 refMic else .error .assertionError
  match rows with
  | [] => .error .runtimeError
  | r :: _ => if rows.all fun x => x.length = r.length then .ok rows else .error .runtimeError

/-- examples/samples/make_mix.py:103: The sum over the sources, `premix.sum(axis=0)`: channel by channel, sample by sample. -/
def sumSources (chans len : ℕ) (premix : List Chans) : Chans :=
  List.ofFn fun c : Fin chans => List.ofFn fun t : Fin len => (premix.map fun s => (s.getD c []).getD t 0).sum

/-- examples/samples/make_mix.py:43-53 `pad_to_max` on one channel: zeros at the end. -/
def padEnd (m : ℕ) (x : List ℝ) : List ℝ := x ++ List.replicate (m - x.length) 0

/-- examples/samples/make_mix.py:16-19 `save_files`: the samples saved. -/
noncomputable def saveSamples (x : List ℝ) : List ℤ := x.map fun v => toInt16 (v * 2 ^ 15)

/-- examples/samples/make_mix.py:105-112: The three groups of files of one example: anechoic references, reverberant references, mixture. -/
structure MixFiles where
  dry : List (List (List ℤ))
  wet : List (List (List ℤ))
  mix : List (List ℤ)

/-- examples/samples/make_mix.py:103-112: mixing, padding to the longest (43-53), scaling to a peak of 0.95 (56-62) and saving.  `dry` and
`wet` are the outputs of the simulator: for every source, its image at every microphone, with `lenDry` and `lenWet` samples.  Silence makes
the factor infinite. -/
noncomputable def makeMix (chans lenDry lenWet : ℕ) (dry wet : List Chans) : Except Err MixFiles := do
  let mix := sumSources chans lenWet wet
  let m := max lenDry (max lenWet lenWet)
  let dry := dry.map fun s => s.map (padEnd m)
  let wet := wet.map fun s => s.map (padEnd m)
  let mix := mix.map (padEnd m)
  let peak ← maxAbsList (mix.flatten ++ dry.flatten.flatten ++ wet.flatten.flatten)
  if peak = 0 then .error .nonFinite
  else
    let scale : List ℝ → List ℝ := fun x => x.map fun v => v * (0.95 / peak)
    .ok ⟨dry.map fun s => s.map fun x => saveSamples (scale x), wet.map fun s => s.map fun x => saveSamples (scale x),
      mix.map fun x => saveSamples (scale x)⟩

end Torchiva
