import Verif.Model.Objects
import Verif.Model.Utils

/-!
# Model of torchiva/separate.py (the command line)

`argparse` (lines 75-147) is modelled by the record of its results: `algo` is one of the values
of `SepAlgo` or `None`, the model type is one of four.  Devices and printing are not modelled.
-/

namespace Torchiva

/-- `--model-type` (torchiva/separate.py:127-133). -/
inductive ModelType
  | nn | laplace | gauss | nmf
  deriving DecidableEq

/-- The parsed command line (torchiva/separate.py:79-145) without paths of input and output. -/
structure CliArgs where
  mic : ℤ := 2
  src : ℤ := 2
  nfft : ℤ := 2048
  hop : Option ℤ := none
  win : Option String := none
  algo : Option SepAlgo := none
  nIter : ℤ := 20
  taps : ℤ := 0
  delay : ℤ := 0
  ref : ℤ := 0
  eps : Option ℚ := none
  modelType : ModelType := .nn
  modelPath : String
  nBasis : ℤ := 2
  modelEps : Option ℚ := none

/-- The source model built by lines 185-194. -/
inductive CliModel
  | laplace (eps : Option ℚ)
  | gauss (eps : Option ℚ)
  | nmf (nBasis : ℤ) (eps : Option ℚ)
  deriving DecidableEq

/-- How the separator is made: by `load_separator(path, **kwargs)` (line 175) or by `BSSSeparator(...)`
(lines 196-208), with the arguments that are passed. -/
inductive CliSeparator
  | loaded (path : String) (nIter nSrc projBackMic : ℤ) (useDmc : Bool) (algo : Option SepAlgo)
  | built (nFft : ℤ) (hop : Option ℤ) (win : Option String) (nTaps nDelay nSrc : ℤ)
      (algo : SepAlgo) (model : CliModel) (projBackMic : ℤ) (useDmc : Bool) (eps : Option ℚ)
      (nIter : Option ℤ)
  deriving DecidableEq

/-- `BSSSeparator.__init__`'s default of `n_iter` (torchiva/nn.py:49). -/
def sepDefaultNIter : ℤ := 20

/-- torchiva/nn.py:49, 76 and torchiva/separate.py:166: The number of iterations the separator is constructed with. -/
def CliSeparator.effectiveNIter : CliSeparator → ℤ
  | .loaded _ n _ _ _ _ => n
  | .built _ _ _ _ _ _ _ _ _ _ _ n => n.getD sepDefaultNIter

/-- torchiva/separate.py:156-157: `args.src` after the FIVE special case. -/
def cliSrc (a : CliArgs) : ℤ := if a.algo = some .five ∧ a.src > 1 then 1 else a.src

/-- torchiva/separate.py:154-208: validation and construction.  Returns the separator and the final
value of `args.src`. -/
def cliSetup (a : CliArgs) : Except Err (CliSeparator × ℤ) :=
  if ¬ a.src ≤ a.mic then .error .assertionError
  else if ¬ (a.algo = some .five ∧ a.src > 1) ∧ a.algo = some .auxivaIp2 ∧
      ¬ (a.mic = 2 ∧ a.src ≤ 2) then .error .valueError
  else if a.modelType = .nn then
    .ok (.loaded a.modelPath a.nIter (cliSrc a) a.ref false a.algo, cliSrc a)
  else if a.algo = some .mvdr ∨ a.algo = some .mwf ∨ a.algo = some .gev then .error .valueError
  else .ok (.built a.nfft a.hop a.win a.taps a.delay (cliSrc a) (a.algo.getD .tIss)
    (match a.modelType with
      | .laplace => .laplace a.modelEps
      | .gauss => .gauss a.modelEps
      | _ => .nmf a.nBasis a.modelEps) a.ref false a.eps none, cliSrc a)

/-! ## One file -/

/-- `torch.nn.functional.pad(y, (0, pad_len))` with `pad_len = n - len(y)`; a negative padding removes
samples (torchiva/separate.py:60-61). -/
def padTo (n : ℕ) (y : List ℝ) : List ℝ := if y.length ≤ n then y ++ List.replicate (n - y.length) 0
  else y.take n

/-- torchiva/separate.py:41-65 `separate_one_file` between loading and saving: `mix` is the list of
channels, each a list of `n` samples; `separator` is a callable on channels. -/
def separateOne (separator : List (List ℝ) → Except Err (List (List ℝ))) (nSrc nChan : ℤ) (n : ℕ)
    (mix : List (List ℝ)) : Except Err (List (List ℝ)) := do
  let mix1 := if (mix.length : ℤ) > nChan then mix.take (pyTake mix.length nChan) else mix
  let y ← separator (mix1.take (pyTake mix1.length nSrc))
  if (y.length : ℤ) > nSrc then .error .nameError   -- `ref` is not defined
  else .ok (y.map (padTo n))

/-! ## Files and folders -/

/-- torchiva/separate.py:213-234: A path as its list of components. -/
abbrev FPath := List String

/-- torchiva/separate.py:213-234: What is at a path; `C` are the contents of a sound file. -/
inductive FNode (C : Type)
  | absent | file (c : C) | dir

/-- torchiva/separate.py:41-65, 213-234: the file system. -/
abbrev Files (C : Type) := FPath → FNode C

variable {C : Type}

/-- torchiva/separate.py:221, 234: `Path.name`. -/
def fname (p : FPath) : String := p.getLastD ""

/-- Load, process, save (torchiva/separate.py:41-65); nothing is written if processing raises.  The folder
of `pout` is assumed to exist. -/
def processFile (proc : C → Except Err C) (fs : Files C) (pin pout : FPath) :
    Except Err Unit × Files C :=
  match fs pin with
  | .file c => match proc c with
    | .error e => (.error e, fs)
    | .ok c' => match fs pout with
      | .dir => (.error .osError, fs)
      | _ => (.ok (), fun q => if q = pout then .file c' else fs q)
  | _ => (.error .osError, fs)

/-- The loop torchiva/separate.py:220-226; it stops at the first exception. -/
def processAll (proc : C → Except Err C) (output : FPath) : List FPath → Files C →
    Except Err Unit × Files C
  | [], fs => (.ok (), fs)
  | p :: ps, fs => match processFile proc fs p (output ++ [fname p]) with
    | (.error e, fs') => (.error e, fs')
    | (.ok _, fs') => processAll proc output ps fs'

/-- torchiva/separate.py:220, 230: `Path.suffix == ".wav"`. -/
def isWav (p : FPath) : Bool :=
  (".wav".toList.isSuffixOf (fname p).toList) ∧ 4 < (fname p).length

/-- torchiva/separate.py:213-243.  `found` is the list of paths `input.rglob("*.wav")` yields, in its
unspecified order; it is taken before the first file is written. -/
def cliFiles (proc : C → Except Err C) (found : List FPath) (input output : FPath) (fs : Files C) :
    Except Err Unit × Files C :=
  match fs input with
  | .dir =>
    match fs output with
    | .file _ => (.error .osError, fs)        -- `mkdir` raises FileExistsError
    | .absent =>
      processAll proc output found (fun q => if q = output then .dir else fs q)
    | .dir =>
      if output = input then (.error .valueError, fs) else processAll proc output found fs
  | _ =>
    if ¬ isWav input then (.error .valueError, fs)
    else
      let pathOut := match fs output with
        | .dir => output ++ [fname input]
        | _ => output
      if output = input then (.error .valueError, fs) else processFile proc fs input pathOut

end Torchiva
