import Verif.Model.Loader
import Mathlib.Logic.Function.Basic

/-!
# Several processes that load the same pre-trained model at the same time (torchiva/loader.py)

The processes share the cache folder and nothing else.  A schedule says which process makes the next step; between the
test for a file and its creation, and between two blocks of a download, any other process may run.  A process that dies
is one that is never scheduled again.  Simplification: reading a whole file is one step.
-/

namespace Torchiva

/-- torchiva/loader.py:41-43, 70-81: where a process is in `load_separator`. -/
inductive Pc
  /-- about to test whether the file exists (line 42) -/
  | check (f : MFile)
  /-- found it missing, `urlretrieve` has not created it yet (line 43) -/
  | opening (f : MFile)
  /-- `urlretrieve` has written `off` bytes (line 43) -/
  | writing (f : MFile) (off : ℕ)
  /-- about to read the configuration (lines 76-77) -/
  | readConfig
  /-- about to read the weights (line 81), the configuration was `y` -/
  | readWeights (y : Bytes)
  /-- both files were read -/
  | done (y w : Bytes)
  /-- a file did not exist (lines 70-74) -/
  | failed

/-- torchiva/loader.py:41: the next file, or the code after the loop. -/
def Pc.next : MFile → Pc
  | .weights => .check .config
  | .config => .readConfig

/-- torchiva/loader.py:43: the bytes `b` are written at position `off` of a file with contents `c`; a gap is filled with
zeros, as a POSIX file system does. -/
def writeAt (c : Bytes) (off : ℕ) (b : Bytes) : Bytes :=
  (c ++ List.replicate (off - c.length) 0).take off ++ b ++ c.drop (off + b.length)

/-- torchiva/loader.py:36-43: the folder of the model, and the processes. -/
structure ConcState (ι : Type) where
  files : MFile → Option Bytes
  proc : ι → Pc

/-- torchiva/loader.py:27-45, 67-81: one step of process `i`.  When it downloads, the next block has at most `k` bytes
(any block size; a block of zero bytes is no progress).  `served f` is what the server sends. -/
def concStep {ι : Type} [DecidableEq ι] (served : MFile → Bytes) (s : ConcState ι) (i : ι) (k : ℕ) : ConcState ι :=
  match s.proc i with
  | .check f => { s with proc := Function.update s.proc i (if (s.files f).isSome then Pc.next f else .opening f) }
  | .opening f => ⟨Function.update s.files f (some []), Function.update s.proc i (.writing f 0)⟩
  | .writing f off =>
    if off < (served f).length then
      let b := ((served f).drop off).take k
      ⟨Function.update s.files f (some (writeAt ((s.files f).getD []) off b)),
        Function.update s.proc i (.writing f (off + b.length))⟩
    else { s with proc := Function.update s.proc i (Pc.next f) }
  | .readConfig =>
    let p : Pc := match s.files .weights, s.files .config with
      | some _, some y => .readWeights y
      | _, _ => .failed
    { s with proc := Function.update s.proc i p }
  | .readWeights y =>
    let p : Pc := match s.files .weights with
      | some w => .done y w
      | none => .failed
    { s with proc := Function.update s.proc i p }
  | .done _ _ => s
  | .failed => s

/-- torchiva/loader.py:27-45, 67-81: the processes run according to a schedule. -/
def concRun {ι : Type} [DecidableEq ι] (served : MFile → Bytes) : List (ι × ℕ) → ConcState ι → ConcState ι
  | [], s => s
  | (i, k) :: r, s => concRun served r (concStep served s i k)

/-- torchiva/loader.py:27: all processes at the start of `get_model_from_url`, with the given cache folder. -/
def concStart {ι : Type} (files : MFile → Option Bytes) : ConcState ι := ⟨files, fun _ => .check .weights⟩

end Torchiva
