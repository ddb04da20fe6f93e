import Verif.Model.Torch
import Mathlib.Data.List.DropRight

/-!
# Model of torchiva/loader.py

The file system is the cache folder `~/.torchiva_models` (a partial function from model name and
file to bytes); the network is a partial function from URL to bytes.  Strings are lists of
characters.  A download writes its file block by block, so a crash or a lost connection leaves a
prefix of the bytes behind.
-/

namespace Torchiva

/-- torchiva/loader.py:23-31: names and URLs. -/
abbrev Str := List Char
/-- torchiva/loader.py:43: contents of files. -/
abbrev Bytes := List UInt8

/-- The two files of a model (torchiva/loader.py:13-14). -/
inductive MFile
  | weights | config
  deriving DecidableEq

/-- torchiva/loader.py:13-14 `WEIGHTS_FN`, `CONFIG_FN`. -/
def MFile.fn : MFile → Str
  | .weights => "model_weights.ckpt".toList
  | .config => "model_config.yaml".toList

/-- torchiva/loader.py:24: `str.strip("/")`. -/
def stripSlash (s : Str) : Str := (s.dropWhile (· = '/')).rdropWhile (· = '/')

/-- torchiva/loader.py:23-24 `urljoin`. -/
def urljoin (part1 part2 : Str) : Str := stripSlash part1 ++ ['/'] ++ part2

/-- `Path(s).name` for a POSIX path: the last component that is neither empty nor ".", or the empty
string if there is none (torchiva/loader.py:28-29). -/
def pathName (s : Str) : Str :=
  ((s.splitOn '/').filter fun p => p ≠ [] ∧ p ≠ ['.']).getLastD []

/-- torchiva/loader.py:36-43: The cache folder: bytes of each file of each model name. -/
abbrev Cache := Str → MFile → Option Bytes

/-- torchiva/loader.py:43: The web: bytes stored at each URL, `none` for an HTTP error. -/
abbrev Web := Str → Option Bytes

/-- torchiva/loader.py:41-43: What goes wrong during one call of `get_model_from_url`. -/
inductive Fault
  | fine
  /-- the process dies, or the connection is lost, after `k` bytes of file `f` were written -/
  | during (f : MFile) (k : ℕ)
  /-- the process dies before file `f` is requested -/
  | before (f : MFile)

/-- torchiva/loader.py:41-43: The process dies before this file is requested. -/
def Fault.stopsBefore : Fault → MFile → Bool
  | .before g, f => g = f
  | _, _ => false

/-- torchiva/loader.py:43: The download of this file is cut after that many bytes. -/
def Fault.cutsAt : Fault → MFile → Option ℕ
  | .during g k, f => if g = f then some k else Option.none
  | _, _ => Option.none

/-- torchiva/loader.py:43: Replace one file. -/
def Cache.write (c : Cache) (name : Str) (f : MFile) (b : Bytes) : Cache :=
  fun n g => if n = name ∧ g = f then some b else c n g

/-- One iteration of the loop torchiva/loader.py:41-43.  `urlretrieve` raises before it creates the
file if the server answers with an error, otherwise it writes the bytes in order. -/
def fetchFile (web : Web) (fault : Fault) (url : Str) (c : Cache) (f : MFile) :
    Except Err Unit × Cache :=
  if fault.stopsBefore f then (.error .crash, c)
  else if (c (pathName url) f).isSome then (.ok (), c)
  else match web (urljoin url f.fn) with
    | none => (.error .osError, c)
    | some b =>
      if ∃ k ∈ fault.cutsAt f, k < b.length then
        (.error .crash, c.write (pathName url) f (b.take ((fault.cutsAt f).getD 0)))
      else (.ok (), c.write (pathName url) f b)

/-- torchiva/loader.py:27-45 `get_model_from_url`: the weights, then the configuration.  Returns the
contents of the two files whose names the code returns.  Creating the folder (line 39) is assumed
to succeed. -/
def getModelFromUrl (web : Web) (fault : Fault) (url : Str) (c : Cache) :
    Except Err (Option Bytes × Option Bytes) × Cache :=
  match fetchFile web fault url c .weights with
  | (.error e, c1) => (.error e, c1)
  | (.ok _, c1) => match fetchFile web fault url c1 .config with
    | (.error e, c2) => (.error e, c2)
    | (.ok _, c2) => (.ok (c2 (pathName url) .weights, c2 (pathName url) .config), c2)

/-- torchiva/loader.py:27-45: The cache after a sequence of calls, each with its own URL, fault and state of the web. -/
def loadHistory : List (Web × Fault × Str) → Cache → Cache
  | [], c => c
  | (w, f, u) :: h, c => loadHistory h (getModelFromUrl w f u c).2

/-! ## load_separator -/

/-- torchiva/loader.py:110-111: What a path refers to on the local file system. -/
inductive Node
  | absent | file (b : Bytes) | dir
  deriving DecidableEq

/-- torchiva/loader.py:76-77: The result of `yaml.safe_load`: a mapping, some other value (`None` for an empty file, a list, ...)
or a parse error. -/
inductive Yaml (V : Type)
  | dict (d : List (String × V))
  | other
  | bad

/-- torchiva/loader.py:79: `dict.get`. -/
def dictGet {V : Type} (d : List (String × V)) (k : String) : Option V :=
  (d.find? fun kv => kv.1 = k).map Prod.snd

/-- torchiva/loader.py:79: Python's `d[k] = v`: replaces the value at the key's place or appends. -/
def dictSet {V : Type} (d : List (String × V)) (k : String) (v : V) : List (String × V) :=
  if (dictGet d k).isSome then d.map fun kv => if kv.1 = k then (k, v) else kv else d ++ [(k, v)]

/-- torchiva/loader.py:79: `dict.update`. -/
def dictUpdate {V : Type} (d kw : List (String × V)) : List (String × V) :=
  kw.foldl (fun acc kv => dictSet acc kv.1 kv.2) d

variable {V S T : Type}

/-- torchiva/loader.py:48-85 `load_separator_model`.  `parse` is `yaml.safe_load`, `torchLoad` is
`torch.load`, `build` the constructor `BSSSeparator(**config)` and `loadState` is
`load_state_dict`; all of them may raise. -/
def loadSeparatorModel (parse : Bytes → Yaml V) (torchLoad : Bytes → Except Err T)
    (build : List (String × V) → Except Err S) (loadState : S → T → Except Err S)
    (ckpt config : Node) (kwargs : List (String × V)) : Except Err S :=
  match ckpt, config with
  | .absent, _ => .error .valueError
  | _, .absent => .error .valueError
  | _, .dir => .error .osError
  | ck, .file cb =>
    match parse cb with
    | .bad => .error .runtimeError          -- `yaml.YAMLError`
    | .other => .error .attributeError      -- no method `update`
    | .dict d =>
      match ck with
      | .file wb => do
        let t ← torchLoad wb
        let s ← build (dictUpdate d kwargs)
        loadState s t
      | _ => .error .osError

/-- torchiva/loader.py:105, 107: `urlparse(s).scheme`: the part before the first colon, in lower case, if it starts with a letter
and consists of letters, digits, "+", "-" and "."; empty otherwise (ASCII only). -/
def urlScheme (s : Str) : Str :=
  let pre := s.takeWhile (· ≠ ':')
  if ':' ∈ s ∧ (pre.head?.any Char.isAlpha) ∧
      pre.all (fun c => c.isAlphanum ∨ c = '+' ∨ c = '-' ∨ c = '.') then pre.map Char.toLower
  else []

/-- torchiva/loader.py:70-77: A file of the cache folder as a node. -/
def toNode : Option Bytes → Node
  | some b => .file b
  | none => .absent

/-- torchiva/loader.py:88-119 `load_separator`.  `fs` is the local file system: what the path is, and
what its two files are if it is a folder. -/
def loadSeparator (parse : Bytes → Yaml V) (torchLoad : Bytes → Except Err T)
    (build : List (String × V) → Except Err S) (loadState : S → T → Except Err S)
    (web : Web) (fault : Fault) (fs : Str → Node) (inDir : Str → MFile → Node)
    (path : Str) (kwargs : List (String × V)) (c : Cache) : Except Err S × Cache :=
  if urlScheme path = "http".toList ∨ urlScheme path = "https".toList then
    match getModelFromUrl web fault path c with
    | (.error e, c') => (.error e, c')
    | (.ok (w, y), c') =>
      (loadSeparatorModel parse torchLoad build loadState (toNode w) (toNode y) kwargs, c')
  else match fs path with
    | .absent => (.error .valueError, c)
    | .file _ => (.error .valueError, c)
    | .dir => (loadSeparatorModel parse torchLoad build loadState (inDir path .weights)
        (inDir path .config) kwargs, c)

end Torchiva
