import Verif.Model.Objects
import Verif.Model.Loader

/-!
# Model of a trained separator's life: examples/separation_model.py, examples/export_model.py, torchiva/nn.py, torchiva/loader.py

Values of configuration files are a small inductive type; tensors are an arbitrary type `T` with a shape.  `yaml.dump` followed by
`yaml.safe_load` and `torch.save` followed by `torch.load` are taken to return what was written.
-/

namespace Torchiva

/-- examples/separation_model.py:71-99 and torchiva/loader.py:77: Values found in configuration files and keyword arguments. -/
inductive PyVal
  | none
  | bool (b : Bool)
  | int (i : ℤ)
  | float (q : ℚ)
  | str (s : String)
  | member (a : SepAlgo)
  | dict (d : List (String × PyVal))

/-- torchiva/nn.py:46-61: the parameters of `BSSSeparator`, with their defaults; `n_fft` has none. -/
def sepDefault : List (String × Option PyVal) :=
  [("n_fft", Option.none), ("n_iter", some (.int 20)), ("hop_length", some .none), ("window", some .none), ("n_taps", some (.int 0)),
    ("n_delay", some (.int 0)), ("n_src", some .none), ("algo", some (.member .tIss)), ("source_model", some .none),
    ("proj_back_mic", some (.int 0)), ("use_dmc", some (.bool false)), ("n_power_iter", some .none),
    ("eps", some (.float (1 / 100000)))]

/-- torchiva/nn.py:46-61 and torchiva/loader.py:82: The arguments of a call `BSSSeparator(**d)`: unknown and missing names raise `TypeError`. -/
def bindArgs (d : List (String × PyVal)) : Except Err (String → PyVal) :=
  if ∃ kv ∈ d, kv.1 ∉ sepDefault.map Prod.fst then .error .typeError
  else if (dictGet d "n_fft").isNone then .error .typeError
  else .ok fun k => (dictGet d k).getD (((dictGet sepDefault k).getD Option.none).getD .none)

/-- torchiva/nn.py:65-70: The `source_model` argument: `None`, a dictionary for `instantiate`, or a module that was built from one. -/
inductive SrcArg (T : Type)
  | none
  | dict (spec : List (String × PyVal))
  | module (spec : List (String × PyVal)) (state : String → Option T)

/-- What the separator is built from. `inst seed d` is `instantiate(**d)`: the named tensors of the new module, whose initial values
depend on the random generator; `window` is the STFT window for the arguments `window` and `n_fft`; `fake` the dummy parameter of the
beamformers (torchiva/base.py:161). -/
structure SepWorld (T Sh : Type) where
  inst : ℕ → List (String × PyVal) → Except Err (String → Option T)
  window : PyVal → PyVal → Except Err T
  fake : T
  shape : T → Sh

/-- torchiva/nn.py:63-136: A separator: constructor arguments, selected algorithm, source model (`none` is `LaplaceModel()`, which has no tensors) and
tensors. -/
structure Sep (T : Type) where
  args : String → PyVal
  algo : SepAlgo
  source : Option (List (String × PyVal))
  weights : String → Option T
  window : T
  fake : T

/-- torchiva/nn.py:144: The `algo` argument as seen by `SepAlgo(val)`. -/
def PyVal.toAlgo : PyVal → AlgoArg
  | .member a => .member a
  | .str s => .str s
  | _ => .other

variable {T Sh : Type}

/-- torchiva/nn.py:63-135 the constructor of `BSSSeparator`, after its arguments are bound. -/
def buildSep (W : SepWorld T Sh) (seed : ℕ) (args : String → PyVal) (src : SrcArg T) : Except Err (Sep T) := do
  let (source, weights) ← (match src with
    | .none => .ok (Option.none, fun _ => Option.none)
    | .dict d => (W.inst seed d).map fun w => (some d, w)
    | .module d w => .ok (some d, w) : Except Err (Option (List (String × PyVal)) × (String → Option T)))
  let algo ← SepAlgo.lookup (args "algo").toAlgo
  let window ← W.window (args "window") (args "n_fft")
  return ⟨args, algo, source, weights, window, W.fake⟩

/-- examples/separation_model.py:71-99 the separator of `WSJModel(config)`; `algorithm` is `config["algorithm"]`, `nSrc` is
`config["training"]["n_src"]` and `m` is `config["model"]`.  A `KeyError` raised while the source model is built is caught like a
missing entry. -/
def trainSep (W : SepWorld T Sh) (seed : ℕ) (algorithm nSrc : PyVal) (m : List (String × PyVal)) : Except Err (Sep T) := do
  let get (k : String) : Except Err PyVal := match dictGet m k with
    | some v => .ok v
    | Option.none => .error .keyError
  let nIter ← get "n_iter"
  let nFft ← get "n_fft"
  let hop ← get "hop_length"
  let nPower := (dictGet m "n_power_iter").getD .none
  let src ← (match dictGet m "source_model" with
    | Option.none => .ok .none
    | some (.dict d) => match W.inst seed d with
      | .ok w => .ok (.module d w)
      | .error .keyError => .ok .none
      | .error e => .error e
    | some _ => .error .typeError : Except Err (SrcArg T))
  let nTaps ← get "n_taps"
  let nDelay ← get "n_delay"
  let ref ← get "ref_mic"
  let dmc ← get "use_dmc"
  let args ← bindArgs [("n_fft", nFft), ("n_iter", nIter), ("hop_length", hop), ("n_taps", nTaps), ("n_delay", nDelay),
    ("n_src", nSrc), ("algo", algorithm), ("proj_back_mic", ref), ("use_dmc", dmc), ("n_power_iter", nPower)]
  buildSep W seed args src

/-- examples/export_model.py:27 and torchiva/loader.py:83: The names of the tensors in the state dictionary of a separator: `source_model.k`, `stft._window`, `separator.model.k`,
`separator.mask_model.k` and `separator.fake`. -/
inductive StateKey
  | source (k : String)
  | stftWindow
  | model (k : String)
  | mask (k : String)
  | fake

/-- The algorithm object derives from `DRBSSBase` (torchiva/base.py:97-100), which keeps its source model as `model`; the others
derive from `BFBase` (torchiva/base.py:155-161), which keeps it as `mask_model` and has the parameter `fake`. -/
def SepAlgo.isBss : SepAlgo → Bool
  | .auxivaIp2 | .tIss | .five => true
  | .mvdr | .mwf | .gev => false

/-- `separator.state_dict()`.  The modules are registered by torchiva/nn.py:65-81, torchiva/stft.py:63 and torchiva/base.py:97-100,
155-161. -/
def Sep.state (s : Sep T) : StateKey → Option T
  | .source k => s.weights k
  | .stftWindow => some s.window
  | .model k => if s.algo.isBss then s.weights k else none
  | .mask k => if s.algo.isBss then none else s.weights k
  | .fake => if s.algo.isBss then none else some s.fake

open Classical in
/-- `separator.load_state_dict(d)` (torchiva/loader.py:83), strict: names and shapes must agree.  The source model is visited twice,
the entries of the algorithm object are used last. -/
noncomputable def Sep.load (W : SepWorld T Sh) (s : Sep T) (d : StateKey → Option T) : Except Err (Sep T) :=
  if ∀ k, (d k).map W.shape = (s.state k).map W.shape then
    .ok { s with
      weights := fun k => if s.algo.isBss then d (.model k) else d (.mask k)
      window := (d .stftWindow).getD s.window
      fake := (d .fake).getD s.fake }
  else .error .runtimeError

/-- examples/export_model.py:25: `dict.pop`. -/
def dictPop {V : Type} (d : List (String × V)) (k : String) : List (String × V) := d.filter fun kv => kv.1 ≠ k

/-- examples/export_model.py:24-27: the exported configuration. -/
def exportConfig (m : List (String × PyVal)) : List (String × PyVal) :=
  match dictGet m "ref_mic" with
  | some v => dictSet (dictPop m "ref_mic") "proj_back_mic" v
  | none => m

/-- torchiva/loader.py:77-85: a separator from a stored configuration, stored tensors and keyword arguments.  A `source_model`
that is neither `None` nor a dictionary is not modelled. -/
noncomputable def reloadSep (W : SepWorld T Sh) (seed : ℕ) (cfg kwargs : List (String × PyVal)) (d : StateKey → Option T) :
    Except Err (Sep T) := do
  let c := dictUpdate cfg kwargs
  let args ← bindArgs c
  let src ← (match args "source_model" with
    | .none => .ok .none
    | .dict d => .ok (.dict d)
    | _ => .error .typeError : Except Err (SrcArg T))
  let s ← buildSep W seed args src
  s.load W d

end Torchiva
