import Verif.Model.Five
import Verif.Model.Wpe
import Verif.Model.Beamformer
import Verif.Model.Models
import Verif.Model.Pipeline

/-!
# Model of the classes: constructors, keyword arguments of the calls and `BSSSeparator` from construction to result

torchiva/base.py, torchiva/t_iss.py, torchiva/auxiva_ip.py, torchiva/auxiva_ip2.py, torchiva/five.py, torchiva/wpe.py, torchiva/beamformer.py,
torchiva/nn.py.  `Verif.Model.Objects` models histories of calls with an abstract computation; here the computations are those of the other files,
and what is modelled is how a keyword argument gets from the constructor or the call to the computation.

Simplifications: all arguments are passed by keyword; integers are natural numbers; booleans are not accepted as numbers; a value of the wrong type raises `TypeError` at the start of the
call (the code raises it where the value is first used), and a model that is not callable raises `AssertionError` in all classes; `None` for the
reference microphone of FIVE and of the beamformers (an additional axis in the code, see C30) is reported as `TypeError`; one item of a batch.
-/

namespace Torchiva

/-- torchiva/base.py:72-82, torchiva/nn.py:46-61: a Python value passed as an argument (`None` is `Option.none`): integers, floats, booleans, strings,
members of `SepAlgo` and model objects. -/
inductive PyArg (M : Type)
  | int (n : ℕ)
  | float (x : ℝ)
  | bool (b : Bool)
  | str (s : String)
  | algo (a : SepAlgo)
  | obj (m : M)

/-- torchiva/nn.py:82-91: keyword arguments. -/
abbrev Kw (M : Type) := List (String × Option (PyArg M))

/-- torchiva/nn.py:46-61, torchiva/t_iss.py:386-396: what the library knows about the objects it is given: a model as source model, as mask model and
as weights of WPE, its `reset` method (the identity when there is none), the default model, and the eigensolver of torch. -/
structure World (M σ : Type) (S : ℕ) where
  source : M → ∀ F N : ℕ, SourceModel σ F N
  mask : M → ∀ F N : ℕ, (Fin F → Fin N → ℂ) → MaskOut S F N
  weights : M → ∀ C F N : ℕ, WpeModel σ C F N
  reset : M → σ → σ
  laplace : M
  laplace_source : ∀ F N s st (X : Sig s F N), source laplace F N s st X = (laplaceForward 1e-5 X, st)
  laplace_reset : ∀ st, reset laplace st = st
  solver : ∀ C : ℕ, Matrix (Fin C) (Fin C) ℂ → EigRes (Fin C)

variable {M σ : Type} {S C F N n : ℕ}

/-- torchiva/t_iss.py:386-396: Python's binding of keyword arguments to a signature with defaults; an unknown name raises `TypeError`. -/
def bindKw (sig kw : Kw M) : Except Err (Kw M) :=
  if kw.all (fun kv => sig.any fun s => s.1 = kv.1) then .ok (sig.map fun s => (s.1, (kw.lookup s.1).getD s.2)) else .error .typeError

/-- torchiva/base.py:85-102: the value of a bound parameter. -/
def arg (a : Kw M) (k : String) : Option (PyArg M) := (a.lookup k).join

/-- torchiva/t_iss.py:494 `range(n_iter)`, torchiva/t_iss.py:464 `n_taps + n_delay`: an integer. -/
def asNat : Option (PyArg M) → Except Err ℕ
  | some (.int n) => .ok n
  | _ => .error .typeError

/-- torchiva/t_iss.py:450, 531: an integer or `None`. -/
def asOptNat : Option (PyArg M) → Except Err (Option ℕ)
  | none => .ok none
  | v => (asNat v).map some

/-- torchiva/t_iss.py:496 `if use_dmc`, torchiva/beamformer.py:394 `if time_invariant`: the truth value; zero and the empty string are false, and
objects are taken to be true (the code could be given one with a `__len__`). -/
noncomputable def asFlag : Option (PyArg M) → Bool
  | none => false
  | some (.bool b) => b
  | some (.int n) => n ≠ 0
  | some (.float x) => x ≠ 0
  | some (.str s) => s ≠ ""
  | some _ => true

/-- torchiva/linalg.py:82-88: a float (or an integer used as one). -/
def asReal : Option (PyArg M) → Except Err ℝ
  | some (.float x) => .ok x
  | some (.int n) => .ok n
  | _ => .error .typeError

/-- torchiva/auxiva_ip2.py:173 `assert callable(model)`: the source model. -/
def asModel : Option (PyArg M) → Except Err M
  | some (.obj m) => .ok m
  | _ => .error .assertionError

/-! ## Constructors -/

/-- torchiva/base.py:72-82: signature of `DRBSSBase.__init__`. -/
noncomputable def drSig : Kw M :=
  [("n_iter", some (.int 10)), ("n_taps", some (.int 0)), ("n_delay", some (.int 0)), ("n_src", none), ("model", none),
    ("proj_back_mic", some (.int 0)), ("use_dmc", some (.bool false)), ("eps", some (.float 1e-5))]

/-- torchiva/base.py:72-104 `DRBSSBase.__init__`: the attributes (`bssInit`, with `eps_models["laplace"]` of torchiva/parameters.py:23-24) and the
assertion that the model is callable; the properties of lines 117-143 return them. -/
noncomputable def newBase (laplace : M) (kw : Kw M) : Except Err (String → Option (PyArg M)) := do
  let a ← bindKw drSig kw
  let attrs := (bssInit (R := Unit) (arg a) (.float 1e-5) (.obj laplace)).attrs
  let _ ← asModel (attrs "model")
  .ok attrs

/-- torchiva/t_iss.py:386-412 `T_ISS.__init__`. -/
noncomputable def newTiss (laplace : M) (kw : Kw M) : Except Err (String → Option (PyArg M)) := do
  let a ← bindKw [("n_iter", some (.int 10)), ("n_taps", some (.int 0)), ("n_delay", some (.int 0)), ("n_src", none), ("model", none),
    ("proj_back_mic", some (.int 0)), ("use_dmc", some (.bool false)), ("eps", none)] kw
  newBase laplace [("n_iter", arg a "n_iter"), ("n_taps", arg a "n_taps"), ("n_delay", arg a "n_delay"), ("n_src", arg a "n_src"),
    ("model", arg a "model"), ("proj_back_mic", arg a "proj_back_mic"), ("use_dmc", arg a "use_dmc"), ("eps", arg a "eps")]

/-- torchiva/auxiva_ip.py:185-200 `AuxIVA_IP.__init__`. -/
noncomputable def newIp (laplace : M) (kw : Kw M) : Except Err (String → Option (PyArg M)) := do
  let a ← bindKw [("n_iter", some (.int 10)), ("n_src", none), ("model", none), ("proj_back_mic", some (.int 0)), ("eps", none)] kw
  newBase laplace [("n_iter", arg a "n_iter"), ("n_src", arg a "n_src"), ("model", arg a "model"), ("proj_back_mic", arg a "proj_back_mic"),
    ("eps", arg a "eps")]

/-- torchiva/auxiva_ip2.py:135-152 `AuxIVA_IP2.__init__`. -/
noncomputable def newIp2 (laplace : M) (kw : Kw M) : Except Err (String → Option (PyArg M)) := do
  let a ← bindKw [("n_iter", some (.int 10)), ("model", none), ("proj_back_mic", some (.int 0)), ("eps", none)] kw
  newBase laplace [("n_iter", arg a "n_iter"), ("model", arg a "model"), ("proj_back_mic", arg a "proj_back_mic"), ("eps", arg a "eps")]

/-- torchiva/five.py:129-144 `FIVE.__init__`. -/
noncomputable def newFive (laplace : M) (kw : Kw M) : Except Err (String → Option (PyArg M)) := do
  let a ← bindKw [("n_iter", some (.int 10)), ("model", none), ("proj_back_mic", some (.int 0)), ("eps", none), ("n_power_iter", none)] kw
  let attrs ← newBase laplace [("n_iter", arg a "n_iter"), ("model", arg a "model"), ("proj_back_mic", arg a "proj_back_mic"), ("eps", arg a "eps")]
  .ok fun k => if k = "n_power_iter" then arg a "n_power_iter" else attrs k

/-- torchiva/wpe.py:118-134 `WPE.__init__`: `model` is not passed on but assigned afterwards, so `None` stays `None`. -/
noncomputable def newWpe (laplace : M) (kw : Kw M) : Except Err (String → Option (PyArg M)) := do
  let a ← bindKw [("n_iter", some (.int 3)), ("n_delay", some (.int 3)), ("n_taps", some (.int 5)), ("model", none),
    ("eps", some (.float 1e-5))] kw
  let attrs ← newBase laplace [("n_iter", arg a "n_iter"), ("n_taps", arg a "n_taps"), ("n_delay", arg a "n_delay"), ("eps", arg a "eps")]
  .ok fun k => if k = "model" then arg a "model" else attrs k

/-- torchiva/base.py:146-176 `BFBase.__init__`: the attributes are the arguments; `eps=None` stays `None`. -/
noncomputable def newBf (mask : Option (PyArg M)) (kw : Kw M) : Except Err (String → Option (PyArg M)) := do
  let a ← bindKw [("ref_mic", some (.int 0)), ("eps", some (.float 1e-5))] kw
  .ok fun k => if k = "mask_model" then mask else arg a k

/-- torchiva/beamformer.py:218-233 `MVDRBeamformer.__init__`. -/
noncomputable def newMvdr (mask : Option (PyArg M)) (kw : Kw M) : Except Err (String → Option (PyArg M)) := do
  let a ← bindKw [("ref_mic", some (.int 0)), ("eps", some (.float 1e-5)), ("mvdr_type", some (.str "rtf")), ("n_power_iter", none)] kw
  let attrs ← newBf mask [("ref_mic", arg a "ref_mic"), ("eps", arg a "eps")]
  .ok fun k => if k = "mvdr_type" then arg a "mvdr_type" else if k = "n_power_iter" then arg a "n_power_iter" else attrs k

/-- torchiva/beamformer.py:352-365 `MWFBeamformer.__init__`. -/
noncomputable def newMwf (mask : Option (PyArg M)) (kw : Kw M) : Except Err (String → Option (PyArg M)) := do
  let a ← bindKw [("ref_mic", some (.int 0)), ("eps", some (.float 1e-5)), ("time_invariant", some (.bool true))] kw
  let attrs ← newBf mask [("ref_mic", arg a "ref_mic"), ("eps", arg a "eps")]
  .ok fun k => if k = "time_invariant" then arg a "time_invariant" else attrs k

/-- torchiva/beamformer.py:455-466 `GEVBeamformer.__init__`. -/
noncomputable def newGev (mask : Option (PyArg M)) (kw : Kw M) : Except Err (String → Option (PyArg M)) := do
  let a ← bindKw [("ref_mic", some (.int 0)), ("eps", some (.float 1e-5))] kw
  newBf mask [("ref_mic", arg a "ref_mic"), ("eps", arg a "eps")]

/-! ## Calls -/

/-- torchiva/t_iss.py:415-425: all keyword arguments of a `forward` default to `None`. -/
def noneSig (keys : List String) : Kw M := keys.map fun k => (k, none)

/-- torchiva/t_iss.py:414-539 `T_ISS.forward`: arguments, `_set_params`, unpacking, computation. -/
noncomputable def tissCall (W : World M σ S) (attrs : String → Option (PyArg M)) (heap : M → σ) (kw : Kw M) (X : Sig C F N) :
    Except Err (Σ s : ℕ, TissOut σ s C F N) := do
  let k ← bindKw (noneSig ["n_iter", "n_taps", "n_delay", "n_src", "model", "proj_back_mic", "use_dmc", "eps"]) kw
  match setParams attrs [("n_iter", arg k "n_iter"), ("n_taps", arg k "n_taps"), ("n_delay", arg k "n_delay"), ("n_src", arg k "n_src"),
    ("model", arg k "model"), ("proj_back_mic", arg k "proj_back_mic"), ("use_dmc", arg k "use_dmc"), ("eps", arg k "eps")] with
  | [nIter, nTaps, nDelay, nSrc, model, projBackMic, useDmc, eps] => do
    let m ← asModel model
    let i ← asNat nIter
    let t ← asNat nTaps
    let d ← asNat nDelay
    let s ← asOptNat nSrc
    let r ← asOptNat projBackMic
    let e ← asReal eps
    tissForward ⟨i, t, d, r, asFlag useDmc, e⟩ s X (W.source m F N) (W.reset m) (heap m)
  | _ => .error .valueError

/-- torchiva/auxiva_ip.py:202-306 `AuxIVA_IP.forward` (without `verbose`, see C85). -/
noncomputable def ipCall (W : World M σ S) (attrs : String → Option (PyArg M)) (heap : M → σ) (kw : Kw M) (X : Sig C F N) :
    Except Err (Σ s : ℕ, IpOut σ s F N) := do
  let k ← bindKw (noneSig ["n_iter", "n_src", "model", "proj_back_mic", "eps"]) kw
  match setParams attrs [("n_iter", arg k "n_iter"), ("n_src", arg k "n_src"), ("model", arg k "model"),
    ("proj_back_mic", arg k "proj_back_mic"), ("eps", arg k "eps")] with
  | [nIter, nSrc, model, projBackMic, eps] => do
    let m ← asModel model
    let i ← asNat nIter
    let s ← asOptNat nSrc
    let r ← asOptNat projBackMic
    let e ← asReal eps
    auxivaForward ⟨i, r, e⟩ s X (W.source m F N) (W.reset m) (heap m)
  | _ => .error .valueError

/-- torchiva/auxiva_ip2.py:154-213 `AuxIVA_IP2.forward`. -/
noncomputable def ip2Call (W : World M σ S) (attrs : String → Option (PyArg M)) (heap : M → σ) (kw : Kw M) (X : Sig C F N) :
    Except Err (Sig 2 F N) := do
  let k ← bindKw (noneSig ["n_iter", "model", "proj_back_mic", "eps"]) kw
  match setParams attrs [("n_iter", arg k "n_iter"), ("model", arg k "model"), ("proj_back_mic", arg k "proj_back_mic"),
    ("eps", arg k "eps")] with
  | [nIter, model, projBackMic, eps] => do
    let m ← asModel model
    let i ← asNat nIter
    let r ← asOptNat projBackMic
    let e ← asReal eps
    auxiva2Forward i (r.map fun r => (r : ℤ)) e X (W.source m F N) (W.reset m) (heap m)
  | _ => .error .valueError

/-- torchiva/five.py:146-248 `FIVE.forward`; a reference microphone that does not exist raises `IndexError` (line 196).  `eps` is not used. -/
noncomputable def fiveCall (W : World M σ S) (attrs : String → Option (PyArg M)) (heap : M → σ) (kw : Kw M) (X : Sig C (F + 1) N) :
    Except Err (Sig 1 (F + 1) N) := do
  let k ← bindKw (noneSig ["n_iter", "model", "proj_back_mic", "eps", "n_power_iter"]) kw
  match setParams attrs [("n_iter", arg k "n_iter"), ("model", arg k "model"), ("proj_back_mic", arg k "proj_back_mic"),
    ("eps", arg k "eps"), ("n_power_iter", arg k "n_power_iter")] with
  | [nIter, model, projBackMic, _eps, nPower] => do
    let m ← asModel model
    let i ← asNat nIter
    let r ← asNat projBackMic
    let p ← asOptNat nPower
    if h : r < C then
      haveI : NeZero C := ⟨by omega⟩
      fiveForward (W.solver C) i ⟨r, h⟩ p X (W.source m F N) (W.reset m) (heap m)
    else .error .indexError
  | _ => .error .valueError

/-- torchiva/wpe.py:136-168 `WPE.forward`; the model is not reset. -/
noncomputable def wpeCall (W : World M σ S) (attrs : String → Option (PyArg M)) (heap : M → σ) (kw : Kw M) (X : Sig C F N) :
    Except Err (Sig C F N) := do
  let k ← bindKw (noneSig ["n_iter", "n_delay", "n_taps", "model", "eps"]) kw
  match setParams attrs [("n_iter", arg k "n_iter"), ("n_taps", arg k "n_taps"), ("n_delay", arg k "n_delay"), ("model", arg k "model"),
    ("eps", arg k "eps")] with
  | [nIter, nTaps, nDelay, model, eps] => do
    let i ← asNat nIter
    let t ← asNat nTaps
    let d ← asNat nDelay
    let e ← asReal eps
    match model with
    | none => wpeForward i t d e X (none : Option (WpeModel Unit C F N)) ()
    | v => do
      let m ← asModel v
      wpeForward i t d e X (some (W.weights m C F N)) (heap m)
  | _ => .error .valueError

/-- torchiva/beamformer.py:235-306 `MVDRBeamformer.forward`.  `eps` is used by the type `rtf` only (with `scm` and three masks as well, where
`None` would raise). -/
noncomputable def mvdrCall (W : World M σ S) (attrs : String → Option (PyArg M)) (kw : Kw M) (X : Sig C F N) : Except Err (Sig S F N) := do
  let k ← bindKw (noneSig ["mask_model", "ref_mic", "eps", "mvdr_type", "n_power_iter"]) kw
  match setParams attrs [("mask_model", arg k "mask_model"), ("ref_mic", arg k "ref_mic"), ("eps", arg k "eps"),
    ("mvdr_type", arg k "mvdr_type"), ("n_power_iter", arg k "n_power_iter")] with
  | [mask, refMic, eps, mvdrType, nPower] => do
    let m ← (match mask with
      | some (.obj m) => .ok m
      | _ => .error .typeError : Except Err M)
    let r ← asNat refMic
    let ty : String := match mvdrType with
      | some (.str s) => s
      | _ => ""
    let e ← if ty = "scm" then .ok ((asReal eps).toOption.getD 0) else asReal eps
    let p ← asOptNat nPower
    if h : r < C then
      haveI : NeZero C := ⟨by omega⟩
      mvdrForward (W.solver C) (W.mask m F N) ⟨r, h⟩ e ty p X
    else .error .indexError
  | _ => .error .valueError

/-- torchiva/beamformer.py:367-418 `MWFBeamformer.forward`; `eps` does not reach the computation (see C38), so `None` is accepted. -/
noncomputable def mwfCall (W : World M σ S) (attrs : String → Option (PyArg M)) (kw : Kw M) (X : Sig C F N) : Except Err (Sig S F N) := do
  let k ← bindKw (noneSig ["mask_model", "ref_mic", "eps", "time_invariant"]) kw
  match setParams attrs [("mask_model", arg k "mask_model"), ("ref_mic", arg k "ref_mic"), ("eps", arg k "eps"),
    ("time_invariant", arg k "time_invariant")] with
  | [mask, refMic, eps, timeInvariant] => do
    let m ← (match mask with
      | some (.obj m) => .ok m
      | _ => .error .typeError : Except Err M)
    let r ← asNat refMic
    if h : r < C then mwfForward (W.mask m F N) ⟨r, h⟩ ((asReal eps).toOption.getD 0) (asFlag timeInvariant) X
    else .error .indexError
  | _ => .error .valueError

/-- torchiva/beamformer.py:468-500 `GEVBeamformer.forward`; `eps` is not used. -/
noncomputable def gevCall (W : World M σ S) (attrs : String → Option (PyArg M)) (kw : Kw M) (X : Sig C F N) : Except Err (Sig S F N) := do
  let k ← bindKw (noneSig ["mask_model", "ref_mic", "eps"]) kw
  match setParams attrs [("mask_model", arg k "mask_model"), ("ref_mic", arg k "ref_mic"), ("eps", arg k "eps")] with
  | [mask, refMic, _eps] => do
    let m ← (match mask with
      | some (.obj m) => .ok m
      | _ => .error .typeError : Except Err M)
    let r ← asNat refMic
    if h : r < C then
      haveI : NeZero C := ⟨by omega⟩
      gevForward (W.solver C) (W.mask m F N) ⟨r, h⟩ X
    else .error .indexError
  | _ => .error .valueError

/-! ## `BSSSeparator` -/

/-- torchiva/nn.py:82-136: the separator object: its class and its attributes. -/
inductive SepClass (M : Type)
  | tIss (attrs : String → Option (PyArg M))
  | ip2 (attrs : String → Option (PyArg M))
  | five (attrs : String → Option (PyArg M))
  | mvdr (attrs : String → Option (PyArg M))
  | mwf (attrs : String → Option (PyArg M))
  | gev (attrs : String → Option (PyArg M))

/-- torchiva/nn.py:82-133: the constructor calls, on the arguments that `sepInit` (Verif.Model.Objects) selects. -/
noncomputable def buildSeparator (laplace : M) : Separator (PyArg M) → Except Err (SepClass M)
  | .tIss nIter nTaps nDelay nSrc model projBackMic useDmc eps =>
    (newTiss laplace [("n_iter", nIter), ("n_taps", nTaps), ("n_delay", nDelay), ("n_src", nSrc), ("model", some model),
      ("proj_back_mic", projBackMic), ("use_dmc", useDmc), ("eps", eps)]).map .tIss
  | .auxIvaIp2 nIter model projBackMic eps =>
    (newIp2 laplace [("n_iter", nIter), ("model", some model), ("proj_back_mic", projBackMic), ("eps", eps)]).map .ip2
  | .five nIter model projBackMic eps nPowerIter =>
    (newFive laplace [("n_iter", nIter), ("model", some model), ("proj_back_mic", projBackMic), ("eps", eps),
      ("n_power_iter", nPowerIter)]).map .five
  | .mvdr model refMic eps mvdrType nPowerIter =>
    (newMvdr (some model) [("ref_mic", refMic), ("eps", eps), ("mvdr_type", some (.str mvdrType)), ("n_power_iter", nPowerIter)]).map .mvdr
  | .mwf model refMic eps timeInvariant =>
    (newMwf (some model) [("ref_mic", refMic), ("eps", eps), ("time_invariant", some (.bool timeInvariant))]).map .mwf
  | .gev model refMic eps => (newGev (some model) [("ref_mic", refMic), ("eps", eps)]).map .gev

/-- torchiva/nn.py:46-136: a `BSSSeparator` object. -/
structure SepObj (M : Type) where
  nFft : ℕ
  hop : Option ℕ
  window : String
  model : M
  separator : SepClass M

/-- torchiva/nn.py:73, 143-144: the value given as `algo`. -/
def algoArg : Option (PyArg M) → AlgoArg
  | some (.algo m) => .member m
  | some (.str s) => .str s
  | _ => .other

/-- torchiva/nn.py:146: `n_src is not None and n_src > 1`. -/
def severalSources : Option (PyArg M) → Bool
  | some (.int n) => 1 < n
  | _ => false

/-- torchiva/nn.py:79, torchiva/stft.py:47-54: the value given as `window`: nothing, a name, or a window of the user. -/
def windowArg (nFft : ℕ) : Option (PyArg M) → WindowArg
  | none => .none
  | some (.str s) => .name s
  | some _ => .custom nFft

/-- torchiva/nn.py:46-136 `BSSSeparator.__init__`.  `known`: the window names of scipy.  `source_model` as a dictionary is resolved before (see
Verif.Model.Export). -/
noncomputable def sepNew (laplace : M) (known : String → Bool) (nFft : ℕ) (kw : Kw M) : Except Err (SepObj M) := do
  let a ← bindKw [("n_iter", some (.int 20)), ("hop_length", none), ("window", none), ("n_taps", some (.int 0)), ("n_delay", some (.int 0)),
    ("n_src", none), ("algo", some (.algo .tIss)), ("source_model", none), ("proj_back_mic", some (.int 0)), ("use_dmc", some (.bool false)),
    ("n_power_iter", none), ("eps", some (.float 1e-5))] kw
  let model : PyArg M := (arg a "source_model").getD (.obj laplace)
  let r ← sepInit (algoArg (arg a "algo")) ⟨arg a "n_iter", arg a "n_taps", arg a "n_delay", arg a "n_src", model, arg a "proj_back_mic", arg a "use_dmc",
    arg a "n_power_iter", arg a "eps"⟩ (severalSources (arg a "n_src"))
  let window ← stftInit known (windowArg nFft (arg a "window"))
  let hop ← asOptNat (arg a "hop_length")
  let m ← asModel (some model)
  let c ← buildSeparator laplace r.1
  .ok ⟨nFft, hop, window, m, c⟩

/-- torchiva/nn.py:165 `self.separator(X)`: no arguments but the signal. -/
noncomputable def runSeparator (W : World M σ S) (heap : M → σ) (X : Sig C (F + 1) N) : SepClass M → Except Err (Σ s : ℕ, Sig s (F + 1) N)
  | .tIss attrs => (tissCall W attrs heap [] X).map fun o => ⟨o.1, o.2.Y⟩
  | .ip2 attrs => (ip2Call W attrs heap [] X).map fun Y => ⟨2, Y⟩
  | .five attrs => (fiveCall W attrs heap [] X).map fun Y => ⟨1, Y⟩
  | .mvdr attrs => (mvdrCall W attrs [] X).map fun Y => ⟨S, Y⟩
  | .mwf attrs => (mwfCall W attrs [] X).map fun Y => ⟨S, Y⟩
  | .gev attrs => (gevCall W attrs [] X).map fun Y => ⟨S, Y⟩

open Classical in
/-- torchiva/nn.py:153-178 `BSSSeparator.forward` on one recording of `C` channels and `n` samples: the model is reset, transformed, separated,
transformed back and cut or padded.  `windowOf`: the windows of scipy. -/
noncomputable def sepRun (W : World M σ S) (windowOf : String → ∀ k : ℕ, Fin k → ℝ) (obj : SepObj M) (heap : M → σ) (reset : Bool)
    (x : Fin C → Fin n → ℝ) : Except Err (Σ s : ℕ, Fin s → Fin n → ℝ) := do
  let heap' : M → σ := if reset then fun v => if v = obj.model then W.reset v (heap v) else heap v else heap
  let w := windowOf obj.window obj.nFft
  let X ← stftAll obj.nFft obj.hop w x
  let Y ← runSeparator W heap' X obj.separator
  let y ← istftAll obj.nFft obj.hop w Y.2
  .ok ⟨Y.1, fun k i => (fixLength (List.ofFn (y k)) n).getD i 0⟩

end Torchiva
