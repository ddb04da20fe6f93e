import Verif.Model.Torch

/-!
# Model of the stateful objects: torchiva/base.py, torchiva/nn.py

The numerical content of a `forward` is an arbitrary function `body` here (it is modelled in the
other files); this file models which parameters it receives and what survives between calls.
-/

namespace Torchiva

/-- torchiva/base.py:106-111, 163-168 `_set_params(**kwargs)`: a value that is `None` is replaced by the
attribute of that name (which may be `None` too). -/
def setParams {V : Type} (attrs : String → Option V) (kwargs : List (String × Option V)) :
    List (Option V) :=
  kwargs.map fun kv => kv.2.or (attrs kv.1)

/-- torchiva/base.py:113-115: The world seen by the separation objects: source models are identified by a value and have a
state; `hasReset` says whether the model has a `reset` method, which installs the state `fresh`. -/
structure Models (V σ : Type) where
  hasReset : V → Bool
  fresh : V → σ

/-- torchiva/base.py:113-115 `_reset(model)`. -/
def resetModel {V σ : Type} [DecidableEq V] (M : Models V σ) (heap : V → σ) (m : V) : V → σ :=
  if M.hasReset m then fun v => if v = m then M.fresh m else heap v else heap

/-- A `DRBSSBase` object: constructor attributes and the tensors kept from the last call
(torchiva/t_iss.py:536-537 `self.W`, `self.J`). -/
structure BssObj (V R : Type) where
  attrs : String → Option V
  last : Option R

/-- torchiva/base.py:85-101: attributes set by the constructor, `eps=None` and `model=None` being
replaced by defaults. -/
def bssInit {V R : Type} (args : String → Option V) (defaultEps laplace : V) : BssObj V R where
  attrs := fun k =>
    if k = "eps" then some ((args "eps").getD defaultEps)
    else if k = "model" then some ((args "model").getD laplace)
    else args k
  last := none

/-- torchiva/base.py:106-111 and torchiva/t_iss.py:414-539: What an algorithm does with its parameters: the checks before the model is reset and the run.
The run returns the final state of the model even if it raises. -/
structure Algo (V σ X Y R : Type) where
  /-- keyword names, in the order of the call to `_set_params` -/
  keys : List String
  check : List (Option V) → X → Except Err Unit
  body : List (Option V) → σ → X → Except Err (Y × R) × σ

variable {V σ X Y R : Type} [DecidableEq V]

/-- The `forward` of `T_ISS` (t_iss.py:414-459, 536-537), `AuxIVA_IP` (auxiva_ip.py:202-228), `AuxIVA_IP2`
(auxiva_ip2.py:154-176) and `FIVE` (five.py:146-170): resolve parameters, check, reset the model,
run.  `override` are the keyword arguments of the call. -/
def bssForward (M : Models V σ) (A : Algo V σ X Y R) (obj : BssObj V R) (heap : V → σ)
    (override : String → Option V) (x : X) : Except Err Y × BssObj V R × (V → σ) :=
  let params := setParams obj.attrs (A.keys.map fun k => (k, override k))
  let model : Option V := (override "model").or (obj.attrs "model")
  match A.check params x, model with
  | .error e, _ => (.error e, obj, heap)
  | .ok _, none => (.error .typeError, obj, heap)   -- `model` is never None, see `bssInit`
  | .ok _, some m =>
    let heap1 := resetModel M heap m
    let (r, s) := A.body params (heap1 m) x
    let heap2 := fun v => if v = m then s else heap1 v
    match r with
    | .error e => (.error e, obj, heap2)
    | .ok (y, w) => (.ok y, { obj with last := some w }, heap2)

/-- torchiva/t_iss.py:414-539: A sequence of calls on one object. -/
def bssHistory (M : Models V σ) (A : Algo V σ X Y R) (obj : BssObj V R) (heap : V → σ) :
    List ((String → Option V) × X) → List (Except Err Y) × BssObj V R × (V → σ)
  | [] => ([], obj, heap)
  | (o, x) :: cs =>
    let (y, obj', heap') := bssForward M A obj heap o x
    let (ys, fin) := bssHistory M A obj' heap' cs
    (y :: ys, fin)

/-! ## BSSSeparator -/

/-- torchiva/nn.py:36-42 `SepAlgo`. -/
inductive SepAlgo
  | auxivaIp2 | tIss | five | mvdr | mwf | gev
  deriving DecidableEq

/-- torchiva/nn.py:36-42: the enum values. -/
def SepAlgo.value : SepAlgo → String
  | .auxivaIp2 => "ip2"
  | .tIss => "tiss"
  | .five => "five"
  | .mvdr => "mvdr"
  | .mwf => "mwf"
  | .gev => "gev"

/-- torchiva/nn.py:36-42: The members in order of definition. -/
def SepAlgo.all : List SepAlgo := [.auxivaIp2, .tIss, .five, .mvdr, .mwf, .gev]

/-- torchiva/nn.py:55, 143-144: The `algo` argument: a member, a string or anything else (`None`, a number, ...). -/
inductive AlgoArg
  | member (a : SepAlgo)
  | str (s : String)
  | other

/-- `SepAlgo(val)` (torchiva/nn.py:144): lookup by member or by value. -/
def SepAlgo.lookup : AlgoArg → Except Err SepAlgo
  | .member a => .ok a
  | .str s => match SepAlgo.all.find? (fun a => a.value = s) with
    | some a => .ok a
    | none => .error .valueError
  | .other => .error .valueError

/-- The arguments of `BSSSeparator` that are handed to the algorithm (torchiva/nn.py:46-61). -/
structure SepArgs (V : Type) where
  nIter : Option V
  nTaps : Option V
  nDelay : Option V
  nSrc : Option V
  sourceModel : V
  projBackMic : Option V
  useDmc : Option V
  nPowerIter : Option V
  eps : Option V

/-- torchiva/nn.py:82-136: The algorithm object that was built and the constructor arguments it received. -/
inductive Separator (V : Type)
  | tIss (nIter nTaps nDelay nSrc : Option V) (model : V) (projBackMic useDmc eps : Option V)
  | auxIvaIp2 (nIter : Option V) (model : V) (projBackMic eps : Option V)
  | five (nIter : Option V) (model : V) (projBackMic eps nPowerIter : Option V)
  | mvdr (model : V) (refMic eps : Option V) (mvdrType : String) (nPowerIter : Option V)
  | mwf (model : V) (refMic eps : Option V) (timeInvariant : Bool)
  | gev (model : V) (refMic eps : Option V)

/-- torchiva/nn.py:72-151 the part of the constructor that selects the algorithm.  Returns the separator and
whether the warning of lines 146-151 is issued (`nSrcGtOne`: `n_src is not None and n_src > 1`). -/
def sepInit (algo : AlgoArg) (a : SepArgs V) (nSrcGtOne : Bool) : Except Err (Separator V × Bool) := do
  let m ← SepAlgo.lookup algo
  -- `val == SepAlgo.FIVE` compares the argument itself, a string is never equal to a member
  let warn := match algo with
    | .member v => v = .five ∧ nSrcGtOne
    | _ => False
  let sel := m.value
  if sel = "tiss" then
    .ok (.tIss a.nIter a.nTaps a.nDelay a.nSrc a.sourceModel a.projBackMic a.useDmc a.eps, warn)
  else if sel = "ip2" then .ok (.auxIvaIp2 a.nIter a.sourceModel a.projBackMic a.eps, warn)
  else if sel = "five" then
    .ok (.five a.nIter a.sourceModel a.projBackMic a.eps a.nPowerIter, warn)
  else if sel = "mvdr" then .ok (.mvdr a.sourceModel a.projBackMic a.eps "rtf" a.nPowerIter, warn)
  else if sel = "mwf" then .ok (.mwf a.sourceModel a.projBackMic a.eps true, warn)
  else if sel = "gev" then .ok (.gev a.sourceModel a.projBackMic a.eps, warn)
  else .error .notImplementedError

/-- torchiva/nn.py:170-178: zero-pad or truncate one channel to the input length. -/
def fixLength (y : List ℝ) (n : ℕ) : List ℝ :=
  if y.length < n then y ++ List.replicate (n - y.length) 0
  else if y.length > n then y.take n
  else y

/-- torchiva/nn.py:153-178 `BSSSeparator.forward`.  The state is that of `source_model`; `stft` and
`istft` may raise, `sep` is the separator's computation with its model in a given state.  `resets`:
the separator's own `forward` resets the model first (`T_ISS`, `AuxIVA_IP2`, `FIVE`; not the
beamformers, which have no `_reset`).  A signal is a list of channels. -/
def sepForward (hasReset : Bool) (fresh : σ) (resets : Bool)
    (stft : List (List ℝ) → Except Err X) (sep : σ → X → Except Err Y × σ)
    (istft : Y → Except Err (List (List ℝ))) (st : σ) (x : List (List ℝ)) (nSamples : ℕ)
    (reset : Bool) : Except Err (List (List ℝ)) × σ :=
  let st1 := if hasReset ∧ reset then fresh else st
  match stft x with
  | .error e => (.error e, st1)
  | .ok X =>
    let st2 := if resets ∧ hasReset then fresh else st1
    let (r, st3) := sep st2 X
    match r with
    | .error e => (.error e, st3)
    | .ok Y => match istft Y with
      | .error e => (.error e, st3)
      | .ok y => (.ok (y.map fun c => fixLength c nSamples), st3)

/-- torchiva/nn.py:153-178: A sequence of `BSSSeparator` calls: (signal, number of samples, `reset` flag). -/
def sepHistory (hasReset : Bool) (fresh : σ) (resets : Bool)
    (stft : List (List ℝ) → Except Err X) (sep : σ → X → Except Err Y × σ)
    (istft : Y → Except Err (List (List ℝ))) (st : σ) :
    List (List (List ℝ) × ℕ × Bool) → List (Except Err (List (List ℝ))) × σ
  | [] => ([], st)
  | (x, n, r) :: cs =>
    let (y, st') := sepForward hasReset fresh resets stft sep istft st x n r
    let (ys, fin) := sepHistory hasReset fresh resets stft sep istft st' cs
    (y :: ys, fin)

end Torchiva
