import Verif.Model.Classes

/-! # Specification of options: constructor, call, default -/

namespace Torchiva.Spec

variable {M : Type}

/-- The value of option `k` that is in force in a call: that of the call unless it is absent or `None`, else that of the constructor, else the
default. -/
def inForce (ctor call : Kw M) (k : String) (default : Option (PyArg M)) : Option (PyArg M) :=
  match call.lookup k, ctor.lookup k with
  | some (some v), _ => some v
  | _, some v => v
  | _, none => default

/-- The same for options whose default is also selected by `None` in the constructor. -/
def inForceOr (ctor call : Kw M) (k : String) (default : PyArg M) : PyArg M :=
  match call.lookup k, ctor.lookup k with
  | some (some v), _ => v
  | _, some (some v) => v
  | _, _ => default

/-- Python's falsy values: `None`, `False`, zero and the empty string. -/
def Falsy (v : Option (PyArg M)) : Prop :=
  v = none ∨ v = some (.bool false) ∨ v = some (.int 0) ∨ v = some (.float 0) ∨ v = some (.str "")

/-- Only options of the given names. -/
def Only (kw : Kw M) (names : List String) : Prop := ∀ kv ∈ kw, kv.1 ∈ names

/-- The options of `BSSSeparator` besides `n_fft`. -/
def separatorOptions : List String :=
  ["n_iter", "hop_length", "window", "n_taps", "n_delay", "n_src", "algo", "source_model", "proj_back_mic", "use_dmc", "n_power_iter", "eps"]

/-- The algorithm is chosen by a member of the enumeration or by its name; without the option it is T-ISS. -/
def Chooses (kw : Kw M) (a : SepAlgo) (name : String) : Prop :=
  inForce kw [] "algo" (some (.algo .tIss)) = some (.algo a) ∨ inForce kw [] "algo" (some (.algo .tIss)) = some (.str name)

/-- What all algorithms of `BSSSeparator` share: known option names, the hop (`None`: a quarter of a frame), the window (default: `hann`) and the
model (default: the Laplace model). -/
structure Shares (lap : M) (known : String → Bool) (kw : Kw M) (hop : Option ℕ) (w : String) (m : M) : Prop where
  names : Only kw separatorOptions
  hop : inForce kw [] "hop_length" none = hop.map .int
  window : inForceOr kw [] "window" (.str "hann") = .str w
  known : known w = true
  model : inForceOr kw [] "source_model" (.obj lap) = .obj m

/-- Separation of a recording by a separator that decides on the number of signals: transform, separation, inverse transform, and the original
length (cut, or filled up with zeros). -/
noncomputable def separated {C n : ℕ} (nFft : ℕ) (hop : Option ℕ) (w : Fin nFft → ℝ)
    (sep : Sig C (nFft / 2 + 1) (stftFrames nFft (hopOf nFft hop) n) →
      Except Err (Σ s : ℕ, Sig s (nFft / 2 + 1) (stftFrames nFft (hopOf nFft hop) n)))
    (x : Fin C → Fin n → ℝ) : Except Err (Σ s : ℕ, Fin s → Fin n → ℝ) := do
  let X ← stftAll nFft hop w x
  let Y ← sep X
  let y ← istftAll nFft hop w Y.2
  .ok ⟨Y.1, fun k i => if h : i.val < istftLen nFft (hopOf nFft hop) (stftFrames nFft (hopOf nFft hop) n) then y k ⟨i, h⟩ else 0⟩

end Torchiva.Spec
