import Verif.Model.Torch
import Mathlib.Logic.Equiv.Basic

/-!
# Model of torchiva/utils.py and torchiva/dtypes.py
-/

namespace Torchiva

/-- torchiva/utils.py:51, 54: Python's `l[:num]` on a list of length `n`: number of elements kept. -/
def pyTake (n : ℕ) (num : ℤ) : ℕ := if num < 0 then n - num.natAbs else min num.toNat n

/-- torchiva/utils.py:50: Contract of `torch.argsort(..., descending=True)`: a permutation that sorts in decreasing order; the
order of ties is unspecified, so the function is a parameter. -/
def ArgsortDescContract (C : ℕ) (argsort : (Fin C → ℝ) → Equiv.Perm (Fin C)) : Prop :=
  ∀ v : Fin C → ℝ, Antitone fun i => v (argsort v i)

/-- torchiva/utils.py:30-61 `select_most_energetic` with the default `dim=-2`, `dim_reduc=-1`, one
batch item: rows of `C` signals with `N` samples.  After the broadcast of line 55 and the
transposition of line 58 `index[i, n]` is the same for all `n`. -/
noncomputable def selectMostEnergetic {C N : ℕ} (argsort : (Fin C → ℝ) → Equiv.Perm (Fin C))
    (x : Fin C → Fin N → ℂ) (num : ℤ) : List (Fin N → ℂ) :=
  let power : Fin C → ℝ := fun c => (∑ n, ‖x c n‖ ^ 2) / N
  let index : List (Fin C) := (List.ofFn (argsort power)).take (pyTake C num)
  index.map fun i n => x i n

/-! ## import_name -/

/-- torchiva/utils.py:67-81: A Python environment: which dotted paths are importable once their parents are imported, and the
attributes a module has after its import.  Objects are modules or other values. -/
inductive PyObj
  | module (path : List String)
  | value (id : ℕ)
  deriving DecidableEq

/-- torchiva/utils.py:67-81: what can be imported. -/
structure PyEnv where
  exists_ : List String → Bool
  attr : List String → String → Option PyObj

/-- torchiva/utils.py:72, 77: Importing `a.b.c` imports `a`, then `a.b`, then `a.b.c`. -/
def PyEnv.importable (env : PyEnv) (path : List String) : Bool :=
  path ≠ [] ∧ ∀ k < path.length, env.exists_ (path.take (k + 1))

/-- torchiva/utils.py:77-79: `hasattr`/`getattr` on a module after `__import__(..., fromlist=(target,))`: `fromlist` makes
Python import the submodule `target` when the module has no such attribute, ignoring its absence. -/
def PyEnv.fromlistAttr (env : PyEnv) (path : List String) (target : String) : Option PyObj :=
  match env.attr path target with
  | some o => some o
  | none => if env.exists_ (path ++ [target]) then some (.module (path ++ [target])) else none

/-- torchiva/utils.py:67-81 `import_name`.  The name is given by its parts (line 69); a missing module
raises `ModuleNotFoundError`, a subclass of `ImportError`.  Errors raised by the imported modules' own
code are not modelled, nor are empty parts. -/
def importName (env : PyEnv) (parts : List String) : Except Err PyObj :=
  if parts.length = 1 then
    if env.importable parts then .ok (.module parts) else .error .importError
  else
    let moduleName := parts.dropLast
    let target := parts.getLastD ""
    if env.importable moduleName then
      match env.fromlistAttr moduleName target with
      | some o => .ok o
      | none => .error .importError
    else .error .importError

/-- torchiva/utils.py:84-105 `instantiate`: `call` is Python's call operation. -/
def instantiate {V : Type} (env : PyEnv)
    (call : PyObj → List V → List (String × V) → Except Err V)
    (parts : List String) (args : Option (List V)) (kwargs : Option (List (String × V))) :
    Except Err V := do
  let args := args.getD []
  let kwargs := kwargs.getD []
  let obj ← importName env parts
  call obj args kwargs

/-! ## dtypes -/

/-- torchiva/dtypes.py:31, 39-44, 56-61: Torch dtypes; `other` stands for every dtype not named here (integers, bool, quantised). -/
inductive Dtype
  | float16 | bfloat16 | float32 | float64 | complex32 | complex64 | complex128 | other (k : ℕ)
  deriving DecidableEq

/-- torchiva/dtypes.py:28-29, 36-37, 53-54: The argument is a dtype or a tensor, of which only the dtype matters. -/
inductive DtypeArg
  | dtype (t : Dtype)
  | tensor (t : Dtype)

/-- torchiva/dtypes.py:28-29, 36-37, 53-54: `if isinstance(t, Tensor): t = t.dtype`. -/
def DtypeArg.get : DtypeArg → Dtype
  | .dtype t => t
  | .tensor t => t

/-- torchiva/dtypes.py:26-31 `is_complex_type`. -/
def isComplexType (a : DtypeArg) : Bool := a.get ∈ [Dtype.complex64, Dtype.complex128]

/-- torchiva/dtypes.py:46-48, 63-65: Dictionary lookup guarded by `assert t in _d.keys()`. -/
def assertLookup (d : List (Dtype × Dtype)) (t : Dtype) : Except Err Dtype :=
  match d.lookup t with
  | some r => .ok r
  | none => .error .assertionError

/-- torchiva/dtypes.py:34-48 `dtype_f2cpx`. -/
def dtypeF2cpx (a : DtypeArg) : Except Err Dtype :=
  assertLookup [(.float32, .complex64), (.float64, .complex128), (.complex64, .complex64),
    (.complex128, .complex128)] a.get

/-- torchiva/dtypes.py:51-65 `dtype_cpx2f`. -/
def dtypeCpx2f (a : DtypeArg) : Except Err Dtype :=
  assertLookup [(.complex64, .float32), (.complex128, .float64), (.float32, .float32),
    (.float64, .float64)] a.get

end Torchiva
