import Verif.Model.TIss
import Mathlib.Analysis.SpecialFunctions.Pow.Real

/-!
# Model of torchiva/scaling.py

Complex STFT input.  `minimum_distortion` keeps an explicit batch index because its stopping rule looks at the whole
batch; the other functions work item by item.
-/

namespace Torchiva

open Matrix

section scaling
variable {B C F N : ℕ}

/-- torchiva/scaling.py:81-101 `minimum_distortion_l2`, one batch item. -/
noncomputable def minDistL2 (Y : Sig C F N) (ref : Fin F → Fin N → ℂ) : Sig C F N := fun c f n =>
  let num : ℂ := (∑ t, star (ref f t) * Y c f t) / (N : ℂ)
  let denom : ℝ := (∑ t, magSq (Y c f t)) / (N : ℝ)
  let k : ℂ := num / ((clampMin denom 1e-7 : ℝ) : ℂ)
  Y c f n * star k

/-- torchiva/scaling.py:104-123 `minimum_distortion_l2_phase`, one batch item. -/
noncomputable def minDistL2Phase (Y : Sig C F N) (ref : Fin F → Fin N → ℂ) : Sig C F N := fun c f n =>
  let num : ℂ := (∑ t, star (ref f t) * Y c f t) / (N : ℂ)
  let k : ℂ := num / ((clampMin ‖num‖ 1e-5 : ℝ) : ℂ)
  Y c f n * star k

/-- torchiva/scaling.py:171, 198: Scale factors held by `minimum_distortion`: (batch, n_freq, n_chan). -/
abbrev MdScale (B F C : ℕ) := Fin B → Fin F → Fin C → ℂ

/-- torchiva/scaling.py:181: Errors and weights: (batch, n_freq, n_chan, n_frames). -/
abbrev MdErr (B F C N : ℕ) := Fin B → Fin F → Fin C → Fin N → ℂ
/-- torchiva/scaling.py:182-193: weights, with the same indices. -/
abbrev MdWeights (B F C N : ℕ) := Fin B → Fin F → Fin C → Fin N → ℝ

/-- torchiva/scaling.py:214-217 `lp_norm`. -/
noncomputable def lpNorm (E : MdErr B F C N) (p : ℝ) : Except Err (MdWeights B F C N) :=
  open Classical in
  if 0 < p ∧ p < 2 then .ok fun b f c n => p / clampMin (2 * ‖E b f c n‖ ^ (2 - p)) 1e-5
  else .error .assertionError

/-- torchiva/scaling.py:220-228 `lpq_norm` with `axis=-3` (frequency).  `E` is overwritten twice, so line 226
raises `(|e|+1e-5)^q + 1e-5`, not `|e|`, to the power `2 - q`. -/
noncomputable def lpqNorm (E : MdErr B F C N) (p q : ℝ) : Except Err (MdWeights B F C N) :=
  open Classical in
  if 0 < p ∧ p ≤ q ∧ q ≤ 2 then
    let E1 : MdWeights B F C N := fun b f c n => ‖E b f c n‖ + 1e-5
    let E2 : MdWeights B F C N := fun b f c n => E1 b f c n ^ q + 1e-5
    let rn : Fin B → Fin C → Fin N → ℝ := fun b c n => (∑ f, E2 b f c n) ^ (1 - p / q)
    let qfn : MdWeights B F C N := fun b f c n => |E2 b f c n| ^ (2 - q)
    .ok fun b f c n => p / clampMin (2 * rn b c n * qfn b f c n) 1e-5
  else .error .assertionError

/-- torchiva/scaling.py:182-193: the weights of one iteration, for a tensor with one batch dimension.  A
learnable model is an arbitrary function of the error returning a weight per element; line 184 then keeps
only those of batch item 0 and frequency 0, which are used for all. `model is None and p is None` never gets
here (line 160). -/
noncomputable def mdWeights (p q : Option ℝ) (model : Option (MdErr B F C N → MdWeights B F C N))
    (E : MdErr B F C N) : Except Err (MdWeights B F C N) :=
  match model with
  | some m =>
    if h : 0 < B ∧ 0 < F then
      .ok fun _ _ c n => m E ⟨0, h.1⟩ ⟨0, h.2⟩ c n / clampMin (∑ t, m E ⟨0, h.1⟩ ⟨0, h.2⟩ c t) 1e-5
    else .error .indexError
  | none =>
    match p, q with
    | none, _ => .error .typeError
    | some p, none => lpNorm E p
    | some p, some q => open Classical in if p = q then lpNorm E p else lpqNorm E p q

/-- torchiva/scaling.py:180-198: one update of the scale factors. -/
noncomputable def mdStep (p q : Option ℝ) (model : Option (MdErr B F C N → MdWeights B F C N))
    (Y : Fin B → Sig C F N) (ref : Fin B → Fin F → Fin N → ℂ) (k : MdScale B F C) : Except Err (MdScale B F C) := do
  let w ← mdWeights p q model fun b f c n => ref b f n - k b f c * Y b c f n
  return fun b f c =>
    (∑ n, ref b f n * star (Y b c f n) * (w b f c n : ℂ)) /
      ((clampMin (∑ n, ‖Y b c f n‖ ^ 2 * w b f c n) 1e-5 : ℝ) : ℂ)

/-- torchiva/scaling.py:206: `x.abs().norm()`: Euclidean norm over the whole tensor, batch included. -/
noncomputable def mdNorm (k : MdScale B F C) : ℝ := √(∑ b, ∑ f, ∑ c, ‖k b f c‖ ^ 2)

open Classical in
/-- torchiva/scaling.py:175-209: the loop, with `fuel = max_iter - epoch`.  When `prev_c` is zero the
relative step is inf or nan and the test `delta < rtol` is false. -/
noncomputable def mdLoop (step : MdScale B F C → Except Err (MdScale B F C)) (rtol : ℝ) :
    ℕ → Option (MdScale B F C) → MdScale B F C → Except Err (MdScale B F C)
  | 0, _, k => .ok k
  | fuel + 1, none, k => do
    let k' ← step k
    mdLoop step rtol fuel (some k') k'
  | fuel + 1, some prev, k => do
    let k' ← step k
    if mdNorm prev ≠ 0 ∧ mdNorm (fun b f c => k' b f c - prev b f c) / mdNorm prev < rtol then .ok k'
    else mdLoop step rtol fuel (some k') k'

/-- torchiva/scaling.py:126-211 `minimum_distortion`. -/
noncomputable def minDist (p q : Option ℝ) (rtol : ℝ) (maxIter : ℕ)
    (model : Option (MdErr B F C N → MdWeights B F C N)) (Y : Fin B → Sig C F N) (ref : Fin B → Fin F → Fin N → ℂ) :
    Except Err (Fin B → Sig C F N) :=
  open Classical in
  if model.isNone ∧ (p = none ∨ (p = some 2 ∧ (q = none ∨ p = q))) then
    .ok fun b => minDistL2 (Y b) (ref b)
  else do
    let k ← mdLoop (mdStep p q model Y ref) rtol maxIter none fun _ _ _ => 1
    return fun b c f n => Y b c f n * k b f c

/-- torchiva/scaling.py:61: Contract of `torch.argsort` (ascending): a permutation that sorts; the order of ties is unspecified, so the
function is a parameter. -/
def ArgsortContract (N : ℕ) (argsort : (Fin N → ℝ) → Equiv.Perm (Fin N)) : Prop :=
  ∀ v : Fin N → ℝ, Monotone fun i => v (argsort v i)

/-- torchiva/scaling.py:42-78 `projection_back`, one batch item.  With fewer frames than channels the reshape of
lines 72/73 fails. -/
noncomputable def projectionBack (argsort : (Fin N → ℝ) → Equiv.Perm (Fin N)) (Y : Sig C F N)
    (ref : Fin F → Fin N → ℂ) : Except Err (Sig C F N) :=
  if h : C ≤ N then do
    let energy : Fin N → ℝ := fun n => ∑ f, ∑ c, ‖Y c f n‖
    let frame : Fin C → Fin N := fun k => argsort energy ⟨N - C + k, by omega⟩
    let scale ← seqAll fun f : Fin F =>
      solve ((Matrix.of fun k c => Y c f (frame k)) + (1e-5 : ℂ) • (1 : Matrix (Fin C) (Fin C) ℂ))
        (Matrix.of fun (k : Fin C) (_ : Unit) => ref f (frame k))
    return fun c f n => Y c f n * scale f c ()
  else .error .runtimeError

end scaling

end Torchiva
