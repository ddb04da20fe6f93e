import Verif.Model.TensorScaling

/-!
# `minimum_distortion` on tensors

torchiva/scaling.py:126-228, statement by statement, on signals with any number of batch dimensions.
-/

namespace Torchiva

/-- torchiva/scaling.py:214-217 `lp_norm`. -/
noncomputable def lpNormT (E : Ten ℂ) (p : ℝ) : Except Err (Ten ℝ) :=
  open Classical in
  if 0 < p ∧ p < 2 then .ok (E.map fun z => p / clampMin (2 * ‖z‖ ^ (2 - p)) 1e-5) else .error .assertionError

/-- torchiva/scaling.py:220-228 `lpq_norm` with `axis=-3`. -/
noncomputable def lpqNormT (E : Ten ℂ) (p q : ℝ) : Except Err (Ten ℝ) :=
  open Classical in
  if 0 < p ∧ p ≤ q ∧ q ≤ 2 then do
    let E1 := E.map fun z => ‖z‖ + 1e-5
    let E2 := E1.map fun x => x ^ q + 1e-5
    let rn ← E2.sumKeep 2
    let rn := rn.map fun x => x ^ (1 - p / q)
    let qfn := E2.map fun x => |x| ^ (2 - q)
    let rq ← Ten.map2 (fun x y => 2 * x * y) rn qfn
    .ok (rq.map fun x => p / clampMin x 1e-5)
  else .error .assertionError

/-- torchiva/scaling.py:182-193: the weights of one iteration. -/
noncomputable def mdWeightsT (p q : Option ℝ) (model : Option (Ten ℂ → Except Err (Ten ℝ))) (E : Ten ℂ) :
    Except Err (Ten ℝ) :=
  match model with
  | some m => do
    let ET ← E.swap12
    let w ← m ET
    let w ← w.swap12
    -- weights[..., 0, 0, :, :]
    let w ← w.sel 3 0
    let w ← w.sel 2 0
    let nrm ← w.sumKeep 0
    Ten.map2 (fun x s => x / clampMin s 1e-5) w nrm
  | none =>
    match p, q with
    | none, _ => .error .typeError
    | some p, none => lpNormT E p
    | some p, some q => open Classical in if p = q then lpNormT E p else lpqNormT E p q

/-- torchiva/scaling.py:180-198: one update of the scale factors.  `Yt` is the signal in the order of line 169. -/
noncomputable def mdStepT (p q : Option ℝ) (model : Option (Ten ℂ → Except Err (Ten ℝ))) (Yt ref c : Ten ℂ) :
    Except Err (Ten ℂ) := do
  let r ← ref.unsq 1
  let c1 ← c.unsq 0
  let cY ← Ten.map2 (fun x y => x * y) c1 Yt
  let E ← Ten.map2 (fun x y => x - y) r cY
  let w ← mdWeightsT p q model E
  let n1 ← Ten.map2 (fun x y => x * star y) r Yt
  let n2 ← Ten.map2 (fun (x : ℂ) (u : ℝ) => x * u) n1 w
  let num ← n2.sum 0
  let d1 ← Ten.map2 (fun y (u : ℝ) => ‖y‖ ^ 2 * u) Yt w
  let den ← d1.sum 0
  Ten.map2 (fun x d => x / ((clampMin d 1e-5 : ℝ) : ℂ)) num den

/-- torchiva/scaling.py:206: `x.abs().norm()`, over all entries of the tensor. -/
noncomputable def mdNormT (c : Ten ℂ) : ℝ :=
  √(∑ i ∈ Finset.range (numel c.shape), ‖c.val (unflatIdx c.shape i)‖ ^ 2)

open Classical in
/-- torchiva/scaling.py:175-209: the loop, with `fuel = max_iter - epoch`.  When `prev_c` is zero the relative step is inf or
nan and the test `delta < rtol` is false. -/
noncomputable def mdLoopT (step : Ten ℂ → Except Err (Ten ℂ)) (rtol : ℝ) : ℕ → Option (Ten ℂ) → Ten ℂ → Except Err (Ten ℂ)
  | 0, _, c => .ok c
  | fuel + 1, none, c => do
    let c' ← step c
    mdLoopT step rtol fuel (some c') c'
  | fuel + 1, some prev, c => do
    let c' ← step c
    let d ← Ten.map2 (fun x y => x - y) c' prev
    if mdNormT prev ≠ 0 ∧ mdNormT d / mdNormT prev < rtol then .ok c'
    else mdLoopT step rtol fuel (some c') c'

/-- torchiva/scaling.py:126-211 `minimum_distortion`. -/
noncomputable def minDistT (p q : Option ℝ) (rtol : ℝ) (maxIter : ℕ) (model : Option (Ten ℂ → Except Err (Ten ℝ)))
    (Y ref : Ten ℂ) : Except Err (Ten ℂ) :=
  open Classical in
  if model.isNone ∧ (p = none ∨ (p = some 2 ∧ (q = none ∨ p = q))) then minDistL2T Y ref
  else match Y.shape with
    | N :: F :: C :: b => do
      let Yt ← Y.swap12
      let s ← reduce 0 (N :: C :: F :: b)
      let c ← mdLoopT (mdStepT p q model Yt ref) rtol maxIter none ⟨s, fun _ => 1⟩
      let c1 ← c.unsq 0
      let c1 ← c1.swap12
      Ten.map2 (fun x y => x * y) Y c1
    | _ => .error .valueError

end Torchiva
