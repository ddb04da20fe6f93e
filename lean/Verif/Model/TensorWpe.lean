import Verif.Model.TensorLinalg
import Verif.Model.TensorTIss
import Verif.Model.Wpe

/-!
# torchiva/wpe.py on tensors

The functions of torchiva/wpe.py, statement by statement, on tensors with any number of leading
dimensions; `Model/Wpe.lean` gives the same functions as formulas for one signal.
-/

namespace Torchiva

/-- torchiva/wpe.py:28-29 `derev`. -/
noncomputable def derevT (H X Xbar : Ten ℂ) : Except Err (Ten ℂ) := do
  let R ← einsumT [("fcts", H.map star), ("cftn", Xbar)] "sfn"
  Ten.map2 (fun x y => x - y) X R

/-- torchiva/wpe.py:32-35 `wpe_default_weights`. -/
noncomputable def wpeDefaultWeightsT (Y : Ten ℂ) (eps : ℝ) : Except Err (Ten ℝ) := do
  -- torch.mean(mag_sq(Y), dim=-3)
  let q ← Ten.sum 2 (magSqT Y)
  let m := q.map fun x => clampMin (x / (Y.shape.getD 2 0 : ℝ)) eps
  let w ← Ten.div (Ten.scalar (1 : ℝ)) m
  let t ← w.sumKeep 0
  Ten.div w t

/-- torchiva/wpe.py:64-68: the weights and the state of the source model. -/
noncomputable def wpeWeightsT {τ : Type} (model : Option (TenModel τ)) (eps : ℝ) (ms : τ) (Y : Ten ℂ) :
    Except Err (Ten ℝ × τ) :=
  match model with
  | none => do
    let w ← wpeDefaultWeightsT Y eps
    .ok (w, ms)
  | some m => m ms Y

/-- torchiva/wpe.py:60-62, 70-84 `wpe_one_iter` with weights already computed. -/
noncomputable def wpeFilterT (w : Ten ℝ) (X Xbar : Ten ℂ) (eps : ℝ) : Except Err (Ten ℂ) :=
  match Xbar.shape with
  | _ :: T :: F :: C :: b => do
    let Lh := T * C
    let acm ← einsumT [("fn", w.toC), ("cftn", Xbar), ("dfun", Xbar.map star)] "fctdu"
    let xcv ← einsumT [("fn", w.toC), ("cftn", Xbar), ("sfn", X.map star)] "fcts"
    let acm ← acm.reshape (Lh :: Lh :: F :: b)
    let xcv ← xcv.reshape (C :: Lh :: F :: b)
    let H ← solveLoadedT acm xcv eps
    H.reshape (C :: T :: C :: F :: b)
  | _ => .error .valueError

/-- torchiva/wpe.py:162-168: what the main loop carries, and the result. -/
structure WpeT (τ : Type) where
  Y : Ten ℂ
  ms : τ

/-- torchiva/wpe.py:164-166: the body of the main loop. -/
noncomputable def wpeStepT {τ : Type} (X Xbar : Ten ℂ) (model : Option (TenModel τ)) (eps : ℝ) (st : WpeT τ) :
    Except Err (WpeT τ) := do
  let w ← wpeWeightsT model eps st.ms st.Y
  let H ← wpeFilterT w.1 X Xbar eps
  let Y ← derevT H X Xbar
  .ok ⟨Y, w.2⟩

/-- torchiva/wpe.py:154-168 `WPE.forward` after parameter resolution. -/
noncomputable def wpeForwardT {τ : Type} (nIter T D : ℕ) (eps : ℝ) (model : Option (TenModel τ)) (ms : τ)
    (X : Ten ℂ) : Except Err (WpeT τ) :=
  match X.shape with
  | _ :: _ :: _ :: _ => do
    let Xbar ← delayedT T D X
    iterM (wpeStepT X Xbar model eps) nIter ⟨X, ms⟩
  | _ => .error .valueError

end Torchiva
