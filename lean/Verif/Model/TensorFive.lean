import Verif.Model.TensorEigh
import Verif.Model.TensorTIss
import Verif.Model.Five

/-!
# FIVE on tensors

torchiva/five.py, statement by statement, on recordings with any number of batch dimensions and a reference microphone.
-/

namespace Torchiva

/-- torchiva/five.py:185-186: `torch.flip(x, dims=[-1])`. -/
def Ten.flip0 {α : Type} (t : Ten α) : Ten α :=
  ⟨t.shape, fun idx => t.val ((t.shape.headD 0 - 1 - idx.headD 0) :: idx.tail)⟩

/-- torchiva/five.py:178-179, 224-225: `0.5 * (V + hermite(V))`. -/
noncomputable def hermitizeT (V : Ten ℂ) : Except Err (Ten ℂ) := do
  let H ← hermiteT V
  Ten.map2 (fun x y => (0.5 : ℂ) * (x + y)) V H

/-- torchiva/five.py:32-33 `normalize`. -/
noncomputable def fiveNormalizeT (x : Ten ℂ) : Except Err (Ten ℂ) := do
  let q ← Ten.sumKeep 1 (x.map fun z => ‖z‖ ^ 2)
  Ten.div x (q.map fun t => √t).toC

/-- torchiva/five.py:64-67: one power iteration. -/
noncomputable def powerStepT (Vinv x : Ten ℂ) : Except Err (Ten ℂ) := do
  let y ← einsumT [("fcd", Vinv), ("fd", x)] "fc"
  let q ← Ten.sum 0 (y.map fun z => ‖z‖ ^ 2)
  let ev ← (q.map fun t => √t).unsq 0
  Ten.div y ev.toC

/-- torchiva/five.py:53-73 `smallest_eigenvector_power_method`: the eigenvectors. -/
noncomputable def smallestPowerT (V : Ten ℂ) (nIter : ℕ) : Except Err (Ten ℂ) := do
  let Vinv ← invLoadedT V 1e-5
  let x ← Vinv.sel 0 0
  let x ← fiveNormalizeT x
  let x ← iterM (powerStepT Vinv) (nIter - 1) x
  let x0 ← x.sel 0 0
  let s ← (x0.map fun z => star (csgn z)).unsq 0
  let x ← Ten.map2 (fun x y => x * y) x s
  if nIter - 1 = 0 then .error .unboundLocalError else .ok x

/-- torchiva/five.py:227-235: the demixing vectors. -/
noncomputable def fiveVectorsT (solver : Solver) (nPower : Option ℕ) (V : Ten ℂ) : Except Err (Ten ℂ) :=
  match nPower with
  | none => do
    let r ← eighWrapperT solver V
    r.vec.sel 0 0
  | some n => smallestPowerT V n

/-- torchiva/five.py:217-221: the current signal and the state of the source model. -/
structure FiveT (τ : Type) where
  Y : Ten ℂ
  ms : τ

/-- torchiva/five.py:217-242: one iteration. -/
noncomputable def fiveEpochT {τ : Type} (solver : Solver) (nPower : Option ℕ) (X qref : Ten ℂ) (model : TenModel τ)
    (st : FiveT τ) : Except Err (FiveT τ) := do
  let w ← model st.ms st.Y
  let V ← einsumT [("fn", w.1.toC), ("cfn", X), ("dfn", X.map star)] "fcd"
  let V ← hermitizeT V
  let ev ← fiveVectorsT solver nPower V
  let z ← einsumT [("fc", qref), ("fc", ev)] "f"
  let z ← z.unsq 0
  let u ← Ten.map2 (fun x y => x * y) ev (z.map star)
  let Y ← einsumT [("fc", u.map star), ("cfn", X)] "fn"
  .ok ⟨Y, w.2⟩

/-- torchiva/five.py:181-192: the whitening matrices and their inverses. -/
noncomputable def fiveWhitenT (solver : Solver) (Cx : Ten ℂ) : Except Err (Ten ℂ × Ten ℂ) := do
  let r ← eighT solver Cx none 1e-15
  let vec := r.vec.flip0
  let val := r.val.flip0
  let vs := val.map fun x => √(clampMin x 1e-5)
  let col ← vs.unsq 0
  let vH ← hermiteT vec
  let Q ← Ten.map2 (fun x y => x * y) (col.map fun x => 1 / x).toC vH
  let row ← vs.unsq 1
  let Qinv ← Ten.map2 (fun x y => x * y) vec row.toC
  .ok (Q, Qinv)

/-- torchiva/five.py:143-248 `FIVE.forward` (resolved parameters, a reference microphone). -/
noncomputable def fiveForwardT {τ : Type} (solver : Solver) (nIter ref : ℕ) (nPower : Option ℕ) (model : TenModel τ)
    (reset : τ → τ) (ms : τ) (X : Ten ℂ) : Except Err (Ten ℂ) := do
  let nFrames := X.shape.headD 0
  let X ← X.drop 1 1
  let Cx ← einsumT [("cfn", X), ("dfn", X.map star)] "fcd"
  let Cx ← hermitizeT (Cx.map fun z => z / (nFrames : ℂ))
  let wh ← fiveWhitenT solver Cx
  let qref ← wh.2.sel 1 ref
  let X ← einsumT [("fcd", wh.1), ("dfn", X)] "cfn"
  let Y ← X.sel 2 0
  -- Q[..., 0, None, :] @ Cx[..., proj_back_mic, None]
  let q0 ← wh.1.sel 1 0
  let q0 ← q0.unsq 1
  let c0 ← Cx.sel 0 ref
  let c0 ← c0.unsq 0
  let z ← Ten.matmul q0 c0
  let z ← z.swap12
  let z ← z.sel 2 0
  let Y ← Ten.map2 (fun x y => x * y) z Y
  let st ← iterM (fiveEpochT solver nPower X qref model) nIter ⟨Y, reset ms⟩
  -- zeros at the first frequency
  let pad ← onDim 1 (fun _ => 1) st.Y.shape
  let Y ← Ten.cat 1 (Ten.zeros pad) st.Y
  Y.unsq 2

end Torchiva
