import Verif.Model.TensorTIss
import Verif.Model.TensorScaling
import Verif.Model.Models

/-!
# The NMF source model on tensors

`NMFModel` of torchiva/models/classic.py, statement by statement, on signals with any number of batch dimensions, and
the same model for one mixture.
-/

namespace Torchiva

/-- For instance torchiva/models/classic.py:108: `torch.bmm`: three dimensions and the same number of matrices. -/
def Ten.bmm {α : Type} [CommSemiring α] (a b : Ten α) : Except Err (Ten α) :=
  if a.shape.length = 3 ∧ b.shape.length = 3 ∧ a.shape.getD 2 0 = b.shape.getD 2 0 then Ten.matmul a b
  else .error .runtimeError

/-- torchiva/models/classic.py:86-88: the attributes `T`, `V`, `iR` of an initialised model. -/
structure NmfT where
  T : Ten ℝ
  V : Ten ℝ
  iR : Ten ℝ

/-- torchiva/models/classic.py:68-88: an `NMFModel`, with the numbers that `uniform_()` will draw at the next
initialisation. -/
structure NmfModelT where
  uT : List ℕ → ℝ
  uV : List ℕ → ℝ
  st : Option NmfT

/-- torchiva/models/classic.py:107-110 `_recompute_estimate`. -/
noncomputable def nmfRecomputeTT (eps : ℝ) (T V : Ten ℝ) : Except Err NmfT := do
  let Vt ← V.swap01
  let R ← Ten.bmm T Vt
  .ok ⟨T, V, (R.map fun x => clampMin x eps).map fun x => x⁻¹⟩

/-- torchiva/models/classic.py:90-105 `_init_state`. -/
noncomputable def nmfInitT (eps : ℝ) (K : ℕ) (ts : NmfModelT) (P : Ten ℝ) : Except Err NmfT :=
  match ts.st with
  | some st => .ok st
  | none =>
    match P.shape with
    | [N, F, B] =>
      nmfRecomputeTT eps ((⟨[K, F, B], ts.uT⟩ : Ten ℝ).map fun x => 0.9 * x + 0.1)
        ((⟨[K, N, B], ts.uV⟩ : Ten ℝ).map fun x => 0.9 * x + 0.1)
    | _ => .error .valueError

/-- torchiva/models/classic.py:133-136, 144-147: the multiplicative update of the factor `W`, the other one being `U`. -/
noncomputable def nmfFactorT (eps : ℝ) (P iR U W : Ten ℝ) : Except Err (Ten ℝ) := do
  let PR ← Ten.map2 (fun x y => x * y) P (iR.map fun x => x ^ 2)
  let num ← Ten.bmm PR U
  let den ← Ten.bmm iR U
  let q ← Ten.div num den
  let W ← Ten.map2 (fun x y => x * y) W (q.map fun x => √x)
  .ok (W.map fun x => clampMin x eps)

/-- torchiva/models/classic.py:112-155 `NMFModel.forward` (complex signals). -/
noncomputable def nmfT (eps : ℝ) (K : ℕ) : TenModel NmfModelT := fun ts X =>
  match X.shape with
  | N :: F :: bs => do
    let Xf ← flatT X [N, F]
    let P := magSqT Xf
    let st ← nmfInitT eps K ts P
    let T ← nmfFactorT eps P st.iR st.V st.T
    let st ← nmfRecomputeTT eps T st.V
    let iRt ← st.iR.swap01
    let Pt ← P.swap01
    let V ← nmfFactorT eps Pt iRt st.T st.V
    let st ← nmfRecomputeTT eps st.T V
    let iR ← st.iR.reshape (N :: F :: bs)
    .ok (iR, { ts with st := some st })
  | _ => .error .valueError

/-- torchiva/models/classic.py:75-88 `reset`. -/
def nmfResetT (ts : NmfModelT) : NmfModelT := { ts with st := none }

/-- torchiva/models/classic.py:68-88: an `NMFModel` used for `s` sources of one mixture, with the numbers that `uniform_()`
will draw. -/
structure NmfItem (s F N K : ℕ) where
  uT : Fin s → Fin F → Fin K → ℝ
  uV : Fin s → Fin N → Fin K → ℝ
  st : Option (NmfState s F N K)

/-- torchiva/models/classic.py:112-155: `NMFModel` as a source model for the separation algorithms.  It is used with the
number of sources of its state, and the divisions are by positive numbers; the other cases are given an arbitrary value. -/
noncomputable def nmfModel {s F N K : ℕ} (eps : ℝ) : SourceModel (NmfItem s F N K) F N := fun s' st X =>
  if h : s' = s then
    match nmfForward eps st.uT st.uV st.st (fun c => X (c.cast h.symm)) with
    | .ok r => (fun c => r.1 (c.cast h), { st with st := r.2 })
    | .error _ => (fun _ _ _ => 0, st)
  else (fun _ _ _ => 0, st)

/-- torchiva/models/classic.py:75-88 `reset`. -/
def nmfItemReset {s F N K : ℕ} (st : NmfItem s F N K) : NmfItem s F N K := { st with st := none }

end Torchiva
