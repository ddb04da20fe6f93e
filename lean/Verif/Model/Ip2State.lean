import Verif.Model.AuxIva

/-!
# The source model after a call of AuxIVA-IP2

`AuxIVA_IP2.forward` returns the signals only; the source model it was given is an object of the caller, whose attributes
can be read afterwards.
-/

namespace Torchiva

variable {F N : ℕ}

/-- torchiva/auxiva_ip2.py:154-213 `AuxIVA_IP2.forward`: the state in which a call that returns leaves the source model
(`self._reset(model)` on line 176, then one call in each iteration, line 198). -/
noncomputable def auxiva2ModelState {σ : Type} {C : ℕ} (nIter : ℕ) (projBackMic : Option ℤ) (eps : ℝ)
    (X : Sig C F N) (model : SourceModel σ F N) (reset : σ → σ) (ms : σ) : Except Err σ :=
  if hC : C = 2 then
    if ∀ m ∈ projBackMic, 0 ≤ m ∧ m < C then do
      let Xo : Sig 2 F N := fun c => X (Fin.cast hC.symm c)
      let st ← iterM (ip2Epoch Xo model eps) nIter ⟨Xo, fun _ => 1, fun _ => 1, reset ms⟩
      return st.ms
    else .error .assertionError
  else .error .assertionError

end Torchiva
