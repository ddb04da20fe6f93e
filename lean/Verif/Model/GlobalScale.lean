import Verif.Model.Torch

/-!
# torchiva/five.py: `adjust_global_scale`
-/

namespace Torchiva

variable {F N : ℕ}

/-- torchiva/five.py:76-81 `adjust_global_scale` on one signal of `F` frequencies and `N` frames.  The tensors have more dimensions
there, which are treated alike (`dim=(-2, -1), keepdim=True`).  The function is not called by `FIVE` (line 209 is a comment). -/
noncomputable def adjustGlobalScale (Y ref : Fin F → Fin N → ℂ) : Fin F → Fin N → ℂ :=
  let num : ℂ := (∑ f, ∑ n, star (Y f n) * ref f n) / (F * N : ℕ)
  let denom : ℝ := clampMin ((∑ f, ∑ n, ‖Y f n‖ ^ 2) / (F * N : ℕ)) 1e-7
  fun f n => Y f n * (num / (denom : ℂ))

end Torchiva
