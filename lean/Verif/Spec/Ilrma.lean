import Verif.Spec.Contrast
import Verif.Model.TensorNmf

/-!
# The objective of independent low-rank matrix analysis (ILRMA)

Source `k` is complex Gaussian with variance `R k f n` at frequency `f` and frame `n`, and `R k` is the product of two
nonnegative factors.
-/

namespace Spec

variable {C F N K : ℕ}

/-- The variances given by the factors `T` (frequencies × components) and `V` (frames × components). -/
noncomputable def lowRank (T : Fin C → Fin F → Fin K → ℝ) (V : Fin C → Fin N → Fin K → ℝ) : Fin C → Fin F → Fin N → ℝ :=
  fun k f n => ∑ j, T k f j * V k n j

/-- Negative log-likelihood per frame of the separated signals (without the demixing matrices):
`∑ (|Y|² / R + log R)`. -/
noncomputable def gaussianLoss (Y : Fin C → Fin F → Fin N → ℂ) (R : Fin C → Fin F → Fin N → ℝ) : ℝ :=
  ∑ k, (∑ f, ∑ n, (‖Y k f n‖ ^ 2 / R k f n + Real.log (R k f n))) / N

/-- Weighted power of a source, summed over the frequencies and averaged over the frames. -/
noncomputable def whitePower (y : Fin F → Fin N → ℂ) (r : Fin F → Fin N → ℝ) : ℝ :=
  (∑ f, ∑ n, ‖y f n‖ ^ 2 / r f n) / N

/-- The same with the scale of the sources removed: every source may be multiplied by the number that minimises the
likelihood (`ilrma_loss_is_minimum`), and the result is unchanged when a source or its variances are rescaled. -/
noncomputable def ilrmaLoss (Y : Fin C → Fin F → Fin N → ℂ) (R : Fin C → Fin F → Fin N → ℝ) : ℝ :=
  ∑ k, (F * Real.log (whitePower (Y k) (R k)) + (∑ f, ∑ n, Real.log (R k f n)) / N)

end Spec

namespace Torchiva

variable {C F N K : ℕ}

/-- The factors a source model will use in its next call: those it keeps, or freshly drawn ones
(torchiva/models/classic.py:90-105, 129-130). -/
noncomputable def NmfItem.factors (eps : ℝ) (m : NmfItem C F N K) : NmfState C F N K := m.st.getD (nmfInit eps m.uT m.uV)

/-- No floor (`clamp(min=eps)`) had any effect in a call of the model that replaced the factors `a` by `b`: neither on
the three products of factors, nor on the new factors. -/
structure FloorsInactive (eps : ℝ) (a b : NmfState C F N K) : Prop where
  before : ∀ k f n, eps ≤ Spec.lowRank a.T a.V k f n
  between : ∀ k f n, eps ≤ Spec.lowRank b.T a.V k f n
  after : ∀ k f n, eps ≤ Spec.lowRank b.T b.V k f n
  T : ∀ k f j, eps < b.T k f j
  V : ∀ k n j, eps < b.V k n j

end Torchiva
