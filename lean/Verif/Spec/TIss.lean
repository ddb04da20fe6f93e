import Mathlib.Analysis.Complex.Basic
import Mathlib.Analysis.SpecialFunctions.Log.Basic
import Mathlib.LinearAlgebra.Matrix.NonsingularInverse

/-!
# Specifications for separation algorithms (independent of the model)

Signals are `channel → frequency → frame → ℂ`.
-/

namespace Spec

open Matrix

variable {C F N T s : ℕ}

/-- The sample `d` frames before frame `n`, zero before the start of the signal. -/
def past (x : Fin N → ℂ) (n : Fin N) (d : ℕ) : ℂ :=
  if d ≤ n.1 then x ⟨n - d, by omega⟩ else 0

/-- Output `k` of demixing filters `W`, minus the prediction by `H` from delayed signals `Xbar`. -/
noncomputable def demixed (X : Fin C → Fin F → Fin N → ℂ) (Xbar : Fin C → Fin F → Fin T → Fin N → ℂ)
    (W : Fin s → Fin F → Fin C → ℂ) (H : Fin s → Fin F → Fin C → Fin T → ℂ)
    (k : Fin s) (f : Fin F) (n : Fin N) : ℂ :=
  (∑ c, W k f c * X c f n) - ∑ c, ∑ t, H k f c t * Xbar c f t n

/-- The square demixing matrix at frequency `f`: the source rows `W`, then the background rows
`[J  -I]`. -/
noncomputable def fullDemix (W : Fin s → Fin F → Fin C → ℂ) (J : Fin (C - s) → Fin F → Fin s → ℂ)
    (f : Fin F) : Matrix (Fin C) (Fin C) ℂ :=
  Matrix.of fun i d =>
    if h : i.1 < s then W ⟨i, h⟩ f d
    else if h : d.1 < s then J ⟨i - s, by omega⟩ f ⟨d, h⟩
    else if d = i then -1 else 0

/-- The square matrix with the rows of `W` on top and the rows `[J  -I]` below. -/
noncomputable def stackRows (W : Matrix (Fin s) (Fin C) ℂ) (J : Matrix (Fin (C - s)) (Fin s) ℂ) :
    Matrix (Fin C) (Fin C) ℂ :=
  Matrix.of fun i d =>
    if h : i.1 < s then W ⟨i, h⟩ d
    else if h : d.1 < s then J ⟨i - s, by omega⟩ ⟨d, h⟩
    else if d = i then -1 else 0

/-- The auxiliary cost of T-ISS at frequency `f` for fixed weights `w`:
`∑ₖ (1/N) ∑ₙ w |y|² - 2 log |det W_full|`. -/
noncomputable def auxCost (w : Fin s → Fin F → Fin N → ℝ) (X : Fin C → Fin F → Fin N → ℂ)
    (Xbar : Fin C → Fin F → Fin T → Fin N → ℂ) (J : Fin (C - s) → Fin F → Fin s → ℂ)
    (f : Fin F) (W : Fin s → Fin F → Fin C → ℂ) (H : Fin s → Fin F → Fin C → Fin T → ℂ) : ℝ :=
  (∑ k, (∑ n, w k f n * ‖demixed X Xbar W H k f n‖ ^ 2) / N)
    - 2 * Real.log ‖(fullDemix W J f).det‖

/-- Sample correlation of two one-channel signals. -/
noncomputable def corr (y z : Fin N → ℂ) : ℂ := (∑ n, y n * star (z n)) / N

end Spec
