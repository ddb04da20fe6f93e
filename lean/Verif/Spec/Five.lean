import Mathlib.Analysis.Complex.Basic

/-! # Specification of independent vector extraction at one frequency -/

namespace Spec

variable {C N : ℕ}

/-- Output of the filter `u`: `y n = ∑ c, conj (u c) * x c n`. -/
noncomputable def filt (u : Fin C → ℂ) (x : Fin C → Fin N → ℂ) (n : Fin N) : ℂ := ∑ c, star (u c) * x c n

/-- Mean power of a signal. -/
noncomputable def meanPower (y : Fin N → ℂ) : ℝ := (∑ n, ‖y n‖ ^ 2) / N

/-- Weighted energy of a signal. -/
noncomputable def wPower (w : Fin N → ℝ) (y : Fin N → ℂ) : ℝ := ∑ n, w n * ‖y n‖ ^ 2

/-- `u` extracts a unit-power signal, and among all filters extracting a unit-power signal it has the least
weighted energy. -/
def IsExtractor (x : Fin C → Fin N → ℂ) (w : Fin N → ℝ) (u : Fin C → ℂ) : Prop :=
  meanPower (filt u x) = 1 ∧ ∀ v, meanPower (filt v x) = 1 → wPower w (filt u x) ≤ wPower w (filt v x)

/-- Sample correlation `1/N ∑ a conj(b)`. -/
noncomputable def xcorr (a b : Fin N → ℂ) : ℂ := (∑ n, a n * star (b n)) / N

/-- `u` extracts the principal component scaled to unit power: `u = v / √power(v)` where the unit vector `v` has the
largest output power. -/
def IsPrincipal (x : Fin C → Fin N → ℂ) (u : Fin C → ℂ) : Prop :=
  ∃ v : Fin C → ℂ, ∑ c, ‖v c‖ ^ 2 = 1 ∧
    (∀ t : Fin C → ℂ, ∑ c, ‖t c‖ ^ 2 = 1 → meanPower (filt t x) ≤ meanPower (filt v x)) ∧
    u = fun c => v c / (√(meanPower (filt v x)) : ℝ)

/-- Runs of the extraction algorithm on the frequencies `x f`, with reference channel `ref`.  A source model turns
its state and the current estimate into weights.  The run starts from a scaled principal component; each step
extracts, at each frequency, a unit-power signal of least weighted energy and outputs the least-squares projection
of the reference channel on it. -/
inductive FiveRun {F : ℕ} {σ : Type} (x : Fin F → Fin C → Fin N → ℂ) (ref : Fin C)
    (model : σ → (Fin F → Fin N → ℂ) → (Fin F → Fin N → ℝ) × σ) (ms0 : σ) :
    ℕ → (Fin F → Fin N → ℂ) → σ → Prop
  | init (u : Fin F → Fin C → ℂ) (hu : ∀ f, IsPrincipal (x f) (u f)) :
      FiveRun x ref model ms0 0
        (fun f n => xcorr (filt (u f) (x f)) (x f ref) * filt (u f) (x f) n) ms0
  | step (k : ℕ) (Y : Fin F → Fin N → ℂ) (ms : σ) (u : Fin F → Fin C → ℂ) (h : FiveRun x ref model ms0 k Y ms)
      (hu : ∀ f, IsExtractor (x f) ((model ms Y).1 f) (u f)) :
      FiveRun x ref model ms0 (k + 1)
        (fun f n => xcorr (x f ref) (filt (u f) (x f)) * filt (u f) (x f) n) (model ms Y).2

/-- Any two vectors with property `P` differ by a unit-modulus factor. -/
def UniqueUpToPhase (P : (Fin C → ℂ) → Prop) : Prop :=
  ∀ u u', P u → P u' → ∃ z : ℂ, ‖z‖ = 1 ∧ u' = fun c => z * u c

end Spec
