import Verif.Spec.Rearrange
import Verif.Spec.Separated

/-!
# Specification: the level of a recording
-/

namespace Spec

open Torchiva

/-- The recording after a gain: all channels are multiplied by the same (complex) factor, which may depend on the frequency. A factor
that is the same everywhere is a change of the recording level; the others are an equaliser. -/
def gain {C F N : ℕ} (α : Fin F → ℂ) (X : Sig C F N) : Sig C F N := fun c f n => α f * X c f n

/-- Correlation matrix of the microphones at one frequency, frames weighted by a mask. -/
noncomputable def covOf {C F N : ℕ} (mask : Fin F → Fin N → ℝ) (X : Sig C F N) (f : Fin F) : Matrix (Fin C) (Fin C) ℂ :=
  fun c d => ∑ n, (mask f n : ℂ) * X c f n * star (X d f n)

/-- Some entry is at least one. -/
def Loud {ι : Type} (R : Matrix ι ι ℂ) : Prop := ∃ i j, 1 ≤ ‖R i j‖

/-- No entry exceeds a bound. -/
def Below {ι : Type} (b : ℝ) (R : Matrix ι ι ℂ) : Prop := ∀ i j, ‖R i j‖ ≤ b

/-- Power of a frame, averaged over the channels. -/
noncomputable def avgPower {C F N : ℕ} (Y : Sig C F N) (f : Fin F) (n : Fin N) : ℝ := (∑ c, ‖Y c f n‖ ^ 2) / C

/-- The guards of WPE are idle for the recording `X` when `Y` is the current estimate: no frame of `Y` has a power below `eps`, and
at every frequency the power of some channel, delayed by `D+1 … D+T` frames and averaged with the weights `1 / power of Y`, is at
least one. -/
def WpeIdle {C F N : ℕ} (T D : ℕ) (eps : ℝ) (X Y : Sig C F N) : Prop :=
  (∀ f n, eps ≤ avgPower Y f n) ∧
  ∀ f, ∃ c, ∃ δ, D + 1 ≤ δ ∧ δ ≤ D + T ∧
    (∑ n, 1 / avgPower Y f n) ≤ ∑ n, 1 / avgPower Y f n * ‖Torchiva.Spec.past (X c f) δ n‖ ^ 2

end Spec
