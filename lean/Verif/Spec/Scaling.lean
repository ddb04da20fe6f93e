import Mathlib.Analysis.Complex.Basic
import Mathlib.Analysis.SpecialFunctions.Pow.Real

/-! # Specifications for the scaling step -/

namespace Spec

open Finset

variable {B C F N : ℕ}

/-- Squared error of `a * y` as an estimate of `r`. -/
noncomputable def sqError (r y : Fin N → ℂ) (a : ℂ) : ℝ := ∑ n, ‖r n - a * y n‖ ^ 2

/-- Energy of a signal. -/
noncomputable def energy (y : Fin N → ℂ) : ℝ := ∑ n, ‖y n‖ ^ 2

/-- Complex correlation `∑ r conj(y)`. -/
noncomputable def crossCorr (r y : Fin N → ℂ) : ℂ := ∑ n, r n * star (y n)

/-- The threshold below which the p-norm is replaced by a parabola: `2 tau^(2-p) = 1e-5`. -/
noncomputable def lpThreshold (p : ℝ) : ℝ := (1e-5 / 2) ^ (1 / (2 - p))

/-- Clamped p-th power: `u^p` above the threshold, the tangent parabola below it. -/
noncomputable def clampedPow (p u : ℝ) : ℝ :=
  open Classical in
  if lpThreshold p ≤ u then u ^ p
  else lpThreshold p ^ p + (p / 1e-5) * (u ^ 2 - lpThreshold p ^ 2)

/-- Clamped p-norm error (to the power p) of `a * y` to `r`. -/
noncomputable def lpError (p : ℝ) (r y : Fin N → ℂ) (a : ℂ) : ℝ := ∑ n, clampedPow p ‖r n - a * y n‖

/-- Scale factors, one per (batch item, frequency, channel). -/
abbrev Scale (B F C : ℕ) := Fin B → Fin F → Fin C → ℂ

/-- Euclidean norm of a family of scale factors. -/
noncomputable def scaleNorm (k : Scale B F C) : ℝ := √(∑ b, ∑ f, ∑ c, ‖k b f c‖ ^ 2)

/-- The relative change from `k` to `k'` is below `rtol`. -/
def Close (rtol : ℝ) (k k' : Scale B F C) : Prop :=
  0 < scaleNorm k ∧ scaleNorm (k' - k) < rtol * scaleNorm k

/-- A sequence of at most `maxIter` updates from all-ones that stops at the first relative change (from the second
update on) below `rtol`. -/
def StopsAt (update : Scale B F C → Scale B F C) (rtol : ℝ) (maxIter : ℕ) (k : ℕ) : Prop :=
  k ≤ maxIter ∧
  (∀ i, 2 ≤ i → i < k → ¬ Close rtol (update^[i - 1] 1) (update^[i] 1)) ∧
  (k = maxIter ∨ (2 ≤ k ∧ Close rtol (update^[k - 1] 1) (update^[k] 1)))

/-- Weighted least-squares update for the weights `w` computed from the current error. -/
noncomputable def wlsUpdate (w : (Fin B → Fin F → Fin C → Fin N → ℂ) → Fin B → Fin F → Fin C → Fin N → ℝ)
    (Y : Fin B → Fin C → Fin F → Fin N → ℂ) (ref : Fin B → Fin F → Fin N → ℂ) (k : Scale B F C) : Scale B F C :=
  let e : Fin B → Fin F → Fin C → Fin N → ℂ := fun b f c n => ref b f n - k b f c * Y b c f n
  fun b f c => (∑ n, (w e b f c n : ℂ) * (ref b f n * star (Y b c f n)))
    / ((max (∑ n, w e b f c n * ‖Y b c f n‖ ^ 2) 1e-5 : ℝ) : ℂ)

/-- MM weights of the p-norm, clamped. -/
noncomputable def lpWeights (p : ℝ) (e : Fin B → Fin F → Fin C → Fin N → ℂ) : Fin B → Fin F → Fin C → Fin N → ℝ :=
  fun b f c n => p / max (2 * ‖e b f c n‖ ^ (2 - p)) 1e-5

/-- The weights of minimal distortion for the mixed norm: with `a = (|e| + 1e-5)^q + 1e-5`, `p` divided by
`2 (∑_f a)^(1 - p/q) a^(2 - q)`, with denominator at least 1e-5.  (The majoriser of the mixed norm would have `|e|` in
place of the last `a`.) -/
noncomputable def lpqWeights (p q : ℝ) (e : Fin B → Fin F → Fin C → Fin N → ℂ) : Fin B → Fin F → Fin C → Fin N → ℝ :=
  let a := fun b f c n => (‖e b f c n‖ + 1e-5) ^ q + 1e-5
  fun b f c n => p / max (2 * (∑ f', a b f' c n) ^ (1 - p / q) * a b f c n ^ (2 - q)) 1e-5

end Spec
