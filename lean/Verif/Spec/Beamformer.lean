import Verif.Spec.Linalg
import Verif.Spec.Five

/-! # Specifications for beamforming -/

namespace Spec

open Matrix

variable {C : ℕ}

/-- Response `wᴴ d` of the filter `w` to the steering vector `d`. -/
noncomputable def response (w d : Fin C → ℂ) : ℂ := ∑ c, star (w c) * d c

/-- `w` has the least output power `vᴴ L v` among all filters `v` with the same response to `d`. -/
def IsMinVariance (L : Matrix (Fin C) (Fin C) ℂ) (d w : Fin C → ℂ) : Prop :=
  ∀ v, response v d = response w d → power L w ≤ power L v

/-- Regularised mean square error of `wᴴ x` as an estimate of the target at microphone `ref`:
`E|target_ref - wᴴ target|² + E|wᴴ noise|² + lam ‖w‖²`. -/
noncomputable def mwfCost (Rt Rn : Matrix (Fin C) (Fin C) ℂ) (lam : ℝ) (ref : Fin C) (w : Fin C → ℂ) : ℝ :=
  power Rt (fun c => (if c = ref then 1 else 0) - w c) + power Rn w + lam * ∑ c, ‖w c‖ ^ 2

/-- `v` maximises the ratio of target to noise power. -/
def IsMaxSnr (Rt Rn : Matrix (Fin C) (Fin C) ℂ) (v : Fin C → ℂ) : Prop :=
  0 < power Rn v ∧ ∀ u, power Rt u * power Rn v ≤ power Rt v * power Rn u

/-- `E`, `val` is a generalised eigendecomposition of `(A, B)`: ascending eigenvalues, every column is an eigenvector,
different columns are `B`-orthogonal and no column is zero. -/
def IsGevd (A B : Matrix (Fin C) (Fin C) ℂ) (val : Fin C → ℝ) (E : Matrix (Fin C) (Fin C) ℂ) : Prop :=
  Monotone val ∧ (∀ k, IsEigenpair A B (val k) (fun i => E i k)) ∧
  (∀ j k, j ≠ k → star (fun i => E i j) ⬝ᵥ B *ᵥ (fun i => E i k) = 0) ∧ ∀ k, ∃ i, E i k ≠ 0

end Spec
