import Verif.Spec.TIss
import Verif.Spec.Linalg

/-! # Specification of delayed linear prediction -/

namespace Spec

variable {C N T : ℕ}

/-- Prediction predResidual at frame `n`: `x n - ∑ conj(g c t) * x_c(n - D - (T - t))`, where samples before the start are
zero.  Only frames at least `D + 1` steps in the past are used. -/
noncomputable def predResidual (D : ℕ) (x : Fin C → Fin N → ℂ) (s : Fin C) (g : Fin C × Fin T → ℂ) (n : Fin N) : ℂ :=
  x s n - ∑ c, ∑ t : Fin T, star (g (c, t)) * past (x c) n (D + T - t)

/-- Weighted energy of the predResidual plus ridge penalty. -/
noncomputable def predictionCost (D : ℕ) (w : Fin N → ℝ) (lam : ℝ) (x : Fin C → Fin N → ℂ) (s : Fin C)
    (g : Fin C × Fin T → ℂ) : ℝ :=
  ∑ n, w n * ‖predResidual D x s g n‖ ^ 2 + lam * ∑ p, ‖g p‖ ^ 2

/-- Weighted covariance matrix of the past samples that `predResidual` uses. -/
noncomputable def pastCov (T D : ℕ) (w : Fin N → ℝ) (x : Fin C → Fin N → ℂ) : Matrix (Fin C × Fin T) (Fin C × Fin T) ℂ :=
  Matrix.of fun p q => ∑ n, (w n : ℂ) * past (x p.1) n (D + T - p.2) * star (past (x q.1) n (D + T - q.2))

/-- Default weights at one frequency: proportional to `1 / max(mean power over channels, eps)`, summing to one. -/
def IsDefaultWeights (eps : ℝ) (y : Fin C → Fin N → ℂ) (w : Fin N → ℝ) : Prop :=
  ∑ n, w n = 1 ∧ ∃ k : ℝ, ∀ n, w n * max ((∑ c, ‖y c n‖ ^ 2) / C) eps = k

end Spec
