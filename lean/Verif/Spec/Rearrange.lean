import Verif.Spec.Reorder
import Verif.Spec.Beamformer
import Verif.Model.Beamformer

/-!
# Specification: another order of the microphones, besides the changes of `Spec.Reorder`
-/

namespace Spec

open Torchiva

/-- The microphones of the array listed in another order: channel `c` of the new recording is channel `mic c` of the old one. -/
def relabel {C F N : ℕ} (mic : Equiv.Perm (Fin C)) (X : Sig C F N) : Sig C F N := fun c => X (mic c)

/-- A mask model that follows the change of convention. -/
def FollowsMask {S F N : ℕ} (r : Reorder F N) (maskModel : (Fin F → Fin N → ℂ) → MaskOut S F N) : Prop :=
  ∀ x, maskModel (fun f n => r.u f n * x (r.freq f) (r.frame n))
    = ⟨(maskModel x).1, fun s m f n => (maskModel x).2 s m (r.freq f) (r.frame n)⟩

/-- All vectors with the greatest ratio of target to noise power are multiples of each other. -/
def UniqueBest {C : ℕ} (Rt Rn : Matrix (Fin C) (Fin C) ℂ) : Prop :=
  ∀ v w, IsMaxSnr Rt Rn v → IsMaxSnr Rt Rn w → ∃ z : ℂ, w = z • v

/-- What the decompositions need, at one frequency and one source: the masked noise covariance matrix is bounded away from zero and
no second direction attains the same ratio of powers. -/
def WellPosed {C F N : ℕ} (X : Sig C F N) (target noise : Fin F → Fin N → ℝ) (f : Fin F) : Prop :=
  (∀ v, 1e-5 * ∑ k, ‖v k‖ ^ 2 ≤ power (fun c d => ∑ n, (noise f n : ℂ) * X c f n * star (X d f n)) v) ∧
  UniqueBest (fun c d => ∑ n, (target f n : ℂ) * X c f n * star (X d f n))
    (fun c d => ∑ n, (noise f n : ℂ) * X c f n * star (X d f n))

/-- A source model of WPE that does not depend on the order of the channels. -/
def IgnoresOrder {σ : Type} {C F N : ℕ} (mic : Equiv.Perm (Fin C)) (model : σ → Sig C F N → (Fin F → Fin N → ℝ) × σ) : Prop :=
  ∀ ms Y, model ms (relabel mic Y) = model ms Y

end Spec
