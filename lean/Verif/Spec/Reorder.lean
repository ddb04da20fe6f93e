import Verif.Model.TIss
import Verif.Model.Wpe

/-!
# Specification: changes of phase convention, of the order of the frames and of the order of the frequencies
-/

namespace Spec

open Torchiva

/-- A unit-modulus factor per frequency and frame (common to all channels), an order of the frequencies and an order of the
frames. -/
structure Reorder (F N : ℕ) where
  u : Fin F → Fin N → ℂ
  unit : ∀ f n, ‖u f n‖ = 1
  freq : Equiv.Perm (Fin F)
  frame : Equiv.Perm (Fin N)

/-- The multichannel signal seen through the change of convention. -/
def Reorder.sig {F N c : ℕ} (r : Reorder F N) (X : Sig c F N) : Sig c F N :=
  fun c f n => r.u f n * X c (r.freq f) (r.frame n)

/-- Weights seen through the change of convention. -/
def Reorder.weights {F N s : ℕ} (r : Reorder F N) (w : Weights s F N) : Weights s F N :=
  fun k f n => w k (r.freq f) (r.frame n)

/-- A source model that follows the change of convention (it sees magnitudes only and does not depend on the order). -/
def Follows {σ : Type} {F N : ℕ} (r : Reorder F N) (model : SourceModel σ F N) : Prop :=
  ∀ s ms (Y : Sig s F N), model s ms (r.sig Y) = (r.weights (model s ms Y).1, (model s ms Y).2)

/-- The same for the source models of WPE, which return one weight per frequency and frame. -/
def FollowsWpe {σ : Type} {C F N : ℕ} (r : Reorder F N) (model : WpeModel σ C F N) : Prop :=
  ∀ ms (Y : Sig C F N), model ms (r.sig Y) = (fun f n => (model ms Y).1 (r.freq f) (r.frame n), (model ms Y).2)

/-- The order of the frames is kept and, at each frequency, the factor advances by a constant phase from one frame to the
next.  Moving the time origin of a short-time Fourier transform, or counting the phase of each frame from the start of the
recording instead of from the start of the frame, is of this form. -/
def Reorder.KeepsTime {F N : ℕ} (r : Reorder F N) : Prop :=
  r.frame = 1 ∧ ∃ a b : Fin F → ℂ, (∀ f, ‖b f‖ = 1) ∧ ∀ f n, r.u f n = a f * b f ^ n.1

end Spec
