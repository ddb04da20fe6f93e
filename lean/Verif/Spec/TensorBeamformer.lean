import Verif.Model.Beamformer
import Verif.Model.TensorBeamformer
import Verif.Spec.Tensor

/-!
# Comparing a batch with its items when several exceptions are possible

A beamformer works on all sources, frequencies and items of a batch at once: when two of them fail in different ways (a
singular covariance matrix, a division by zero), which failure is reported depends on the order of the
operations.  The comparison below does not say which.
-/

namespace Torchiva

/-- The outcome `x` of a batched computation compared with the outcomes `y β` of the items: it returns exactly when
all items return, and then holds their results. -/
def BatchedOk {ρ A : Type} (b : Shape) (R : ρ → (List ℕ → A) → Prop) (x : Except Err ρ)
    (y : List ℕ → Except Err A) : Prop :=
  match x with
  | .ok t => ∃ a : List ℕ → A, (∀ β, Inside β b → y β = .ok (a β)) ∧ R t a
  | .error _ => ∃ β e, Inside β b ∧ y β = .error e

/-- The outcome `x` of a computation on a batch compared with the outcomes `x1 β` of the same computation on every
item alone: it returns only if all of these return, and then `Q β` relates the results; if it
raises, so does one of them. -/
def AsAloneOk {ρ : Type} (b : Shape) (Q : List ℕ → ρ → ρ → Prop) (x : Except Err ρ)
    (x1 : List ℕ → Except Err ρ) : Prop :=
  match x with
  | .ok t => ∀ β, Inside β b → ∃ t1, x1 β = .ok t1 ∧ Q β t t1
  | .error _ => ∃ β e, Inside β b ∧ x1 β = .error e

/-- The mask model `T` on tensors computes for every item of the batch the `M` masks that the model `m` computes. -/
def MaskRep (b : Shape) (S F N M : ℕ) (T : MaskT) (m : (Fin F → Fin N → ℂ) → MaskOut S F N) : Prop :=
  ∀ (x : Ten ℂ) (A : List ℕ → Fin F → Fin N → ℂ), Rep2 b F N x A → ∃ t, T x = .ok t ∧
    ∃ a : List ℕ → Fin S → Fin M → Fin F → Fin N → ℝ, Rep4 b S M F N t a ∧ ∀ β, m (A β) = ⟨M, a β⟩

end Torchiva
