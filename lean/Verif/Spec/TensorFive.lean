import Verif.Model.TensorFive
import Verif.Spec.Tensor

/-!
# Batches and their items: FIVE

The source model of FIVE is called with a tensor `(..., n_freq, n_frames)`, without a dimension for the sources.
-/

namespace Torchiva

/-- The source model `M` on tensors, called without a dimension for the sources, treats every item of the batch as the
model `m` treats a single source. -/
def FiveModelRep {τ σ : Type} (b : Shape) (F N : ℕ) (M : TenModel τ) (m : SourceModel σ F N)
    (S : τ → (List ℕ → σ) → Prop) : Prop :=
  ∀ (ts : τ) (ms : List ℕ → σ) (Y : Ten ℂ) (A : List ℕ → Fin F → Fin N → ℂ), S ts ms → Rep2 b F N Y A →
    ∃ w, M ts Y = .ok w ∧ Rep2 b F N w.1 (fun β => (m 1 (ms β) fun _ => A β).1 0) ∧
      S w.2 fun β => (m 1 (ms β) fun _ => A β).2

end Torchiva
