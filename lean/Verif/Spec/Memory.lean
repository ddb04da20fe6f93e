import Verif.Model.Memory

/-!
# What "does not modify my tensors" and "backward works" mean

Independent of any algorithm: only storages, their contents and versions are mentioned.
-/

namespace Torchiva
namespace Spec

open Memory

/-- Every storage that existed before still exists, with the same contents and the same version: no
tensor created before the call (input, model parameter, earlier result, ...) was written to. -/
structure Untouched (before after : Heap) : Prop where
  alive : before.next ≤ after.next
  same : ∀ i, i < before.next → after.cell i = before.cell i
  version : ∀ i, i < before.next → after.ver i = before.ver i

/-- The backward pass runs: everything autograd recorded is still at the recorded version. -/
def BackwardRuns (h : Heap) : Prop := ∀ p ∈ h.saved, p.1 < h.next ∧ h.ver p.1 = p.2

/-- The tensor exists. -/
def Exists {ι : Type} (h : Heap) (r : Ref ι) : Prop := r.id < h.next

/-- The tensor lives in a storage created after `before`: it shares memory with no tensor that existed
then. -/
def Fresh {ι : Type} (before : Heap) (r : Ref ι) : Prop := before.next ≤ r.id

end Spec
end Torchiva
