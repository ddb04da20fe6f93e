import Verif.Model.TensorNmf
import Verif.Spec.Tensor

/-!
# The state of an NMF model shared by the mixtures of a batch

The model flattens the batch dimensions and the sources: the factors of source `c` of mixture `β` are at position
`flatIdx (s :: b) (c :: β)` of the leading dimension.
-/

namespace Torchiva

/-- The factors held for the batch are those of the mixtures. -/
structure NmfHolds {s F N K : ℕ} (b : Shape) (t : NmfT) (a : List ℕ → NmfState s F N K) : Prop where
  shapeT : t.T.shape = [K, F, numel (s :: b)]
  shapeV : t.V.shape = [K, N, numel (s :: b)]
  shapeR : t.iR.shape = [N, F, numel (s :: b)]
  T : ∀ β, Inside β b → ∀ c f k, t.T.val [(k : Fin K), (f : Fin F), flatIdx (s :: b) ((c : Fin s) :: β)] = (a β).T c f k
  V : ∀ β, Inside β b → ∀ c n k, t.V.val [(k : Fin K), (n : Fin N), flatIdx (s :: b) ((c : Fin s) :: β)] = (a β).V c n k
  iR : ∀ β, Inside β b → ∀ c f n, t.iR.val [(n : Fin N), (f : Fin F), flatIdx (s :: b) ((c : Fin s) :: β)] = (a β).iR c f n

/-- What holds between calls: positive factors, and `iR` the reciprocal of their floored product. -/
def NmfGood {s F N K : ℕ} (eps : ℝ) (st : NmfState s F N K) : Prop :=
  (∀ c f k, 0 < st.T c f k) ∧ (∀ c n k, 0 < st.V c n k) ∧
    ∀ c f n, st.iR c f n = (max (∑ k, st.T c f k * st.V c n k) eps)⁻¹

/-- The model of the batch holds the models of the mixtures: it draws the same (nonnegative) random numbers, and is not
initialised or holds their factors. -/
structure NmfRep {s F N K : ℕ} (eps : ℝ) (b : Shape) (ts : NmfModelT) (ms : List ℕ → NmfItem s F N K) : Prop where
  uT : ∀ β, Inside β b → ∀ c f k, ts.uT [(k : Fin K), (f : Fin F), flatIdx (s :: b) ((c : Fin s) :: β)] = (ms β).uT c f k
  uV : ∀ β, Inside β b → ∀ c n k, ts.uV [(k : Fin K), (n : Fin N), flatIdx (s :: b) ((c : Fin s) :: β)] = (ms β).uV c n k
  nonnegT : ∀ β, Inside β b → ∀ c f k, 0 ≤ (ms β).uT c f k
  nonnegV : ∀ β, Inside β b → ∀ c n k, 0 ≤ (ms β).uV c n k
  st : (ts.st = none ∧ ∀ β, Inside β b → (ms β).st = none) ∨
    ∃ t a, ts.st = some t ∧ NmfHolds b t a ∧ ∀ β, Inside β b → (ms β).st = some (a β) ∧ NmfGood eps (a β)

end Torchiva
