import Verif.Model.TIss
import Verif.Model.Wpe

/-! # Specification of "two models that cannot be told apart" -/

namespace Torchiva.Spec

variable {σ τ α β : Type} {C F N : ℕ}

/-- The same exception, or results that are related by `P`. -/
def Alike (P : α → β → Prop) (x : Except Err α) (y : Except Err β) : Prop :=
  (∃ a b, x = .ok a ∧ y = .ok b ∧ P a b) ∨ ∃ e, x = .error e ∧ y = .error e

/-- Two source models with internal states: whenever their states are related by `R` they return the same weights for the same signals, and their
states stay related. -/
def Indistinguishable (R : σ → τ → Prop) (m : SourceModel σ F N) (m' : SourceModel τ F N) : Prop :=
  ∀ s st st' (Y : Sig s F N), R st st' → (m s st Y).1 = (m' s st' Y).1 ∧ R (m s st Y).2 (m' s st' Y).2

/-- The same for models of WPE. -/
def WpeIndistinguishable (R : σ → τ → Prop) (m : WpeModel σ C F N) (m' : WpeModel τ C F N) : Prop :=
  ∀ st st' (Y : Sig C F N), R st st' → (m st Y).1 = (m' st' Y).1 ∧ R (m st Y).2 (m' st' Y).2

end Torchiva.Spec
