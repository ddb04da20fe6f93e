import Verif.Model.DType

/-!
# What "the result has the dtype and the precision of the input" means
-/

namespace Torchiva.Spec

open DT

/-- The call returns (no exception) a tensor with the dtype of `X`. -/
def ReturnsDtypeOf (X : TD) (e : Except Err TD) : Prop := ∃ Y, e = .ok Y ∧ Y.dtype = X.dtype

/-- The call returns a tensor of double precision no value of which was computed from numbers rounded to single
precision. -/
def ReturnsDouble (e : Except Err TD) : Prop :=
  ∃ Y, e = .ok Y ∧ (Y.dtype = .float64 ∨ Y.dtype = .complex128) ∧ Y.rounded = false

/-- The call returns a tensor of double precision, but values rounded to single precision went into it. -/
def ReturnsDegraded (e : Except Err TD) : Prop :=
  ∃ Y, e = .ok Y ∧ (Y.dtype = .float64 ∨ Y.dtype = .complex128) ∧ Y.rounded = true

/-- The states a source model can be in when, since its last reset, it was only called with signals of precision `p`
(signals free of rounding, when `exact`). -/
inductive Reachable (M : SrcModel) (p : Prec) (exact : Bool) : M.σ → Prop
  | reset : Reachable M p exact M.reset
  | step {s s' : M.σ} {X w : TD} : Reachable M p exact s → X.prec = p → (exact = true → X.rounded = false) →
      M.step s X = .ok (w, s') → Reachable M p exact s'

/-- A source model that, called with signals of precision `p` only, returns real weights of the same or a lower
precision; `exact`: signals free of rounding get weights free of rounding. -/
def WeightModel (M : SrcModel) (p : Prec) (exact : Bool) : Prop :=
  ∀ s X, Reachable M p exact s → X.prec = p → (exact = true → X.rounded = false) → ∃ w s', M.step s X = .ok (w, s') ∧
    w.cpx = false ∧ (w.prec = p ∨ w.prec = .single) ∧ (exact = true → w.rounded = false)

/-- A mask model that, for signals of precision `p`, returns real masks of the same or a lower precision. -/
def MaskDtypes (mask : TD → Except Err TD) (p : Prec) (exact : Bool) : Prop :=
  ∀ X, X.prec = p → (exact = true → X.rounded = false) → ∃ w, mask X = .ok w ∧
    w.cpx = false ∧ (w.prec = p ∨ w.prec = .single) ∧ (exact = true → w.rounded = false)

end Torchiva.Spec
