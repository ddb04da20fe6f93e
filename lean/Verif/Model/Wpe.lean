import Verif.Model.TIss

/-!
# Model of torchiva/wpe.py

One batch item, `n_taps` and `n_delay` nonnegative.  A custom source model is an arbitrary stateful function
returning real weights of shape `(n_freq, n_frames)` (WPE does not reset it).
-/

namespace Torchiva

open Matrix

section wpe
variable {C F N T : ℕ}

/-- torchiva/wpe.py:64-68: A WPE source model. -/
abbrev WpeModel (σ : Type) (C F N : ℕ) := σ → Sig C F N → (Fin F → Fin N → ℝ) × σ

/-- torchiva/wpe.py:28-29 `derev`. -/
noncomputable def wpeDerev (H : Fin F → Matrix (Fin C × Fin T) (Fin C) ℂ) (X : Sig C F N) (Xbar : Taps C F T N) :
    Sig C F N := fun s f n => X s f n - ∑ c, ∑ t, star (H f (c, t) s) * Xbar c f t n

/-- torchiva/wpe.py:32-35 `wpe_default_weights`.  Divisions by exactly zero are reported. -/
noncomputable def wpeDefaultWeights (Y : Sig C F N) (eps : ℝ) : Except Err (Fin F → Fin N → ℝ) :=
  let d : Fin F → Fin N → ℝ := fun f n => clampMin ((∑ c, magSq (Y c f n)) / C) eps
  let w : Fin F → Fin N → ℝ := fun f n => 1 / d f n
  open Classical in
  if ∃ p : Fin F × Fin N, d p.1 p.2 = 0 ∨ ∑ n, w p.1 n = 0 then .error .nonFinite
  else .ok fun f n => w f n / ∑ n, w f n

/-- torchiva/wpe.py:71-72: weighted covariance of the delayed taps; the reshape to `(Lh, Lh)` is the pairing of
channel and tap. -/
noncomputable def wpeAcm (w : Fin F → Fin N → ℝ) (Xbar : Taps C F T N) (f : Fin F) :
    Matrix (Fin C × Fin T) (Fin C × Fin T) ℂ :=
  Matrix.of fun p q => ∑ n, (w f n : ℂ) * Xbar p.1 f p.2 n * star (Xbar q.1 f q.2 n)

/-- torchiva/wpe.py:73: weighted cross-covariance of the taps with the input. -/
noncomputable def wpeXcv (w : Fin F → Fin N → ℝ) (X : Sig C F N) (Xbar : Taps C F T N) (f : Fin F) :
    Matrix (Fin C × Fin T) (Fin C) ℂ :=
  Matrix.of fun p s => ∑ n, (w f n : ℂ) * Xbar p.1 f p.2 n * star (X s f n)

/-- torchiva/wpe.py:38-87 `wpe_one_iter` with weights already computed. -/
noncomputable def wpeFilter (w : Fin F → Fin N → ℝ) (X : Sig C F N) (Xbar : Taps C F T N) (eps : ℝ) :
    Except Err (Fin F → Matrix (Fin C × Fin T) (Fin C) ℂ) :=
  seqAll fun f => solveLoaded (wpeAcm w Xbar f) (wpeXcv w X Xbar f) eps

/-- torchiva/wpe.py:164-166: Loop state: current estimate and source model. -/
structure WpeState (σ : Type) (C F N : ℕ) where
  Y : Sig C F N
  ms : σ

/-- torchiva/wpe.py:64-68 and 164-166: the body of the main loop. -/
noncomputable def wpeStep {σ : Type} (X : Sig C F N) (Xbar : Taps C F T N) (model : Option (WpeModel σ C F N))
    (eps : ℝ) (st : WpeState σ C F N) : Except Err (WpeState σ C F N) := do
  let (w, ms) ← match model with
    | none => (wpeDefaultWeights st.Y eps).map fun w => (w, st.ms)
    | some m => pure (m st.ms st.Y)
  let H ← wpeFilter w X Xbar eps
  return ⟨wpeDerev H X Xbar, ms⟩

/-- torchiva/wpe.py:155-168 `WPE.forward` after parameter resolution, with the final source model state. -/
noncomputable def wpeRun {σ : Type} (nIter T D : ℕ) (eps : ℝ) (X : Sig C F N) (model : Option (WpeModel σ C F N))
    (ms : σ) : Except Err (WpeState σ C F N) :=
  iterM (wpeStep X (delayedTaps X T D) model eps) nIter ⟨X, ms⟩

/-- torchiva/wpe.py:136-168: `WPE.forward`: the returned signal. -/
noncomputable def wpeForward {σ : Type} (nIter T D : ℕ) (eps : ℝ) (X : Sig C F N) (model : Option (WpeModel σ C F N))
    (ms : σ) : Except Err (Sig C F N) := (wpeRun nIter T D eps X model ms).map (·.Y)

end wpe

end Torchiva
