import Verif.Model.AuxIva

/-!
# Model of torchiva/five.py

One batch item.  The input has `F + 1` frequencies (the code drops bin 0; an input with no frequency at all is not
modelled).  `solver` is `torch.linalg.eigh`.  Division by the number of frames is by a
nonzero number of frames in every meaningful call (`N = 0` gives nan in the code and 0 here).
-/

namespace Torchiva

open Matrix

section five
variable {C F N : ℕ}

/-- torchiva/five.py:178-179: Hermitised sample covariance at one frequency. -/
noncomputable def fiveCov (x : Fin C → Fin N → ℂ) : Matrix (Fin C) (Fin C) ℂ :=
  let Cx : Matrix (Fin C) (Fin C) ℂ := Matrix.of fun c d => (∑ n, x c n * star (x d n)) / N
  (0.5 : ℂ) • (Cx + Cxᴴ)

/-- torchiva/five.py:191-192: Whitening data at one frequency. -/
structure Whiten (C : ℕ) where
  Q : Matrix (Fin C) (Fin C) ℂ
  Qinv : Matrix (Fin C) (Fin C) ℂ

/-- torchiva/five.py:181-192: the whitening matrix and its inverse. -/
noncomputable def fiveWhiten (solver : Matrix (Fin C) (Fin C) ℂ → EigRes (Fin C))
    (Cx : Matrix (Fin C) (Fin C) ℂ) : Except Err (Whiten C) := do
  let r ← eigh solver Cx none 1e-15
  -- torch.flip
  let val : Fin C → ℝ := fun i => r.val i.rev
  let vec : Matrix (Fin C) (Fin C) ℂ := Matrix.of fun i j => r.vec i j.rev
  let valSqrt : Fin C → ℝ := fun i => √(clampMin (val i) 1e-5)
  return ⟨Matrix.of fun i j => ((1 / valSqrt i : ℝ) : ℂ) * vecᴴ i j,
    Matrix.of fun i j => vec i j * (valSqrt j : ℂ)⟩

/-- torchiva/five.py:224-225: Hermitised weighted covariance (not divided by the number of frames). -/
noncomputable def fiveWCov (x : Fin C → Fin N → ℂ) (w : Fin N → ℝ) : Matrix (Fin C) (Fin C) ℂ :=
  let V : Matrix (Fin C) (Fin C) ℂ := Matrix.of fun c d => ∑ n, (w n : ℂ) * x c n * star (x d n)
  (0.5 : ℂ) • (V + Vᴴ)

/-- torchiva/five.py:36-50 `smallest_eigenvector_eigh_cpu` (the eigenvector; the eigenvalue is unused by the
caller). -/
noncomputable def smallestEigh [NeZero C] (solver : Matrix (Fin C) (Fin C) ℂ → EigRes (Fin C))
    (V : Matrix (Fin C) (Fin C) ℂ) : Fin C → ℂ := fun c => (solver V).vec c 0

/-- torchiva/five.py:70: `torch.sgn` of a complex number. -/
noncomputable def csgn (z : ℂ) : ℂ := open Classical in if z = 0 then 0 else z / (‖z‖ : ℂ)

/-- torchiva/five.py:32-33 `normalize` on `(..., n_freq, n_chan)`: the norm runs over `dim=-2`, which is the
frequency axis.  A zero norm gives 0/0. -/
noncomputable def fiveNormalize (x : Fin F → Fin C → ℂ) : Except Err (Fin F → Fin C → ℂ) :=
  open Classical in
  if ∃ p : Fin F × Fin C, √(∑ f, ‖x f p.2‖ ^ 2) = 0 then .error .nonFinite
  else .ok fun f c => x f c / (√(∑ f, ‖x f c‖ ^ 2) : ℝ)

/-- torchiva/five.py:64-67: one power iteration at all frequencies.  A zero norm gives 0/0. -/
noncomputable def powerStep (Vinv : Fin F → Matrix (Fin C) (Fin C) ℂ) (x : Fin F → Fin C → ℂ) :
    Except Err (Fin F → Fin C → ℂ) :=
  let y : Fin F → Fin C → ℂ := fun f => Vinv f *ᵥ x f
  open Classical in
  if ∃ f, √(∑ c, ‖y f c‖ ^ 2) = 0 then .error .nonFinite
  else .ok fun f c => y f c / (√(∑ c, ‖y f c‖ ^ 2) : ℝ)

/-- torchiva/five.py:53-73 `smallest_eigenvector_power_method`.  The variable `ev` is only bound inside the
loop, so `n_iter = 1` (or less) ends in `UnboundLocalError`. -/
noncomputable def smallestPower [NeZero C] (V : Fin F → Matrix (Fin C) (Fin C) ℂ) (nIter : ℕ) :
    Except Err (Fin F → Fin C → ℂ) := do
  let Vinv ← seqAll fun f => invLoaded (V f) 1e-5
  let x ← fiveNormalize fun f c => Vinv f c 0
  let x ← iterM (powerStep Vinv) (nIter - 1) x
  let y : Fin F → Fin C → ℂ := fun f c => x f c * star (csgn (x f 0))
  if nIter - 1 = 0 then .error .unboundLocalError else return y

/-- torchiva/five.py:227-235: the demixing vectors at all frequencies. -/
noncomputable def fiveVectors [NeZero C] (solver : Matrix (Fin C) (Fin C) ℂ → EigRes (Fin C))
    (nPower : Option ℕ) (V : Fin F → Matrix (Fin C) (Fin C) ℂ) : Except Err (Fin F → Fin C → ℂ) :=
  match nPower with
  | none => .ok fun f => smallestEigh solver (V f)
  | some n => smallestPower V n

/-- torchiva/five.py:217-221: State of the loop: the current signal and the source model. -/
structure FiveState (σ : Type) (F N : ℕ) where
  Y : Fin F → Fin N → ℂ
  ms : σ

/-- torchiva/five.py:217-242: one iteration.  `Xw` is the whitened signal, `qref f` the row of `Qinv` of the reference
microphone.  The source model sees a single signal. -/
noncomputable def fiveEpoch [NeZero C] {σ : Type} (solver : Matrix (Fin C) (Fin C) ℂ → EigRes (Fin C))
    (nPower : Option ℕ) (Xw : Sig C F N) (qref : Fin F → Fin C → ℂ) (model : SourceModel σ F N)
    (st : FiveState σ F N) : Except Err (FiveState σ F N) := do
  let (weights, ms) := model 1 st.ms fun _ => st.Y
  let V : Fin F → Matrix (Fin C) (Fin C) ℂ := fun f => fiveWCov (fun c => Xw c f) (weights 0 f)
  let ev ← fiveVectors solver nPower V
  let z : Fin F → ℂ := fun f => ∑ c, qref f c * ev f c
  let w : Fin F → Fin C → ℂ := fun f c => ev f c * star (z f)
  return ⟨fun f n => ∑ c, star (w f c) * Xw c f n, ms⟩

/-- torchiva/five.py:143-248 `FIVE.forward` (resolved parameters, a reference microphone in range; for
`proj_back_mic=None` see the shape model). -/
noncomputable def fiveForward [NeZero C] {σ : Type} (solver : Matrix (Fin C) (Fin C) ℂ → EigRes (Fin C))
    (nIter : ℕ) (ref : Fin C) (nPower : Option ℕ) (X : Sig C (F + 1) N) (model : SourceModel σ F N)
    (reset : σ → σ) (ms : σ) : Except Err (Sig 1 (F + 1) N) := do
  -- X[..., 1:, :]
  let X1 : Sig C F N := fun c f n => X c f.succ n
  let Cx : Fin F → Matrix (Fin C) (Fin C) ℂ := fun f => fiveCov fun c => X1 c f
  let wh ← seqAll fun f => fiveWhiten solver (Cx f)
  let Xw : Sig C F N := fun c f n => ∑ d, (wh f).Q c d * X1 d f n
  -- initial estimate and its projection back
  let z : Fin F → ℂ := fun f => ∑ c, (wh f).Q 0 c * Cx f c ref
  let Y0 : Fin F → Fin N → ℂ := fun f n => z f * Xw 0 f n
  let st ← iterM (fiveEpoch solver nPower Xw (fun f c => (wh f).Qinv ref c) model) nIter ⟨Y0, reset ms⟩
  -- zero DC bin in front
  return fun _ f n => if h : f = 0 then 0 else st.Y (f.pred h) n

end five

end Torchiva
