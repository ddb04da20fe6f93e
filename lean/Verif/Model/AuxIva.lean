import Verif.Model.TIss

/-!
# Model of torchiva/auxiva_ip.py and torchiva/auxiva_ip2.py

One batch item.  The demixing matrix is stored per frequency (`...f, source, channel` in the code):
`W : Fin F → Matrix (Fin s) (Fin C) ℂ`.
-/

namespace Torchiva

open Matrix

section ip
variable {s C F N : ℕ}

/-- torchiva/auxiva_ip.py:38-53 `orthogonal_constraint`, at one frequency. -/
noncomputable def orthogonalConstraint (W : Matrix (Fin s) (Fin C) ℂ) (Cx : Matrix (Fin C) (Fin C) ℂ)
    (load : ℝ) : Except Err (Option (Matrix (Fin (C - s)) (Fin s) ℂ)) :=
  if _h : s = C then .ok none
  else if h2 : C < s then .error .valueError
  else do
    let A := W * Cx
    let JH ← solveLoadedGeneral
      (Matrix.of fun (k : Fin s) (d : Fin s) => A k (Fin.castLE (by omega) d))
      (Matrix.of fun (k : Fin s) (d : Fin (C - s)) => A k ⟨s + d, by omega⟩) load load
    return some JHᴴ

/-- torchiva/auxiva_ip.py:56-105 `projection_back_from_demixing_matrix`: the scales `a` at one
frequency (the `load` argument is unused by the code, `solve_loaded_general` runs with its defaults).
`ref_mic` is a nonnegative index. -/
noncomputable def projectionBackDemixing (W : Matrix (Fin s) (Fin C) ℂ)
    (J : Option (Matrix (Fin (C - s)) (Fin s) ℂ)) (refMic : ℕ) : Except Err (Fin s → ℂ) :=
  match J with
  | none =>
    if refMic < C then do
      let a ← solveLoadedGeneral Wᵀ
        (Matrix.of fun (c : Fin C) (_ : Fin 1) => if c.1 = refMic then 1 else 0) 1e-5 1e-5
      return fun k => a k 0
    else .error .indexError
  | some J =>
    if hs : s ≤ C then do
      let A : Matrix (Fin s) (Fin s) ℂ := Matrix.of fun k d => W k (Fin.castLE hs d)
      let B : Matrix (Fin s) (Fin (C - s)) ℂ := Matrix.of fun k d => W k ⟨s + d, by omega⟩
      let e1 : Matrix (Fin s) (Fin 1) ℂ ←
        (if refMic < s then .ok (Matrix.of fun d _ => if d.1 = refMic then 1 else 0)
          else if h2 : refMic - s < C - s then .ok (Matrix.of fun d _ => J ⟨refMic - s, h2⟩ d)
          else .error .indexError : Except Err (Matrix (Fin s) (Fin 1) ℂ))
      let WW := A + B * J
      let a ← solveLoadedGeneral WWᵀ e1 1e-5 1e-5
      return fun k => a k 0
    else .error .runtimeError

/-- torchiva/auxiva_ip.py:268-270: the weighted spatial covariance of source `k` at one frequency. -/
noncomputable def weightedCov (x : Fin C → Fin N → ℂ) (w : Fin N → ℝ) : Matrix (Fin C) (Fin C) ℂ :=
  Matrix.of fun c d => ∑ n, (x c n * (w n : ℂ)) * star (x d n)

/-- torchiva/auxiva_ip.py:273-278: `WV`. -/
noncomputable def stackWV (hs : s ≤ C) (W : Matrix (Fin s) (Fin C) ℂ)
    (J : Option (Matrix (Fin (C - s)) (Fin s) ℂ)) (V : Matrix (Fin C) (Fin C) ℂ) :
    Matrix (Fin C) (Fin C) ℂ := Matrix.of fun i d =>
  if h : i.1 < s then (W * V) ⟨i, h⟩ d
  else match J with
    | some J => (∑ e : Fin s, J ⟨i - s, by omega⟩ e * V (Fin.castLE hs e) d) - V i d
    | none => 0 -- no such row: `J` is `None` only if `s = C`

/-- torchiva/auxiva_ip.py:281-290: the new demixing row for source `k`. -/
noncomputable def ipNewRow (hs : s ≤ C) (W : Matrix (Fin s) (Fin C) ℂ)
    (J : Option (Matrix (Fin (C - s)) (Fin s) ℂ)) (V : Matrix (Fin C) (Fin C) ℂ) (k : Fin s) (eps : ℝ) :
    Except Err (Fin C → ℂ) := do
  let e : Matrix (Fin C) (Fin 1) ℂ := Matrix.of fun i _ => if i.1 = k.1 then 1 else 0
  let sol ← solveLoadedGeneral (stackWV hs W J V) e eps eps
  let newW : Fin C → ℂ := fun c => star (sol c 0)
  let scale : ℝ := (∑ c, ∑ d, newW c * star (newW d) * V c d).re
  return fun c => newW c / (√(clampMin scale eps) : ℝ)

/-- torchiva/auxiva_ip.py:262-293: the update of source `k` at one frequency, returning the new
demixing matrix and the `J` that was used. -/
noncomputable def ipSrcUpdate (hs : s ≤ C) (x : Fin C → Fin N → ℂ) (Cx : Matrix (Fin C) (Fin C) ℂ)
    (w : Fin s → Fin N → ℝ) (eps : ℝ) (W : Matrix (Fin s) (Fin C) ℂ) (k : Fin s) :
    Except Err (Matrix (Fin s) (Fin C) ℂ × Option (Matrix (Fin (C - s)) (Fin s) ℂ)) := do
  let J ← orthogonalConstraint W Cx eps
  let V := weightedCov x (w k)
  let newW ← ipNewRow hs W J V k eps
  return (W.updateRow k newW, J)

/-- torchiva/auxiva_ip.py:262-293: `for k in range(n_src)` at one frequency.  The code runs all
frequencies in lock step; they do not interact, and the only possible exceptions are singular systems,
which cannot occur for `eps > 0`. -/
noncomputable def ipSweep (hs : s ≤ C) (x : Fin C → Fin N → ℂ) (Cx : Matrix (Fin C) (Fin C) ℂ)
    (w : Fin s → Fin N → ℝ) (eps : ℝ) :
    List (Fin s) → Matrix (Fin s) (Fin C) ℂ × Option (Matrix (Fin (C - s)) (Fin s) ℂ) →
    Except Err (Matrix (Fin s) (Fin C) ℂ × Option (Matrix (Fin (C - s)) (Fin s) ℂ))
  | [], st => .ok st
  | k :: ks, st => ipSrcUpdate hs x Cx w eps st.1 k >>= ipSweep hs x Cx w eps ks

/-- torchiva/auxiva_ip.py:230-240, 252: what the main loop of `AuxIVA_IP.forward` carries. -/
structure IpState (σ : Type) (s C F N : ℕ) where
  Y : Sig s F N
  W : Fin F → Matrix (Fin s) (Fin C) ℂ
  J : Fin F → Option (Matrix (Fin (C - s)) (Fin s) ℂ)
  ms : σ

/-- torchiva/auxiva_ip.py:238: input covariance. -/
noncomputable def inputCov (X : Sig C F N) (f : Fin F) : Matrix (Fin C) (Fin C) ℂ :=
  Matrix.of fun c d => (∑ n, X c f n * star (X d f n)) / N

/-- torchiva/auxiva_ip.py:296: `Y = W X`. -/
noncomputable def demix (X : Sig C F N) (W : Fin F → Matrix (Fin s) (Fin C) ℂ) : Sig s F N :=
  fun c f n => ∑ d, W f c d * X d f n

/-- torchiva/auxiva_ip.py:248-296: one epoch. -/
noncomputable def ipEpoch {σ : Type} (hs : s ≤ C) (X : Sig C F N) (model : SourceModel σ F N) (eps : ℝ)
    (st : IpState σ s C F N) : Except Err (IpState σ s C F N) := do
  let (weights, ms) := model s st.ms st.Y
  let g := sourceGain st.Y eps
  let W : Fin F → Matrix (Fin s) (Fin C) ℂ := fun f => Matrix.of fun k c =>
    st.W f k c / (clampMin (√(g k)) eps : ℝ)
  let weights : Weights s F N := fun k f n => weights k f n * g k
  let r ← seqAll fun f => ipSweep hs (fun c => X c f) (inputCov X f) (fun k => weights k f) eps
    (List.finRange s) (W f, st.J f)
  return ⟨demix X fun f => (r f).1, fun f => (r f).1, fun f => (r f).2, ms⟩

/-- torchiva/auxiva_ip.py:202-306: resolved parameters of one `AuxIVA_IP.forward` call. -/
structure IpParams where
  nIter : ℕ
  projBackMic : Option ℕ
  eps : ℝ

/-- torchiva/auxiva_ip.py:306: the returned signal, with the state of the source model. -/
structure IpOut (σ : Type) (s F N : ℕ) where
  Y : Sig s F N
  ms : σ

/-- torchiva/auxiva_ip.py:202-306 `AuxIVA_IP.forward` (resolved parameters; `verbose=False`, see
the shape model for `cost`).  With `n_src = None` the shape tuple of line 230 contains `None`. -/
noncomputable def auxivaForward {σ : Type} (p : IpParams) (nSrc : Option ℕ) (X : Sig C F N)
    (model : SourceModel σ F N) (reset : σ → σ) (ms : σ) :
    Except Err (Σ s : ℕ, IpOut σ s F N) :=
  match nSrc with
  | none => .error .typeError
  | some s =>
    if hs : s ≤ C then do
      let W0 : Fin F → Matrix (Fin s) (Fin C) ℂ := fun _ => Matrix.of fun k c => if k.1 = c.1 then 1 else 0
      let J0 ← seqAll fun f => orthogonalConstraint (W0 f) (inputCov X f) p.eps
      let Y0 : Sig s F N := fun k => X (Fin.castLE hs k)
      let st ← iterM (ipEpoch hs X model p.eps) p.nIter ⟨Y0, W0, J0, reset ms⟩
      match p.projBackMic with
      | some m =>
        let a ← seqAll fun f => projectionBackDemixing (st.W f) (st.J f) m
        return ⟨s, fun k f n => st.Y k f n * a f k, st.ms⟩
      | none => return ⟨s, st.Y, st.ms⟩
    else .error .valueError -- raised by `orthogonal_constraint` (line 240)

end ip

section ip2
variable {F N : ℕ}

/-- torchiva/auxiva_ip2.py:56-64: the Hermitised weighted covariance at one frequency. -/
noncomputable def ip2Cov (x : Fin 2 → Fin N → ℂ) (w : Fin N → ℝ) : Matrix (Fin 2) (Fin 2) ℂ :=
  let V : Matrix (Fin 2) (Fin 2) ℂ := Matrix.of fun c d => (∑ n, (w n : ℂ) * x c n * star (x d n)) / N
  (0.5 : ℂ) • (V + Vᴴ)

/-- torchiva/auxiva_ip2.py:69-82: the scaled eigenvector matrix at one frequency (columns are
`eigvec / scale`). -/
noncomputable def ip2Eig (V : Fin 2 → Matrix (Fin 2) (Fin 2) ℂ) (eps : ℝ) :
    Except Err (Matrix (Fin 2) (Fin 2) ℂ) := do
  let r ← eigh2x2 ⟨2, 2, V 1⟩ (some ⟨2, 2, V 0⟩) eps
  -- torch.flip of the columns
  let vec : Matrix (Fin 2) (Fin 2) ℂ := Matrix.of fun i j => r.vec i (1 - j)
  let scale : Fin 2 → ℝ := fun k => ‖∑ i, star (vec i k) * ∑ j, V k i j * vec j k‖
  return Matrix.of fun i k => vec i k / (clampMin (√(clampMin (scale k) 1e-7)) eps : ℝ)

/-- torchiva/auxiva_ip2.py:29-91 `spatial_model_update_ip2` at one frequency: the new signals and the
demixing matrix `eigvecᴴ`.  `A = inv_2x2(W)` is computed by the caller when needed. -/
noncomputable def ip2Update (x : Fin 2 → Fin N → ℂ) (w : Fin 2 → Fin N → ℝ) (eps : ℝ) :
    Except Err (Matrix (Fin 2) (Fin 2) ℂ) := do
  let E ← ip2Eig (fun k => ip2Cov x (w k)) eps
  return Eᴴ

/-- torchiva/auxiva_ip2.py:187-192, 207: what the main loop of `AuxIVA_IP2.forward` carries. -/
structure Ip2State (σ : Type) (F N : ℕ) where
  X : Sig 2 F N
  W : Fin F → Matrix (Fin 2) (Fin 2) ℂ
  A : Fin F → Matrix (Fin 2) (Fin 2) ℂ
  ms : σ

/-- torchiva/auxiva_ip2.py:194-207: one epoch.  `inv_2x2` runs with its default `eps = 1e-6` and cannot
fail on 2x2 input; without projection back `W`, `A` stay `None`, which the model ignores (they are
computed but never used). -/
noncomputable def ip2Epoch {σ : Type} (Xo : Sig 2 F N) (model : SourceModel σ F N) (eps : ℝ)
    (st : Ip2State σ F N) : Except Err (Ip2State σ F N) := do
  let (weights, ms) := model 2 st.ms st.X
  let g : Fin 2 → ℝ := fun k => clampMin ((∑ f, ∑ n, magSq (st.X k f n)) / (F * N)) 1e-5
  -- line 203 rescales X, which is then overwritten
  let weights : Weights 2 F N := fun k f n => weights k f n * g k
  let W ← seqAll fun f => ip2Update (fun c => Xo c f) (fun k => weights k f) eps
  return ⟨fun c f n => ∑ d, W f c d * Xo d f n, W, fun f => inv2x2Core (W f) 1e-6, ms⟩

/-- torchiva/auxiva_ip2.py:154-213 `AuxIVA_IP2.forward` (resolved parameters).  `ref_mic` is an integer,
as the assertion also rejects negative values. -/
noncomputable def auxiva2Forward {σ : Type} {C : ℕ} (nIter : ℕ) (projBackMic : Option ℤ) (eps : ℝ)
    (X : Sig C F N) (model : SourceModel σ F N) (reset : σ → σ) (ms : σ) :
    Except Err (Sig 2 F N) :=
  if hC : C = 2 then
    if ∀ m ∈ projBackMic, 0 ≤ m ∧ m < C then do
      let Xo : Sig 2 F N := fun c => X (Fin.cast hC.symm c)
      let st ← iterM (ip2Epoch Xo model eps) nIter ⟨Xo, fun _ => 1, fun _ => 1, reset ms⟩
      match projBackMic with
      | some m =>
        if 0 < nIter then
          -- a = A[..., :, [m], :]: row m of A, indexed by source
          return fun c f n => st.A f (if m = 0 then 0 else 1) c * st.X c f n
        else return st.X
      | none => return st.X
    else .error .assertionError
  else .error .assertionError

end ip2

end Torchiva
