import Verif.Model.TIss

/-!
# Model of torchiva/beamformer.py

One batch item, complex input, `ref_mic` a valid nonnegative index, at least one channel.  The mask model is an
arbitrary function of the reference channel; it returns the number of masks it computes and the (real) masks.
-/

namespace Torchiva

open Matrix

section bf
variable {C S F N : ℕ}

/-- torchiva/beamformer.py:152: A vector as a one-column matrix (`torch.linalg.solve` with a vector right-hand side). -/
def colVec (d : Fin C → ℂ) : Matrix (Fin C) Unit ℂ := Matrix.of fun c _ => d c

/-- torchiva/beamformer.py:57-59 `compute_mwf_bf` without `ref_mic`. -/
noncomputable def mwfBfAll (Rt Rn : Matrix (Fin C) (Fin C) ℂ) (eps : ℝ) : Except Err (Matrix (Fin C) (Fin C) ℂ) :=
  solveLoaded (Rt + Rn) Rt eps

/-- torchiva/beamformer.py:61-63 `compute_mwf_bf` with `ref_mic`; `eps` is not passed on, so the loading is
the default 1e-6 of `solve_loaded`. -/
noncomputable def mwfBfRef (Rt Rn : Matrix (Fin C) (Fin C) ℂ) (_eps : ℝ) (ref : Fin C) : Except Err (Fin C → ℂ) := do
  let w ← solveLoaded (Rt + Rn) (colVec fun c => Rt c ref) 1e-6
  return fun c => w c ()

/-- torchiva/beamformer.py:101: `torch.nn.functional.normalize(v, dim=-1)`. -/
noncomputable def nnNormalize (v : Fin C → ℂ) : Fin C → ℂ :=
  fun c => v c / (clampMin (√(∑ c, ‖v c‖ ^ 2)) 1e-12 : ℝ)

/-- torchiva/beamformer.py:91-101: dominant generalised eigenvector, by GEVD or by power iteration. -/
noncomputable def rtfVector [NeZero C] (solver : Matrix (Fin C) (Fin C) ℂ → EigRes (Fin C))
    (Rt Rn : Matrix (Fin C) (Fin C) ℂ) (nPower : Option ℕ) : Except Err (Fin C → ℂ) :=
  match nPower with
  | none => do
    let r ← eigh solver Rt (some Rn) 1e-15
    return fun c => r.vec c (Fin.rev 0)
  | some n => do
    let Phi ← solveLoaded Rn Rt 1e-5
    return (fun v => nnNormalize (Phi *ᵥ v))^[n - 1] fun c => Phi c 0

open Classical in
/-- torchiva/beamformer.py:66-109 `compute_mvdr_rtf_eigh`.  The division by the reference entry is not
guarded. -/
noncomputable def mvdrRtf [NeZero C] (solver : Matrix (Fin C) (Fin C) ℂ → EigRes (Fin C))
    (Rt Rn : Matrix (Fin C) (Fin C) ℂ) (ref : Fin C) (nPower : Option ℕ) : Except Err (Fin C → ℂ) := do
  let v ← rtfVector solver Rt Rn nPower
  let d := Rn *ᵥ v
  if d ref = 0 then .error .nonFinite else return fun c => d c / d ref

open Classical in
/-- torchiva/beamformer.py:112-122 `compute_mvdr_bf`. -/
noncomputable def mvdrBf (R : Matrix (Fin C) (Fin C) ℂ) (d : Fin C → ℂ) (eps : ℝ) : Except Err (Fin C → ℂ) := do
  let a ← solveLoaded R (colVec d) eps
  let denom := clampMin (∑ c, star (d c) * a c ()).re eps
  if denom = 0 then .error .nonFinite else return fun c => a c () / (denom : ℂ)

open Classical in
/-- torchiva/beamformer.py:125-136 `compute_mvdr_bf2` (`eps` is unused). -/
noncomputable def mvdrBf2 (Rt Rn : Matrix (Fin C) (Fin C) ℂ) (ref : Fin C) : Except Err (Fin C → ℂ) := do
  let num ← solve Rn Rt
  let denom := ∑ c, num c c
  if denom = 0 then .error .nonFinite else return fun c => num c ref / denom

/-- torchiva/beamformer.py:139-158 `compute_gev_bf` for one source and frequency. -/
noncomputable def gevBf [NeZero C] (solver : Matrix (Fin C) (Fin C) ℂ → EigRes (Fin C))
    (Rt Rn : Matrix (Fin C) (Fin C) ℂ) (ref : Fin C) : Except Err (Fin C → ℂ) := do
  let r ← eigh solver Rt (some Rn) 1e-15
  let a ← solve r.vecᴴ (colVec fun c => if c = Fin.rev 0 then 1 else 0)
  return fun c => star (r.vec c (Fin.rev 0)) * a ref ()

/-- torchiva/beamformer.py:253-257, 384, 483: Output of a mask model: the number of masks and the masks `(n_src, n_masks, n_freq, n_frames)`. -/
abbrev MaskOut (S F N : ℕ) := (M : ℕ) × (Fin S → Fin M → Fin F → Fin N → ℝ)

/-- torchiva/beamformer.py:261-264, 286-289, 389-392, 488-491: masked covariance matrix. -/
noncomputable def maskCov (mask : Fin F → Fin N → ℝ) (X : Sig C F N) (f : Fin F) : Matrix (Fin C) (Fin C) ℂ :=
  Matrix.of fun c d => ∑ n, (mask f n : ℂ) * X c f n * star (X d f n)

/-- torchiva/beamformer.py:304, 401: apply the filters. -/
noncomputable def applyBf (X : Sig C F N) (bf : Fin S × Fin F → Fin C → ℂ) : Sig S F N :=
  fun s f n => ∑ c, X c f n * star (bf (s, f) c)

/-- torchiva/beamformer.py:235-306 `MVDRBeamformer.forward` after parameter resolution.  When no branch binds `bf`
the code raises `UnboundLocalError`. -/
noncomputable def mvdrForward [NeZero C] (solver : Matrix (Fin C) (Fin C) ℂ → EigRes (Fin C))
    (maskModel : (Fin F → Fin N → ℂ) → MaskOut S F N) (ref : Fin C) (eps : ℝ) (mvdrType : String)
    (nPower : Option ℕ) (X : Sig C F N) : Except Err (Sig S F N) :=
  match maskModel (X ref) with
  | ⟨2, masks⟩ => do
    let Rt : Fin S × Fin F → Matrix (Fin C) (Fin C) ℂ := fun p => maskCov (masks p.1 0) X p.2
    let Rn : Fin S × Fin F → Matrix (Fin C) (Fin C) ℂ := fun p => maskCov (masks p.1 1) X p.2
    if mvdrType = "rtf" then
      let rtf ← seqAll fun p => mvdrRtf solver (Rt p) (Rn p) ref nPower
      let bf ← seqAll fun p => mvdrBf (Rn p) (rtf p) eps
      return applyBf X bf
    else if mvdrType = "scm" then
      let bf ← seqAll fun p => mvdrBf2 (Rt p) (Rn p) ref
      return applyBf X bf
    else .error .unboundLocalError
  | ⟨3, masks⟩ => do
    let Rt : Fin S × Fin F → Matrix (Fin C) (Fin C) ℂ := fun p => maskCov (masks p.1 0) X p.2
    let Rn : Fin S × Fin F → Matrix (Fin C) (Fin C) ℂ := fun p => maskCov (masks p.1 1) X p.2
    let Rn2 : Fin S × Fin F → Matrix (Fin C) (Fin C) ℂ := fun p => maskCov (masks p.1 2) X p.2
    let rtf ← seqAll fun p => mvdrRtf solver (Rt p) (Rn2 p) ref nPower
    let bf ← seqAll fun p => mvdrBf (Rn p) (rtf p) eps
    return applyBf X bf
  | ⟨_, _⟩ => .error .unboundLocalError

/-- torchiva/beamformer.py:367-418 `MWFBeamformer.forward` after parameter resolution.  Fewer than two masks raise
`IndexError` at line 386. -/
noncomputable def mwfForward (maskModel : (Fin F → Fin N → ℂ) → MaskOut S F N) (ref : Fin C) (eps : ℝ)
    (timeInvariant : Bool) (X : Sig C F N) : Except Err (Sig S F N) :=
  match maskModel (X ref) with
  | ⟨M, masks⟩ =>
    if h : 2 ≤ M then do
      let Rt : Fin S × Fin F → Matrix (Fin C) (Fin C) ℂ := fun p => maskCov (masks p.1 ⟨0, by omega⟩) X p.2
      let Rn : Fin S × Fin F → Matrix (Fin C) (Fin C) ℂ := fun p => maskCov (masks p.1 ⟨1, by omega⟩) X p.2
      if timeInvariant then
        let bf ← seqAll fun p => mwfBfRef (Rt p) (Rn p) eps ref
        return applyBf X bf
      else if h4 : M = 4 then
        let bf ← seqAll fun p : (Fin S × Fin F) × Fin N => mwfBfRef
          ((masks p.1.1 ⟨2, by omega⟩ p.1.2 p.2 : ℂ) • Rt p.1) ((masks p.1.1 ⟨3, by omega⟩ p.1.2 p.2 : ℂ) • Rn p.1)
          eps ref
        return fun s f n => ∑ c, X c f n * star (bf ((s, f), n) c)
      else .error .assertionError
    else .error .indexError

/-- torchiva/beamformer.py:468-500 `GEVBeamformer.forward` after parameter resolution. -/
noncomputable def gevForward [NeZero C] (solver : Matrix (Fin C) (Fin C) ℂ → EigRes (Fin C))
    (maskModel : (Fin F → Fin N → ℂ) → MaskOut S F N) (ref : Fin C) (X : Sig C F N) : Except Err (Sig S F N) :=
  match maskModel (X ref) with
  | ⟨M, masks⟩ =>
    if h : 2 ≤ M then do
      let Rt : Fin S × Fin F → Matrix (Fin C) (Fin C) ℂ := fun p => maskCov (masks p.1 ⟨0, by omega⟩) X p.2
      let Rn : Fin S × Fin F → Matrix (Fin C) (Fin C) ℂ := fun p => maskCov (masks p.1 ⟨1, by omega⟩) X p.2
      let bf ← seqAll fun p => gevBf solver (Rt p) (Rn p) ref
      return fun s f n => ∑ c, bf (s, f) c * X c f n
    else .error .indexError

end bf

end Torchiva
