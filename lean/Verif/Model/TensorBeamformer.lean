import Verif.Model.TensorEigh

/-!
# Beamformers on tensors

torchiva/beamformer.py, statement by statement, on recordings with any number of batch dimensions.  The mask model is
a function of the reference channels of the batch that returns real masks.
-/

namespace Torchiva

/-- torchiva/beamformer.py:254, 384, 483: a mask model on tensors. -/
abbrev MaskT := Ten ℂ → Except Err (Ten ℝ)

/-- torchiva/beamformer.py:61-63 `compute_mwf_bf` with `ref_mic`: the loading is the default of `solve_loaded`. -/
noncomputable def mwfBfT (Rt Rn : Ten ℂ) (ref : ℕ) : Except Err (Ten ℂ) := do
  let R ← Ten.map2 (fun x y => x + y) Rt Rn
  let r ← Rt.sel 0 ref
  solveLoadedT R r 1e-6

/-- torchiva/beamformer.py:101: `torch.nn.functional.normalize(v, dim=-1)`. -/
noncomputable def nnNormalizeT (v : Ten ℂ) : Except Err (Ten ℂ) := do
  let q ← normKeep v
  Ten.map2 (fun x d => x / (d : ℂ)) v (q.map fun x => clampMin x 1e-12)

/-- torchiva/beamformer.py:91-101: the dominant generalised eigenvectors. -/
noncomputable def rtfVectorT (solver : Solver) (Rt Rn : Ten ℂ) (nPower : Option ℕ) : Except Err (Ten ℂ) :=
  match nPower with
  | none => do
    let r ← eighT solver Rt (some Rn) 1e-15
    r.vec.sel 0 (r.vec.shape.headD 0 - 1)
  | some n => do
    let Phi ← solveLoadedT Rn Rt 1e-5
    let v ← Phi.sel 0 0
    iterM (fun v => do
      let v ← einsumT [("cd", Phi), ("d", v)] "c"
      nnNormalizeT v) (n - 1) v

/-- torchiva/beamformer.py:66-109 `compute_mvdr_rtf_eigh`. -/
noncomputable def mvdrRtfT (solver : Solver) (Rt Rn : Ten ℂ) (ref : ℕ) (nPower : Option ℕ) : Except Err (Ten ℂ) := do
  let v ← rtfVectorT solver Rt Rn nPower
  let d ← einsumT [("cd", Rn), ("d", v)] "c"
  let scale ← d.pick 0 ref
  Ten.div d scale

/-- torchiva/beamformer.py:112-122 `compute_mvdr_bf`. -/
noncomputable def mvdrBfT (R d : Ten ℂ) (eps : ℝ) : Except Err (Ten ℂ) := do
  let a ← solveLoadedT R d eps
  let den ← einsumT [("c", d.map star), ("c", a)] ""
  let den := (den.map Complex.re).map fun x => clampMin x eps
  let den ← den.unsq 0
  Ten.div a den.toC

/-- torchiva/beamformer.py:133: `torch.diagonal(x, dim1=-2, dim2=-1)`. -/
def Ten.diagonal {α : Type} (t : Ten α) : Except Err (Ten α) :=
  match t.shape with
  | n :: m :: s => .ok ⟨min n m :: s, fun idx => t.val (idx.headD 0 :: idx.headD 0 :: idx.tail)⟩
  | _ => .error .indexError

/-- torchiva/beamformer.py:125-136 `compute_mvdr_bf2`. -/
noncomputable def mvdrBf2T (Rt Rn : Ten ℂ) (ref : ℕ) : Except Err (Ten ℂ) := do
  let num ← solveT Rn Rt
  let dg ← num.diagonal
  let den ← dg.sum 0
  let den ← den.unsq 0
  let den ← den.unsq 0
  let w ← Ten.div num den
  w.sel 0 ref

/-- torchiva/beamformer.py:139-158 `compute_gev_bf`. -/
noncomputable def gevBfT (solver : Solver) (Rt Rn : Ten ℂ) (ref : ℕ) : Except Err (Ten ℂ) := do
  let r ← eighT solver Rt (some Rn) 1e-15
  let n := r.vec.shape.headD 0
  -- torch.eye(n)[:, -1, None]
  let rhs ← (Ten.eye n n).sel 0 (n - 1)
  let rhs ← rhs.unsq 0
  let vH ← hermiteT r.vec
  let st ← solveT vH rhs
  let scale ← st.sel 1 ref
  let scale ← scale.swap12
  let v ← r.vec.sel 0 (n - 1)
  let v ← v.swap12
  Ten.map2 (fun x y => x * y) (v.map star) scale

/-- torchiva/beamformer.py:257-264, 386-392, 485-491: mask number `i` and its covariance matrices. -/
noncomputable def maskCovT (masks : Ten ℝ) (X : Ten ℂ) (i : ℕ) : Except Err (Ten ℂ) := do
  let m ← masks.sel 2 i
  einsumT [("sfn", m.toC), ("cfn", X), ("dfn", X.map star)] "sfcd"

/-- torchiva/beamformer.py:235-306 `MVDRBeamformer.forward` after parameter resolution. -/
noncomputable def mvdrForwardT (solver : Solver) (mask : MaskT) (ref : ℕ) (eps : ℝ) (mvdrType : String)
    (nPower : Option ℕ) (X : Ten ℂ) : Except Err (Ten ℂ) := do
  let x ← X.sel 2 ref
  let masks ← mask x
  let nMasks := masks.shape.getD 2 0
  if nMasks = 2 then
    let Rt ← maskCovT masks X 0
    let Rn ← maskCovT masks X 1
    if mvdrType = "rtf" then
      let rtf ← mvdrRtfT solver Rt Rn ref nPower
      let bf ← mvdrBfT Rn rtf eps
      einsumT [("cfn", X), ("sfc", bf.map star)] "sfn"
    else if mvdrType = "scm" then
      let bf ← mvdrBf2T Rt Rn ref
      einsumT [("cfn", X), ("sfc", bf.map star)] "sfn"
    else .error .unboundLocalError
  else if nMasks = 3 then
    let Rt ← maskCovT masks X 0
    let Rn ← maskCovT masks X 1
    let Rn2 ← maskCovT masks X 2
    let rtf ← mvdrRtfT solver Rt Rn2 ref nPower
    let bf ← mvdrBfT Rn rtf eps
    einsumT [("cfn", X), ("sfc", bf.map star)] "sfn"
  else .error .unboundLocalError

/-- torchiva/beamformer.py:408-409: `R[..., :, None, :, :] * V[..., :, :, None, None]`. -/
noncomputable def scaleCovT (R : Ten ℂ) (V : Ten ℝ) : Except Err (Ten ℂ) := do
  let R ← R.unsq 2
  let V ← V.unsq 0
  let V ← V.unsq 0
  Ten.map2 (fun x y => x * y) R V.toC

/-- torchiva/beamformer.py:367-418 `MWFBeamformer.forward` after parameter resolution. -/
noncomputable def mwfForwardT (mask : MaskT) (ref : ℕ) (timeInvariant : Bool) (X : Ten ℂ) : Except Err (Ten ℂ) := do
  let x ← X.sel 2 ref
  let masks ← mask x
  let Rt ← maskCovT masks X 0
  let Rn ← maskCovT masks X 1
  if timeInvariant then
    let bf ← mwfBfT Rt Rn ref
    einsumT [("cfn", X), ("sfc", bf.map star)] "sfn"
  else if masks.shape.getD 2 0 = 4 then
    let Vt ← masks.sel 2 2
    let Vn ← masks.sel 2 3
    let Rt ← scaleCovT Rt Vt
    let Rn ← scaleCovT Rn Vn
    let bf ← mwfBfT Rt Rn ref
    einsumT [("cfn", X), ("sfnc", bf.map star)] "sfn"
  else .error .assertionError

/-- torchiva/beamformer.py:468-500 `GEVBeamformer.forward` after parameter resolution. -/
noncomputable def gevForwardT (solver : Solver) (mask : MaskT) (ref : ℕ) (X : Ten ℂ) : Except Err (Ten ℂ) := do
  let x ← X.sel 2 ref
  let masks ← mask x
  let Rt ← maskCovT masks X 0
  let Rn ← maskCovT masks X 1
  let bf ← gevBfT solver Rt Rn ref
  let XT ← X.swap12
  let Y ← bmmT bf XT
  Y.swap12

end Torchiva
