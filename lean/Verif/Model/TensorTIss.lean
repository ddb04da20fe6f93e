import Verif.Model.Tensor

/-!
# torchiva/t_iss.py on tensors

The functions of torchiva/t_iss.py, statement by statement, on tensors with any number of leading
dimensions; `Model/TIss.lean` gives the same functions as formulas for one signal.
Subtraction, products, ... are written with `map2`; the conjugate is `map star`.
-/

namespace Torchiva

/-- torchiva/t_iss.py:234: a source model on tensors, possibly with a state. -/
abbrev TenModel (τ : Type) := τ → Ten ℂ → Except Err (Ten ℝ × τ)

/-- torchiva/models/classic.py:33-43 `LaplaceModel.forward` (complex input). -/
noncomputable def laplaceT (eps : ℝ) : TenModel Unit := fun st X => do
  let q ← Ten.sumKeep 1 (magSqT X)
  let denom := q.map fun x => 2 * √x
  let r ← denom.expand X.shape
  .ok (r.map fun x => 1 / clampMin x eps, st)

/-- torchiva/models/classic.py:54-64 `GaussModel.forward` (complex input). -/
noncomputable def gaussT (eps : ℝ) : TenModel Unit := fun st X => do
  let q ← Ten.sum 1 (magSqT X)
  let nFreq := X.shape.getD 1 0
  let denom := q.map fun x : ℝ => x / (nFreq : ℝ)
  let d1 ← denom.unsq 1
  -- broadcast_tensors(X, denom[..., None, :])
  let r ← Ten.map2 (fun _ d => d) X d1
  .ok (r.map fun x => 1 / clampMin x eps, st)

/-- torchiva/t_iss.py:39-42 `demix_derev`. -/
def demixDerevT (X Xbar W H : Ten ℂ) : Except Err (Ten ℂ) := do
  let reverb ← einsumT [("cfdt", H), ("dftn", Xbar)] "cfn"
  let sep ← einsumT [("cfd", W), ("dfn", X)] "cfn"
  Ten.map2 (fun x y => x - y) sep reverb

/-- torchiva/t_iss.py:45-53 `demix_background` for `J` not `None`. -/
def demixBackgroundT (X J : Ten ℂ) : Except Err (Ten ℂ) := do
  let nSrc := J.shape.headD 0
  let X1 ← X.take 2 nSrc
  let u ← einsumT [("cfd", J), ("dfn", X1)] "cfn"
  let X2 ← X.drop 2 nSrc
  Ten.map2 (fun x y => x - y) u X2

/-- torchiva/t_iss.py:56-78 `iss_block_update_type_1`. -/
noncomputable def issType1T (src : ℕ) (X : Ten ℂ) (w : Ten ℝ) (eps : ℝ) : Except Err (Ten ℂ) := do
  let nFrames := X.shape.headD 0
  let Xs ← X.sel 2 src
  let norm : ℝ := 1 / nFrames
  let n ← einsumT [("cfn", w.toC), ("cfn", X), ("fn", Xs.map star)] "cf"
  let vNum := n.map fun x => x * (norm : ℂ)
  let d ← einsumT [("cfn", w), ("fn", magSqT Xs)] "cf"
  let vDenom := d.map fun x => x * norm
  let v ← divideT vNum vDenom eps
  let ds ← vDenom.sel 1 src
  let vs := ds.map fun x => ((1 - 1 / √(clampMin x eps) : ℝ) : ℂ)
  v.setSel 1 src vs

/-- torchiva/t_iss.py:81-98 `iss_block_update_type_2`. -/
noncomputable def issType2T (X Zs : Ten ℂ) (w : Ten ℝ) (eps : ℝ) : Except Err (Ten ℂ) := do
  let vNum ← einsumT [("cfn", w.toC), ("cfn", X), ("fn", Zs.map star)] "cf"
  let vDenom ← einsumT [("cfn", w), ("fn", magSqT Zs)] "cf"
  divideT vNum vDenom eps

/-- torchiva/t_iss.py:101-122 `iss_block_update_type_3`. -/
noncomputable def issType3T (src tap : ℕ) (X Xbar : Ten ℂ) (w : Ten ℝ) (eps : ℝ) :
    Except Err (Ten ℂ) := do
  let X1 ← Xbar.sel 3 src
  let Xst ← X1.sel 1 tap
  let vNum ← einsumT [("cfn", w.toC), ("cfn", X), ("fn", Xst.map star)] "cf"
  let vDenom ← einsumT [("cfn", w), ("fn", magSqT Xst)] "cf"
  divideT vNum vDenom eps

/-- torchiva/t_iss.py:170-194: The three tensors carried through the ISS updates. -/
structure IssT where
  Y : Ten ℂ
  W : Ten ℂ
  H : Ten ℂ

/-- torchiva/t_iss.py:171-174: one source separation step. -/
noncomputable def issSrcStepT (w : Ten ℝ) (eps : ℝ) (st : IssT) (src : ℕ) : Except Err IssT := do
  let v ← issType1T src st.Y w eps
  let Ys ← st.Y.sel 2 src
  let uY ← einsumT [("cf", v), ("fn", Ys)] "cfn"
  let Y ← Ten.map2 (fun x y => x - y) st.Y uY
  let Ws ← st.W.sel 2 src
  let uW ← einsumT [("cf", v), ("fd", Ws)] "cfd"
  let W ← Ten.map2 (fun x y => x - y) st.W uW
  let Hs ← st.H.sel 3 src
  let uH ← einsumT [("cf", v), ("fdt", Hs)] "cfdt"
  let H ← Ten.map2 (fun x y => x - y) st.H uH
  .ok ⟨Y, W, H⟩

/-- torchiva/t_iss.py:179-184: one background step. -/
noncomputable def issBakStepT (nSrc : ℕ) (w : Ten ℝ) (eps : ℝ) (Z J : Ten ℂ) (st : IssT) (bak : ℕ) :
    Except Err IssT := do
  let Zs ← Z.sel 2 bak
  let v ← issType2T st.Y Zs w eps
  let uY ← einsumT [("cf", v), ("fn", Zs)] "cfn"
  let Y ← Ten.map2 (fun x y => x - y) st.Y uY
  let Js ← J.sel 2 bak
  let uW ← einsumT [("cf", v), ("fd", Js)] "cfd"
  let W0 ← st.W.take 0 nSrc
  let r1 ← Ten.map2 (fun x y => x - y) W0 uW
  let W1 ← st.W.setTake 0 nSrc r1
  let W2 ← W1.sel 0 (nSrc + bak)
  let r2 ← Ten.map2 (fun x y => x + y) W2 v
  let W ← W1.setSel 0 (nSrc + bak) r2
  .ok ⟨Y, W, st.H⟩

/-- torchiva/t_iss.py:189-192: one dereverberation step. -/
noncomputable def issTapStepT (w : Ten ℝ) (eps : ℝ) (Xbar : Ten ℂ) (st : IssT) (src tap : ℕ) :
    Except Err IssT := do
  let v ← issType3T src tap st.Y Xbar w eps
  let X1 ← Xbar.sel 3 src
  let Xst ← X1.sel 1 tap
  let uY ← einsumT [("cf", v), ("fn", Xst)] "cfn"
  let Y ← Ten.map2 (fun x y => x - y) st.Y uY
  let H1 ← st.H.sel 1 src
  let H2 ← H1.sel 0 tap
  let HV ← Ten.map2 (fun x y => x + y) H2 v
  let H ← st.H.setLast2 src tap HV
  .ok ⟨Y, st.W, H⟩

/-- torchiva/t_iss.py:125-194 `iss_updates_with_H`. -/
noncomputable def issUpdatesT (Xbar : Ten ℂ) (w : Ten ℝ) (eps : ℝ) (ZJ : Option (Ten ℂ × Ten ℂ))
    (st : IssT) : Except Err IssT := do
  let nSrc := st.Y.shape.getD 2 0
  let nChan := match ZJ with
    | some p => nSrc + p.1.shape.getD 2 0
    | none => nSrc
  let nTaps := Xbar.shape.getD 1 0
  let st1 ← (List.range nSrc).foldlM (issSrcStepT w eps) st
  let st2 ← match ZJ with
    | some p => (List.range (nChan - nSrc)).foldlM (issBakStepT nSrc w eps p.1 p.2) st1
    | none => .ok st1
  (List.range nChan).foldlM (fun st src =>
    (List.range nTaps).foldlM (fun st tap => issTapStepT w eps Xbar st src tap) st) st2

/-- torchiva/t_iss.py:197-227 `background_update`; lines 210-224 are the body of
`solve_loaded_general` with `load = eps`. -/
noncomputable def backgroundUpdateT (W H cXX cXbarX : Ten ℂ) (eps : ℝ) : Except Err (Ten ℂ) := do
  let nSrc := W.shape.getD 2 0
  let A1 ← einsumT [("sfc", W), ("cfd", cXX)] "fsd"
  let A2 ← einsumT [("sfdt", H), ("dtfc", cXbarX)] "fsc"
  let A ← Ten.map2 (fun x y => x + y) A1 A2
  let mat ← A.take 0 nSrc
  let rhs ← A.drop 0 nSrc
  let JH ← solveLoadedGeneralT mat rhs eps eps
  (JH.map star).move13

/-- torchiva/t_iss.py:494-524: State of the main loop. -/
structure TissT (τ : Type) where
  Y : Ten ℂ
  W : Ten ℂ
  H : Ten ℂ
  J : Option (Ten ℂ)
  ms : τ

/-- torchiva/t_iss.py:230-256 `over_iss_t_one_iter`. -/
noncomputable def tissOneIterT {τ : Type} (model : TenModel τ) (X Xbar cXX cXbarX : Ten ℂ) (eps : ℝ)
    (st : TissT τ) : Except Err (TissT τ) := do
  let wm ← model st.ms st.Y
  -- torch.mean(mag_sq(Y), dim=(-2, -1), keepdim=True)
  let q1 ← Ten.sumKeep 0 (magSqT st.Y)
  let q ← q1.sumKeep 1
  let count : ℝ := (st.Y.shape.getD 1 0 : ℝ) * (st.Y.shape.getD 0 0 : ℝ)
  let g := q.map fun x => clampMin (x / count) eps
  let gSqrt := g.map fun x => √x
  let Y ← divideT st.Y gSqrt eps
  let W ← divideT st.W gSqrt eps
  let gH ← gSqrt.unsq 0
  let H ← divideT st.H gH eps
  let w ← Ten.map2 (fun x y => x * y) wm.1 g
  match st.J with
  | some _ => do
    let J ← backgroundUpdateT W H cXX cXbarX 1e-3
    let Z ← demixBackgroundT X J
    let r ← issUpdatesT Xbar w eps (some (Z, J)) ⟨Y, W, H⟩
    .ok ⟨r.Y, r.W, r.H, some J, wm.2⟩
  | none => do
    let r ← issUpdatesT Xbar w eps none ⟨Y, W, H⟩
    .ok ⟨r.Y, r.W, r.H, none, wm.2⟩

/-- torchiva/t_iss.py:259-269 `over_iss_t_one_iter_dmc`, forward pass. -/
noncomputable def tissOneIterDmcT {τ : Type} (model : TenModel τ) (X Xbar cXX cXbarX : Ten ℂ)
    (eps : ℝ) (st : TissT τ) : Except Err (TissT τ) := do
  let Y ← demixDerevT X Xbar st.W st.H
  let r ← tissOneIterT model X Xbar cXX cXbarX eps ⟨Y, st.W, st.H, st.J, st.ms⟩
  .ok ⟨st.Y, r.W, r.H, r.J, r.ms⟩

/-- torchiva/t_iss.py:272-302 `projection_back_weights`; `solve_loaded_general` runs with its
defaults. -/
noncomputable def projectionBackWeightsT (W : Ten ℂ) (J : Option (Ten ℂ)) (refMic : ℕ) :
    Except Err (Ten ℂ) := do
  let nSrc := W.shape.getD 2 0
  let nChan := W.shape.getD 0 0
  let eye := Ten.eye nSrc nSrc
  if nSrc < nChan then
    match J with
    | none => .error .assertionError
    | some J => do
      let W1 ← W.take 0 nSrc
      let W2 ← W.drop 0 nSrc
      let B1 ← einsumT [("sfc", W2), ("cfk", J)] "sfk"
      let B ← Ten.map2 (fun x y => x + y) B1 W1
      let rhs ← (if refMic < nSrc then eye.pick 0 refMic
        else do
          let r ← J.pick 2 (refMic - nSrc)
          -- permute([-2, -1, -3])
          r.permute [2, 0, 1] : Except Err (Ten ℂ))
      let lhs ← einsumT [("sfc", B)] "fcs"
      let a ← solveLoadedGeneralT lhs rhs 1e-5 1e-5
      a.swap12
  else do
    let rhs ← eye.pick 0 refMic
    let WT ← W.swap12
    let lhs ← WT.swap01
    let a ← solveLoadedGeneralT lhs rhs 1e-5 1e-5
    a.swap12

/-- torchiva/t_iss.py:536-539: what a call produces: the returned signal, the attributes `W` and `J`
and the new state of the source model. -/
structure TissOutT (τ : Type) where
  Y : Ten ℂ
  W : Ten ℂ
  J : Option (Ten ℂ)
  ms : τ

/-- torchiva/t_iss.py:469-472: the covariance matrices of the input.  (The code computes them in the
over-determined case only; in the other case nothing uses them.) -/
noncomputable def covT (X Xbar : Ten ℂ) : Except Err (Ten ℂ × Ten ℂ) := do
  let nFrames := X.shape.headD 0
  let c1 ← einsumT [("cfn", X), ("dfn", X.map star)] "cfd"
  let c2 ← einsumT [("cftn", Xbar), ("dfn", X.map star)] "ctfd"
  .ok (c1.map fun x => x / (nFrames : ℂ), c2.map fun x => x / (nFrames : ℂ))

/-- torchiva/t_iss.py:476-492: initial state of the main loop. -/
noncomputable def tissInitT {τ : Type} (s C F T : ℕ) (b : Shape) (X Xbar cXX cXbarX : Ten ℂ) (eps : ℝ)
    (ms : τ) : Except Err (TissT τ) := do
  -- W = X.new_zeros(...); W[...] = eye[:, None, :]
  let eye1 ← (Ten.eye s C).unsq 1
  let W ← eye1.expand (C :: F :: s :: b)
  let H := Ten.zeros (T :: C :: F :: s :: b)
  let J ← (if s < C then do
      let J ← backgroundUpdateT W H cXX cXbarX eps
      .ok (some J)
    else .ok none : Except Err (Option (Ten ℂ)))
  let Y ← demixDerevT X Xbar W H
  .ok ⟨Y, W, H, J, ms⟩

/-- torchiva/t_iss.py:461-539: `T_ISS.forward` once the number of sources `s` is known and the source
model has been reset. -/
noncomputable def tissCoreT {τ : Type} (p : TissParams) (s C F : ℕ) (b : Shape) (model : TenModel τ)
    (ms : τ) (X : Ten ℂ) : Except Err (TissOutT τ) := do
  let Xbar ← delayedT p.nTaps p.nDelay X
  let cov ← covT X Xbar
  let st0 ← tissInitT s C F p.nTaps b X Xbar cov.1 cov.2 p.eps ms
  let st ← iterM (if p.useDmc then tissOneIterDmcT model X Xbar cov.1 cov.2 p.eps
    else tissOneIterT model X Xbar cov.1 cov.2 p.eps) p.nIter st0
  let Y ← (if p.useDmc then demixDerevT X Xbar st.W st.H else .ok st.Y : Except Err (Ten ℂ))
  match p.projBackMic with
  | some m =>
    if 0 < p.nIter then do
      let a ← projectionBackWeightsT st.W st.J m
      let Y' ← Ten.map2 (fun x y => x * y) a Y
      .ok ⟨Y', st.W, st.J, st.ms⟩
    else .ok ⟨Y, st.W, st.J, st.ms⟩
  | none => .ok ⟨Y, st.W, st.J, st.ms⟩

/-- torchiva/t_iss.py:414-539 `T_ISS.forward` (parameters already resolved). -/
noncomputable def tissForwardT {τ : Type} (p : TissParams) (nSrc : Option ℕ) (model : TenModel τ)
    (reset : τ → τ) (ms : τ) (X : Ten ℂ) : Except Err (TissOutT τ) :=
  match X.shape with
  | _ :: F :: C :: b =>
    let s := nSrc.getD C
    if s ≤ C then tissCoreT p s C F b model (reset ms) X
    else .error .valueError
  | _ => .error .valueError

end Torchiva
