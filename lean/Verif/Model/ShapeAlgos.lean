import Verif.Model.Shape
import Verif.Model.Stft

/-!
# The separation algorithms on shapes

The same functions as in the other model files, with every tensor replaced by its shape (last
dimension first, see `Model/Shape.lean`) and arbitrary leading batch dimensions.  A source model is
a function on shapes.  Values, and hence numerical exceptions, are not modelled here.
-/

namespace Torchiva

/-- For instance torchiva/t_iss.py:234: A source model on shapes. -/
abbrev ShapeModel := Shape → Except Err Shape

/-! ## Source models -/

/-- torchiva/models/classic.py:33-43 `LaplaceModel.forward`. -/
def laplaceS : ShapeModel := fun X => do
  let d ← reduceKeep 1 X
  bcastTo d X

/-- torchiva/models/classic.py:54-64 `GaussModel.forward`. -/
def gaussS : ShapeModel := fun X => do
  let d ← reduce 1 X
  let d ← unsq 1 d
  bcast X d

/-- torchiva/models/classic.py:112-155 `NMFModel.forward` on a model that has just been reset:
flatten, factorise, restore. -/
def nmfS : ShapeModel
  | n :: f :: s => do
    let flat ← reshapeFlat (n :: f :: s) [n, f]
    reshapeS flat (n :: f :: s)
  | _ => .error .valueError

/-- torchiva/models/blstm.py:125-155 `MaskMVDRSupport.forward` (`n_input = n_freq`): the network
maps `n_freq` features to `n_masks * n_src * n_freq`, which are split at the end. -/
def maskSupportS (nSrc nMasks : ℕ) : ShapeModel
  | n :: f :: s => do
    let flat ← reshapeFlat (n :: f :: s) [n, f]
    let b ← reduce 0 flat >>= reduce 0
    let X ← reshapeS (n :: (nMasks * nSrc * f) :: b) (n :: (nMasks * nSrc * f) :: s)
    -- reshape(X.shape[:-2] + (n_src, n_masks, -1) + X.shape[-1:])
    if numel s * nSrc * nMasks * n = 0 then .error .runtimeError
    else reshapeS X (n :: (numel X / (numel s * nSrc * nMasks * n)) :: nMasks :: nSrc :: s)
  | _ => .error .valueError

/-! ## T-ISS -/

/-- torchiva/t_iss.py:39-42 `demix_derev`. -/
def demixDerevS (X Xbar W H : Shape) : Except Err Shape := do
  let reverb ← einsum [("cfdt", H), ("dftn", Xbar)] "cfn"
  let sep ← einsum [("cfd", W), ("dfn", X)] "cfn"
  bcast sep reverb

/-- torchiva/t_iss.py:45-53 `demix_background`. -/
def demixBackgroundS (X J : Shape) : Except Err Shape := do
  let s := J.headD 0
  let X1 ← onDim 2 (min s) X
  let X2 ← onDim 2 (· - s) X
  let u ← einsum [("cfd", J), ("dfn", X1)] "cfn"
  bcast u X2

/-- torchiva/t_iss.py:56-78 `iss_block_update_type_1`. -/
def issType1S (src : ℕ) (X w : Shape) : Except Err Shape := do
  let Xs ← sel 2 src X
  let num ← einsum [("cfn", w), ("cfn", X), ("fn", Xs)] "cf"
  let den ← einsum [("cfn", w), ("fn", Xs)] "cf"
  let v ← bcast num den
  let vs ← sel 1 src den
  let tgt ← sel 1 src v
  let _ ← bcastTo vs tgt
  .ok v

/-- torchiva/t_iss.py:81-98 `iss_block_update_type_2` and :117-122 of `iss_block_update_type_3`. -/
def issType2S (X Zs w : Shape) : Except Err Shape := do
  let num ← einsum [("cfn", w), ("cfn", X), ("fn", Zs)] "cf"
  let den ← einsum [("cfn", w), ("fn", Zs)] "cf"
  bcast num den

/-- torchiva/t_iss.py:170-194: The shapes of `X` (signals), `W` and `H`. -/
structure IssS where
  Y : Shape
  W : Shape
  H : Shape

/-- torchiva/t_iss.py:171-174. -/
def issSrcStepS (w : Shape) (st : IssS) (src : ℕ) : Except Err IssS := do
  let v ← issType1S src st.Y w
  let Ys ← sel 2 src st.Y
  let uY ← einsum [("cf", v), ("fn", Ys)] "cfn"
  let Y ← bcast st.Y uY
  let Ws ← sel 2 src st.W
  let uW ← einsum [("cf", v), ("fd", Ws)] "cfd"
  let W ← bcast st.W uW
  let Hs ← sel 3 src st.H
  let uH ← einsum [("cf", v), ("fdt", Hs)] "cfdt"
  let H ← bcast st.H uH
  .ok ⟨Y, W, H⟩

/-- torchiva/t_iss.py:179-184. -/
def issBakStepS (nSrc : ℕ) (w Z J : Shape) (st : IssS) (bak : ℕ) : Except Err IssS := do
  let Zs ← sel 2 bak Z
  let v ← issType2S st.Y Zs w
  let uY ← einsum [("cf", v), ("fn", Zs)] "cfn"
  let Y ← bcast st.Y uY
  let Js ← sel 2 bak J
  let uW ← einsum [("cf", v), ("fd", Js)] "cfd"
  let W1 ← onDim 0 (min nSrc) st.W
  let r1 ← bcast W1 uW
  let _ ← bcastTo r1 W1
  let W2 ← sel 0 (nSrc + bak) st.W
  let r2 ← bcast W2 v
  let _ ← bcastTo r2 W2
  .ok ⟨Y, st.W, st.H⟩

/-- torchiva/t_iss.py:189-192. -/
def issTapStepS (w Xbar : Shape) (st : IssS) (src tap : ℕ) : Except Err IssS := do
  let X1 ← sel 3 src Xbar
  let Xst ← sel 1 tap X1
  let v ← issType2S st.Y Xst w
  let uY ← einsum [("cf", v), ("fn", Xst)] "cfn"
  let Y ← bcast st.Y uY
  let H1 ← sel 1 src st.H
  let H2 ← sel 0 tap H1
  let HV ← bcast H2 v
  let _ ← bcastTo HV H2
  .ok ⟨Y, st.W, st.H⟩

/-- torchiva/t_iss.py:125-194 `iss_updates_with_H`. -/
def issUpdatesS (Xbar w : Shape) (ZJ : Option (Shape × Shape)) (st : IssS) : Except Err IssS := do
  let nSrc := st.Y.getD 2 0
  let nChan := match ZJ with
    | some (Z, _) => nSrc + Z.getD 2 0
    | none => nSrc
  let nTaps := Xbar.getD 1 0
  let st1 ← (List.range nSrc).foldlM (issSrcStepS w) st
  let st2 ← match ZJ with
    | some (Z, J) => (List.range (nChan - nSrc)).foldlM (issBakStepS nSrc w Z J) st1
    | none => .ok st1
  (List.range nChan).foldlM (fun st src =>
    (List.range nTaps).foldlM (fun st tap => issTapStepS w Xbar st src tap) st) st2

/-- torchiva/t_iss.py:197-227 `background_update`; lines 210-224 are `solve_loaded_general`. -/
def backgroundUpdateS (W H cXX cXbarX : Shape) : Except Err Shape := do
  let nSrc := W.getD 2 0
  let A1 ← einsum [("sfc", W), ("cfd", cXX)] "fsd"
  let A2 ← einsum [("sfdt", H), ("dtfc", cXbarX)] "fsc"
  let A ← bcast A1 A2
  let mat ← onDim 0 (min nSrc) A
  let rhs ← onDim 0 (· - nSrc) A
  let JH ← solveLoadedGeneralS mat rhs
  move13 JH

/-- torchiva/t_iss.py:494-524: The shapes carried through the main loop. -/
structure TissS where
  Y : Shape
  W : Shape
  H : Shape
  J : Option Shape

/-- torchiva/t_iss.py:230-256 `over_iss_t_one_iter`. -/
def tissOneIterS (model : ShapeModel) (X Xbar cXX cXbarX : Shape) (st : TissS) : Except Err TissS := do
  let w ← model st.Y
  -- torch.mean(mag_sq(Y), dim=(-2, -1), keepdim=True)
  let g1 ← reduceKeep 0 st.Y
  let g ← reduceKeep 1 g1
  let Y ← bcast st.Y g
  let W ← bcast st.W g
  let gH ← unsq 0 g
  let H ← bcast st.H gH
  let w ← bcast w g
  match st.J with
  | some _ => do
    let J ← backgroundUpdateS W H cXX cXbarX
    let Z ← demixBackgroundS X J
    let r ← issUpdatesS Xbar w (some (Z, J)) ⟨Y, W, H⟩
    .ok ⟨r.Y, r.W, r.H, some J⟩
  | none => do
    let r ← issUpdatesS Xbar w none ⟨Y, W, H⟩
    .ok ⟨r.Y, r.W, r.H, none⟩

/-- torchiva/t_iss.py:259-269 `over_iss_t_one_iter_dmc`. -/
def tissOneIterDmcS (model : ShapeModel) (X Xbar cXX cXbarX : Shape) (st : TissS) :
    Except Err TissS := do
  let Y ← demixDerevS X Xbar st.W st.H
  let r ← tissOneIterS model X Xbar cXX cXbarX ⟨Y, st.W, st.H, st.J⟩
  .ok ⟨st.Y, r.W, r.H, r.J⟩

/-- torchiva/t_iss.py:272-302 `projection_back_weights`. -/
def projectionBackWeightsS (W : Shape) (J : Option Shape) (refMic : ℕ) : Except Err Shape := do
  let nSrc := W.getD 2 0
  let nChan := W.getD 0 0
  let eye := [nSrc, nSrc]
  if nSrc < nChan then
    match J with
    | none => .error .assertionError
    | some J => do
      let W1 ← onDim 0 (min nSrc) W
      let W2 ← onDim 0 (· - nSrc) W
      let B1 ← einsum [("sfc", W2), ("cfk", J)] "sfk"
      let B ← bcast B1 W1
      let rhs ← if refMic < nSrc then pick 0 refMic eye
        else do
          let r ← pick 2 (refMic - nSrc) J
          -- permute([-2, -1, -3])
          permute [2, 0, 1] r
      let lhs ← einsum [("sfc", B)] "fcs"
      let a ← solveLoadedGeneralS lhs rhs
      swap12 a
  else do
    let rhs ← pick 0 refMic eye
    let WT ← swap12 W
    let lhs ← swap01 WT
    let a ← solveLoadedGeneralS lhs rhs
    swap12 a

/-- torchiva/t_iss.py:414-539 `T_ISS.forward` after parameter resolution.  The covariance matrices are
computed in every case here; in the determined case the code does not compute them and no step uses
them. -/
def tissForwardS (nIter T D : ℕ) (nSrc : Option ℕ) (projBackMic : Option ℕ) (useDmc : Bool)
    (model : ShapeModel) : Shape → Except Err Shape
  | N :: F :: C :: b => do
    let X : Shape := N :: F :: C :: b
    let s := nSrc.getD C
    if s ≤ C then
      let Xbar ← delayedS T D X
      let cXX ← einsum [("cfn", X), ("dfn", X)] "cfd"
      let cXbarX ← einsum [("cftn", Xbar), ("dfn", X)] "ctfd"
      let W : Shape := C :: F :: s :: b
      -- W[...] = eye[:, None, :]
      let _ ← bcastTo [C, 1, s] W
      let H : Shape := T :: C :: F :: s :: b
      let J ← (if s < C then (backgroundUpdateS W H cXX cXbarX).map some else .ok none :
        Except Err (Option Shape))
      let Y ← demixDerevS X Xbar W H
      let st ← iterM (if useDmc then tissOneIterDmcS model X Xbar cXX cXbarX
        else tissOneIterS model X Xbar cXX cXbarX) nIter ⟨Y, W, H, J⟩
      let Y ← if useDmc then demixDerevS X Xbar st.W st.H else .ok st.Y
      match projBackMic with
      | some m =>
        if 0 < nIter then
          let a ← projectionBackWeightsS st.W st.J m
          bcast a Y
        else .ok Y
      | none => .ok Y
    else .error .valueError
  | _ => .error .valueError

/-! ## AuxIVA-IP -/

/-- torchiva/auxiva_ip.py:38-53 `orthogonal_constraint`. -/
def orthogonalConstraintS (W Cx : Shape) : Except Err (Option Shape) := do
  let nSrc := W.getD 1 0
  let nChan := W.getD 0 0
  if nSrc = nChan then .ok none
  else if nChan < nSrc then .error .valueError
  else
    let A ← matmul W Cx
    let A1 ← onDim 0 (min nSrc) A
    let A2 ← onDim 0 (· - nSrc) A
    let JH ← solveLoadedGeneralS A1 A2
    let J ← swap01 JH
    .ok (some J)

/-- torchiva/auxiva_ip.py:56-105 `projection_back_from_demixing_matrix`: shape of the returned
signal. -/
def projectionBackDemixingS (Y W : Shape) (J : Option Shape) (refMic : ℕ) : Except Err Shape := do
  let nSrc := Y.getD 2 0
  let nChan := W.getD 0 0
  match J with
  | none => do
    let e0 ← pick 0 refMic [nChan, nChan]
    let e1 ← bcastTo e0 (1 :: nChan :: W.drop 2)
    let WT ← swap01 W
    let a ← solveLoadedGeneralS WT e1
    let a ← swap12 a
    bcast Y a
  | some J => do
    let W1 ← onDim 1 (min nSrc) W
    let A ← onDim 0 (min nSrc) W1
    let B ← onDim 0 (· - nSrc) W1
    let e0 ← if refMic < nSrc then pick 0 refMic [nSrc, nSrc]
      else do
        let c ← pick 1 (refMic - nSrc) J
        swap01 c
    let BC ← matmul B J
    let WW ← bcast A BC
    -- torch.broadcast_to(e1, WW.shape[:-2] + e1.shape)
    let e1 ← bcastTo e0 (e0 ++ WW.drop 2)
    let WT ← swap01 WW
    let a ← solveLoadedGeneralS WT e1
    let a ← swap12 a
    bcast Y a

/-- torchiva/auxiva_ip.py:108-122 `cost`: shape of the cost (only called with `verbose=True`). -/
def ipCostS (Y W : Shape) (J : Option Shape) : Except Err Shape :=
  match W with
  | [nChan, nSrc, nFreq] => do
    let W' ← match J with
      | none => .ok W
      | some J => do
        let eye ← bcastTo [nChan - nSrc, nChan - nSrc] ((nChan - nSrc) :: (nChan - nSrc) :: [nFreq])
        let R ← catS 0 J eye
        catS 1 W R
    -- norm over dim -2, then sums over the last two dimensions
    let c ← reduce 1 Y
    let c ← reduce 0 c
    let c1 ← reduce 0 c
    let c2 ← match W' with
      | n :: n' :: t => if n = n' then .ok t else .error .runtimeError
      | _ => .error .runtimeError
    let c2 ← reduce 0 c2
    bcast c1 c2
  | _ => .error .valueError

/-- torchiva/auxiva_ip.py:262-293: update of source `k`; shapes of `W` and `J`. -/
def ipSrcUpdateS (nSrc nChan : ℕ) (X w Cx : Shape) (st : Shape × Option Shape) (k : ℕ) :
    Except Err (Shape × Option Shape) := do
  let W := st.1
  let J ← orthogonalConstraintS W Cx
  let wk ← pick 2 k w
  let Xw ← bcast X wk
  let V ← einsum [("cfn", Xw), ("dfn", X)] "fcd"
  let WV ← match J with
    | none => matmul W V
    | some J => do
      let WV ← matmul W V
      let V1 ← onDim 1 (min nSrc) V
      let V2 ← onDim 1 (· - nSrc) V
      let JV ← matmul J V1
      let R ← bcast JV V2
      catS 1 WV R
  let evec ← bcastTo [nChan, nChan] (nChan :: nChan :: W.drop 2)
  let ek ← pick 0 k evec
  let sol ← solveLoadedGeneralS WV ek
  let newW ← sel 0 0 sol
  let scale ← einsum [("c", newW), ("d", newW), ("cd", V)] ""
  let sc ← unsq 0 scale
  let newW ← bcast newW sc
  let newW ← unsq 1 newW
  let Wa ← onDim 1 (min k) W
  let Wb ← onDim 1 (fun n => min nSrc n - (k + 1)) W
  let W1 ← catS 1 Wa newW
  let W2 ← catS 1 W1 Wb
  .ok (W2, J)

/-- torchiva/auxiva_ip.py:248-299: one epoch. -/
def ipEpochS (verbose : Bool) (model : ShapeModel) (nSrc nChan : ℕ) (X Cx : Shape)
    (st : Shape × Shape × Option Shape) : Except Err (Shape × Shape × Option Shape) := do
  let w ← model st.1
  let g1 ← reduceKeep 0 st.1
  let g ← reduceKeep 1 g1
  let gT ← swap12 g
  let W ← bcast st.2.1 gT
  let w ← bcast w g
  let r ← (List.range nSrc).foldlM (ipSrcUpdateS nSrc nChan X w Cx) (W, st.2.2)
  let Y ← einsum [("fcd", r.1), ("dfn", X)] "cfn"
  if verbose then
    let _ ← ipCostS Y r.1 r.2
    .ok (Y, r.1, r.2)
  else .ok (Y, r.1, r.2)

/-- torchiva/auxiva_ip.py:202-306 `AuxIVA_IP.forward` after parameter resolution, for an integer
`n_src`. -/
def auxivaForwardS (verbose : Bool) (nIter nSrc : ℕ) (projBackMic : Option ℕ) (model : ShapeModel) :
    Shape → Except Err Shape
  | N :: F :: C :: b => do
    let X : Shape := N :: F :: C :: b
    let W : Shape := C :: nSrc :: F :: b
    let _ ← bcastTo [C, nSrc] W
    let Y ← onDim 2 (min nSrc) X
    let Cx ← einsum [("cfn", X), ("dfn", X)] "fcd"
    let J ← orthogonalConstraintS W Cx
    let _ ← if verbose then ipCostS Y W J else .ok []
    let st ← iterM (ipEpochS verbose model nSrc C X Cx) nIter (Y, W, J)
    match projBackMic with
    | some m => projectionBackDemixingS st.1 st.2.1 st.2.2 m
    | none => .ok st.1
  | _ => .error .valueError

/-! ## AuxIVA-IP2 -/

/-- torchiva/auxiva_ip2.py:29-91 `spatial_model_update_ip2`: shapes of the signals and of the demixing
matrix. -/
def ip2UpdateS (Xo w : Shape) : Except Err (Shape × Shape) := do
  let w0 ← sel 2 0 w
  let V0 ← einsum [("fn", w0), ("cfn", Xo), ("dfn", Xo)] "fcd"
  let H0 ← swap01 V0
  let V0 ← bcast V0 H0
  let w1 ← sel 2 1 w
  let V1 ← einsum [("fn", w1), ("cfn", Xo), ("dfn", Xo)] "fcd"
  let H1 ← swap01 V1
  let V1 ← bcast V1 H1
  let r ← eigh2S V1 (some V0)
  -- eigvec[..., None, :, k] and eigvec[..., :, None, k]
  let ek0 ← sel 0 0 r.2
  let row0 ← unsq 1 ek0
  let col0 ← unsq 0 ek0
  let Vc0 ← matmul V0 col0
  let s0 ← matmul row0 Vc0
  let ek1 ← sel 0 1 r.2
  let row1 ← unsq 1 ek1
  let col1 ← unsq 0 ek1
  let Vc1 ← matmul V1 col1
  let s1 ← matmul row1 Vc1
  let scale ← catS 0 s0 s1
  let E ← bcast r.2 scale
  let W ← swap01 E
  let X ← einsum [("fcd", W), ("dfn", Xo)] "cfn"
  .ok (X, W)

/-- torchiva/auxiva_ip2.py:194-207: one epoch. -/
def ip2EpochS (model : ShapeModel) (Xo : Shape) (st : Shape × Shape) : Except Err (Shape × Shape) := do
  let w ← model st.1
  let g1 ← reduceKeep 0 st.1
  let g ← reduceKeep 1 g1
  let w ← bcast w g
  ip2UpdateS Xo w

/-- torchiva/auxiva_ip2.py:154-213 `AuxIVA_IP2.forward`. `A` has the shape of `W`. -/
def auxiva2ForwardS (nIter : ℕ) (projBackMic : Option ℕ) (model : ShapeModel) :
    Shape → Except Err Shape
  | N :: F :: C :: b => do
    let X : Shape := N :: F :: C :: b
    if C = 2 ∧ ∀ m ∈ projBackMic, m < C then
      let st ← iterM (ip2EpochS model X) nIter (X, C :: C :: F :: b)
      match projBackMic with
      | some m =>
        if 0 < nIter then
          -- A[..., :, [m], :].moveaxis(-1, -3)
          let r ← pick 1 m st.2
          let a ← move13 r
          bcast a st.1
        else .ok st.1
      | none => .ok st.1
    else .error .assertionError
  | _ => .error .valueError

/-! ## FIVE -/

/-- torchiva/five.py:36-50 `smallest_eigenvector_eigh_cpu` and :53-73
`smallest_eigenvector_power_method`: shape of the eigenvector. -/
def fiveVectorS (nPower : Option ℕ) (V : Shape) : Except Err Shape :=
  match nPower with
  | none => do
    let r ← eighS V
    sel 0 0 r.2
  | some n => do
    let Vinv ← invLoadedS V
    let x ← sel 0 0 Vinv
    let nrm ← reduceKeep 1 x
    let x ← bcast x nrm
    let x ← iterM (fun x => do
      let y ← einsum [("fcd", Vinv), ("fd", x)] "fc"
      let ev ← reduce 0 y
      let ev ← unsq 0 ev
      bcast y ev) (n - 1) x
    let s ← sel 0 0 x
    let s ← unsq 0 s
    let x ← bcast x s
    if n - 1 = 0 then .error .unboundLocalError else .ok x

/-- torchiva/five.py:217-242: one iteration. -/
def fiveEpochS (nPower : Option ℕ) (model : ShapeModel) (X qref : Shape) (Y : Shape) :
    Except Err Shape := do
  let w ← model Y
  let V ← einsum [("fn", w), ("cfn", X), ("dfn", X)] "fcd"
  let VH ← swap01 V
  let V ← bcast V VH
  let ev ← fiveVectorS nPower V
  let z ← einsum [("fc", qref), ("fc", ev)] "f"
  let z ← unsq 0 z
  let w ← bcast ev z
  einsum [("fc", w), ("cfn", X)] "fn"

/-- torchiva/five.py:146-248 `FIVE.forward` after parameter resolution.  With `proj_back_mic = None`
the index of line 196 inserts a dimension instead of selecting a row. -/
def fiveForwardS (nIter : ℕ) (projBackMic : Option ℕ) (nPower : Option ℕ) (model : ShapeModel) :
    Shape → Except Err Shape
  | N :: F :: C :: b => do
    -- X[..., 1:, :]
    let X ← onDim 1 (· - 1) (N :: F :: C :: b)
    let Cx ← einsum [("cfn", X), ("dfn", X)] "fcd"
    let CxH ← swap01 Cx
    let Cx ← bcast Cx CxH
    let r ← eighFullS Cx none
    let vH ← swap01 r.2
    let ecol ← unsq 0 r.1
    let Q ← bcast ecol vH
    let erow ← unsq 1 r.1
    let Qinv ← bcast r.2 erow
    let qref ← match projBackMic with
      | some m => sel 1 m Qinv
      | none => unsq 1 Qinv
    let X ← einsum [("fcd", Q), ("dfn", X)] "cfn"
    let Y ← sel 2 0 X
    let Y ← match projBackMic with
      | some m => do
        -- Q[..., 0, None, :] @ Cx[..., m, None]
        let q0 ← sel 1 0 Q
        let q0 ← unsq 1 q0
        let c0 ← sel 0 m Cx
        let c0 ← unsq 0 c0
        let z ← matmul q0 c0
        let z ← swap12 z
        let z ← sel 2 0 z
        bcast z Y
      | none => .ok Y
    let Y ← iterM (fiveEpochS nPower model X qref) nIter Y
    let pad ← onDim 1 (fun _ => 1) Y
    let Y ← catS 1 pad Y
    unsq 2 Y
  | _ => .error .valueError

/-! ## WPE -/

/-- torchiva/wpe.py:32-35 `wpe_default_weights`. -/
def wpeWeightsS (Y : Shape) : Except Err Shape := do
  let w ← reduce 2 Y
  let n ← reduceKeep 0 w
  bcast w n

/-- torchiva/wpe.py:64-68: the default weights, or those of the model. -/
def wpeModelS (model : Option ShapeModel) (Y : Shape) : Except Err Shape :=
  match model with
  | none => wpeWeightsS Y
  | some m => m Y

/-- torchiva/wpe.py:38-84 `wpe_one_iter` and :28-29 `derev`: shape of the new estimate. -/
def wpeStepS (model : Option ShapeModel) (X Xbar : Shape) (Y : Shape) : Except Err Shape := do
  match Xbar with
  | _ :: T :: F :: C :: b => do
    let w ← wpeModelS model Y
    let acm ← einsum [("fn", w), ("cftn", Xbar), ("dfun", Xbar)] "fctdu"
    let xcv ← einsum [("fn", w), ("cftn", Xbar), ("sfn", X)] "fcts"
    let acm ← reshapeS acm ((T * C) :: (T * C) :: F :: b)
    let xcv ← reshapeS xcv (C :: (T * C) :: F :: b)
    let H ← solveLoadedS acm xcv
    let H ← reshapeS H (C :: T :: C :: F :: b)
    let d ← einsum [("fcts", H), ("cftn", Xbar)] "sfn"
    bcast X d
  | _ => .error .valueError

/-- torchiva/wpe.py:136-168 `WPE.forward` after parameter resolution. -/
def wpeForwardS (nIter T D : ℕ) (model : Option ShapeModel) : Shape → Except Err Shape
  | N :: F :: C :: b => do
    let X : Shape := N :: F :: C :: b
    let Xbar ← delayedS T D X
    iterM (wpeStepS model X Xbar) nIter X
  | _ => .error .valueError

/-! ## Beamformers -/

/-- torchiva/beamformer.py:61-63 `compute_mwf_bf` with `ref_mic`. -/
def mwfBfS (Rt Rn : Shape) (ref : ℕ) : Except Err Shape := do
  let R ← bcast Rt Rn
  let r ← sel 0 ref Rt
  solveLoadedS R r

/-- torchiva/beamformer.py:66-109 `compute_mvdr_rtf_eigh`. -/
def mvdrRtfS (Rt Rn : Shape) (ref : ℕ) (nPower : Option ℕ) : Except Err Shape := do
  let v ← match nPower with
    | none => do
      let r ← eighFullS Rt (some Rn)
      match r.2 with
      | n :: _ => sel 0 (n - 1) r.2
      | [] => .error .indexError
    | some n => do
      let Phi ← solveLoadedS Rn Rt
      let v ← sel 0 0 Phi
      iterM (fun v => einsum [("cd", Phi), ("d", v)] "c") (n - 1) v
  let d ← einsum [("cd", Rn), ("d", v)] "c"
  let sc ← pick 0 ref d
  bcast d sc

/-- torchiva/beamformer.py:112-122 `compute_mvdr_bf`. -/
def mvdrBfS (R d : Shape) : Except Err Shape := do
  let a ← solveLoadedS R d
  let den ← einsum [("c", d), ("c", a)] ""
  let den ← unsq 0 den
  bcast a den

/-- torchiva/beamformer.py:125-136 `compute_mvdr_bf2`. -/
def mvdrBf2S (Rt Rn : Shape) (ref : ℕ) : Except Err Shape := do
  let num ← solveS Rn Rt
  let dg ← reduce 0 num
  let den ← reduce 0 dg
  let den ← unsq 0 den
  let den ← unsq 0 den
  let w ← bcast num den
  sel 0 ref w

/-- torchiva/beamformer.py:139-158 `compute_gev_bf`. -/
def gevBfS (Rt Rn : Shape) (ref : ℕ) : Except Err Shape := do
  let r ← eighFullS Rt (some Rn)
  let n := r.2.headD 0
  let vH ← swap01 r.2
  let st ← solveS vH [1, n]
  let sc ← sel 1 ref st
  let sc ← swap12 sc
  let v ← sel 0 (n - 1) r.2
  let v ← swap12 v
  bcast v sc

/-- torchiva/beamformer.py:257-264: the masks and the covariance matrices. -/
def maskCovS (masks X : Shape) (i : ℕ) : Except Err Shape := do
  let m ← sel 2 i masks
  einsum [("sfn", m), ("cfn", X), ("dfn", X)] "sfcd"

/-- torchiva/beamformer.py:235-306 `MVDRBeamformer.forward`. -/
def mvdrForwardS (mask : ShapeModel) (ref : ℕ) (mvdrType : String) (nPower : Option ℕ) (X : Shape) :
    Except Err Shape := do
  let x ← sel 2 ref X
  let masks ← mask x
  let nMasks := masks.getD 2 0
  if nMasks = 2 then
    let Rt ← maskCovS masks X 0
    let Rn ← maskCovS masks X 1
    if mvdrType = "rtf" then
      let rtf ← mvdrRtfS Rt Rn ref nPower
      let bf ← mvdrBfS Rn rtf
      einsum [("cfn", X), ("sfc", bf)] "sfn"
    else if mvdrType = "scm" then
      let bf ← mvdrBf2S Rt Rn ref
      einsum [("cfn", X), ("sfc", bf)] "sfn"
    else .error .unboundLocalError
  else if nMasks = 3 then
    let Rt ← maskCovS masks X 0
    let Rn ← maskCovS masks X 1
    let Rn2 ← maskCovS masks X 2
    let rtf ← mvdrRtfS Rt Rn2 ref nPower
    let bf ← mvdrBfS Rn rtf
    einsum [("cfn", X), ("sfc", bf)] "sfn"
  else .error .unboundLocalError

/-- torchiva/beamformer.py:367-418 `MWFBeamformer.forward`. -/
def mwfForwardS (mask : ShapeModel) (ref : ℕ) (timeInvariant : Bool) (X : Shape) :
    Except Err Shape := do
  let x ← sel 2 ref X
  let masks ← mask x
  let Rt ← maskCovS masks X 0
  let Rn ← maskCovS masks X 1
  if timeInvariant then
    let bf ← mwfBfS Rt Rn ref
    einsum [("cfn", X), ("sfc", bf)] "sfn"
  else if masks.getD 2 0 = 4 then
    let Vt ← sel 2 2 masks
    let Vn ← sel 2 3 masks
    -- R[..., :, None, :, :] * V[..., :, :, None, None]
    let Rt ← unsq 2 Rt
    let Vt ← unsq 0 Vt
    let Vt ← unsq 0 Vt
    let Rt ← bcast Rt Vt
    let Rn ← unsq 2 Rn
    let Vn ← unsq 0 Vn
    let Vn ← unsq 0 Vn
    let Rn ← bcast Rn Vn
    let bf ← mwfBfS Rt Rn ref
    einsum [("cfn", X), ("sfnc", bf)] "sfn"
  else .error .assertionError

/-- torchiva/beamformer.py:468-500 `GEVBeamformer.forward`. -/
def gevForwardS (mask : ShapeModel) (ref : ℕ) (X : Shape) : Except Err Shape := do
  let x ← sel 2 ref X
  let masks ← mask x
  let Rt ← maskCovS masks X 0
  let Rn ← maskCovS masks X 1
  let bf ← gevBfS Rt Rn ref
  let XT ← swap12 X
  let Y ← bmmS bf XT
  swap12 Y

/-! ## Scaling -/

/-- torchiva/scaling.py:42-78 `projection_back`.  `gather` returns the shape of its index. -/
def projectionBackS (Y ref : Shape) : Except Err Shape :=
  match Y with
  | N :: F :: C :: b => do
    let Yt ← swap12 Y
    -- argsort(sum(mag(Y), dim=(-3, -2)))[..., -n_chan:]
    let e ← reduce 2 Yt
    let e ← reduce 1 e
    let I ← onDim 0 (fun n => min C n) e
    let I1 ← unsq 1 I
    let I2 ← unsq 2 I1
    let Yc ← onDim 0 (min C) Yt
    let IY ← bcast I2 Yc
    let rc ← onDim 0 (min C) ref
    let Ir ← bcast I1 rc
    let A ← swap01 IY
    let bb ← unsq 0 Ir
    let A ← reshapeFlat A [C, C]
    let bb ← reshapeFlat bb [1, C]
    let A ← bcast A [C, C]
    let c ← solveS A bb
    let c ← reshapeS c (1 :: C :: F :: b)
    let r ← bcast (N :: C :: F :: b) c
    swap12 r
  | _ => .error .valueError

/-- torchiva/scaling.py:81-101 `minimum_distortion_l2`. -/
def minDistL2S (Y ref : Shape) : Except Err Shape := do
  let r ← unsq 2 ref
  let p ← bcast r Y
  let num ← reduce 0 p
  let den ← reduce 0 Y
  let c ← bcast num den
  let c ← unsq 0 c
  bcast Y c

/-- torchiva/scaling.py:104-123 `minimum_distortion_l2_phase`. -/
def minDistL2PhaseS (Y ref : Shape) : Except Err Shape := do
  let Yt ← swap12 Y
  let r ← unsq 1 ref
  let p ← bcast r Yt
  let num ← reduce 0 p
  let c ← unsq 0 num
  let r ← bcast Yt c
  swap12 r

/-- torchiva/scaling.py:180-198: one update of the scale factors in `minimum_distortion`; with a
model, its output is indexed `[..., 0, 0, :, :]` (line 184), otherwise the weights have the shape
of the error. -/
def mdStepS (model : Option ShapeModel) (Yt ref c : Shape) : Except Err Shape := do
  let r ← unsq 1 ref
  let c1 ← unsq 0 c
  let cY ← bcast c1 Yt
  let error ← bcast r cY
  let w ← match model with
    | none => .ok error
    | some m => do
      let eT ← swap12 error
      let w ← m eT
      let w ← swap12 w
      let w ← sel 3 0 w
      let w ← sel 2 0 w
      let nrm ← reduceKeep 0 w
      bcast w nrm
  let n1 ← bcast r Yt
  let n2 ← bcast n1 w
  let num ← reduce 0 n2
  let d ← bcast Yt w
  let den ← reduce 0 d
  bcast num den

/-- torchiva/scaling.py:163-211: `minimum_distortion` after the test of line 160, for a number of
iterations `n` that was reached. -/
def minDistS (model : Option ShapeModel) (n : ℕ) (Y ref : Shape) : Except Err Shape := do
  let Yt ← swap12 Y
  let c0 ← reduce 0 Yt
  let c ← iterM (mdStepS model Yt ref) n c0
  let c ← unsq 0 c
  let c ← swap12 c
  bcast Y c

/-! ## Utilities -/

/-- torchiva/utils.py:30-61 `select_most_energetic` with the default dimensions and `0 ≤ num`. -/
def selectS (num : ℕ) (x : Shape) : Except Err Shape := do
  let p ← reduceKeep 0 x
  let pT ← swap01 p
  let index ← onDim 0 (min num) pT
  let xT ← swap01 x
  let tgt ← onDim 0 (min num) xT
  let index ← bcast tgt index
  swap01 index

/-! ## STFT and `BSSSeparator` -/

/-- torchiva/stft.py:85-104 `STFT.forward`. -/
def stftS (nFft : ℕ) (hop : Option ℕ) : ShapeModel
  | n :: b => do
    let flat ← reshapeFlat (n :: b) [n]
    let h := hopOf nFft hop
    if n ≤ nFft / 2 ∨ h = 0 then .error .runtimeError
    else
      let X := stftFrames nFft h n :: (nFft / 2 + 1) :: flat.drop 1
      reshapeS X (stftFrames nFft h n :: (nFft / 2 + 1) :: b)
  | [] => .error .indexError

/-- torchiva/stft.py:106-123 `STFT.inv` (the test of the window envelope, which is on values, is in
`stftInv`). -/
def stftInvS (nFft : ℕ) (hop : Option ℕ) : ShapeModel
  | n :: f :: b => do
    let flat ← reshapeFlat (n :: f :: b) [n, f]
    let h := hopOf nFft hop
    if f ≠ nFft / 2 + 1 ∨ n = 0 ∨ h = 0 ∨ nFft < h then .error .runtimeError
    else reshapeS (istftLen nFft h n :: flat.drop 2) (istftLen nFft h n :: b)
  | _ => .error .valueError

/-- torchiva/nn.py:171-176: zero padding or truncation to the length of the input. -/
def fixLengthS (n : ℕ) : ShapeModel
  | m :: b =>
    if m < n then catS 0 (m :: b) ((n - m) :: b)
    else if n < m then onDim 0 (min n) (m :: b)
    else .ok (m :: b)
  | [] => .error .indexError

/-- torchiva/nn.py:153-178 `BSSSeparator.forward`, with the separator given. -/
def bssSeparatorS (nFft : ℕ) (hop : Option ℕ) (separator : ShapeModel) : ShapeModel
  | n :: c :: b => do
    let X ← stftS nFft hop (n :: c :: b)
    let Y ← separator X
    let y ← stftInvS nFft hop Y
    fixLengthS n y
  | _ => .error .valueError

end Torchiva
