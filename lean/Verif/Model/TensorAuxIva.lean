import Verif.Model.TensorTIss
import Verif.Model.AuxIva

/-!
# torchiva/auxiva_ip.py on tensors

The functions of torchiva/auxiva_ip.py, statement by statement, on tensors with any number of leading
dimensions; `Model/AuxIva.lean` gives the same functions as formulas for one signal.
-/

namespace Torchiva

/-- torchiva/auxiva_ip.py:38-53 `orthogonal_constraint`. -/
noncomputable def orthogonalConstraintT (W Cx : Ten ℂ) (load : ℝ) : Except Err (Option (Ten ℂ)) := do
  let nSrc := W.shape.getD 1 0
  let nChan := W.shape.getD 0 0
  if nSrc = nChan then .ok none
  else if nChan < nSrc then .error .valueError
  else do
    let A ← Ten.matmul W Cx
    let A1 ← A.take 0 nSrc
    let A2 ← A.drop 0 nSrc
    let JH ← solveLoadedGeneralT A1 A2 load load
    let J ← JH.swap01
    .ok (some (J.map star))

/-- torchiva/auxiva_ip.py:56-105 `projection_back_from_demixing_matrix`: the returned signal. -/
noncomputable def projectionBackDemixingT (Y W : Ten ℂ) (J : Option (Ten ℂ)) (refMic : ℕ) :
    Except Err (Ten ℂ) := do
  let nSrc := Y.shape.getD 2 0
  let nChan := W.shape.getD 0 0
  match J with
  | none => do
    let e0 ← (Ten.eye nChan nChan).pick 0 refMic
    let e1 ← e0.expand (e0.shape ++ W.shape.drop 2)
    let WT ← W.swap01
    let a ← solveLoadedGeneralT WT e1 1e-5 1e-5
    let a ← a.swap12
    Ten.map2 (fun x y => x * y) Y a
  | some J => do
    let W1 ← W.take 1 nSrc
    let A ← W1.take 0 nSrc
    let B ← W1.drop 0 nSrc
    let e0 ← (if refMic < nSrc then (Ten.eye nSrc nSrc).pick 0 refMic
      else do
        let c ← J.pick 1 (refMic - nSrc)
        c.swap01 : Except Err (Ten ℂ))
    let BC ← Ten.matmul B J
    let WW ← Ten.map2 (fun x y => x + y) A BC
    let e1 ← e0.expand (e0.shape ++ WW.shape.drop 2)
    let WT ← WW.swap01
    let a ← solveLoadedGeneralT WT e1 1e-5 1e-5
    let a ← a.swap12
    Ten.map2 (fun x y => x * y) Y a

/-- torchiva/auxiva_ip.py:273-278: `WV`. -/
def stackWVT (nSrc : ℕ) (W : Ten ℂ) (J : Option (Ten ℂ)) (V : Ten ℂ) : Except Err (Ten ℂ) :=
  match J with
  | none => Ten.matmul W V
  | some J => do
    let WV ← Ten.matmul W V
    let V1 ← V.take 1 nSrc
    let V2 ← V.drop 1 nSrc
    let JV ← Ten.matmul J V1
    let R ← Ten.map2 (fun x y => x - y) JV V2
    Ten.cat 1 WV R

/-- torchiva/auxiva_ip.py:281-290: the new demixing row for source `k`. -/
noncomputable def ipNewRowT (nSrc : ℕ) (W : Ten ℂ) (J : Option (Ten ℂ)) (V evec : Ten ℂ) (k : ℕ) (eps : ℝ) :
    Except Err (Ten ℂ) := do
  let WV ← stackWVT nSrc W J V
  let ek ← evec.pick 0 k
  let sol ← solveLoadedGeneralT WV ek eps eps
  let newW ← (sol.map star).sel 0 0
  let scale ← einsumT [("c", newW), ("d", newW.map star), ("cd", V)] ""
  let sc ← (scale.map fun z => z.re).unsq 0
  let newW ← Ten.map2 (fun x y => x / (y : ℂ)) newW (sc.map fun x => √(clampMin x eps))
  newW.unsq 1

/-- torchiva/auxiva_ip.py:262-293: update of source `k`; the new `W` and the `J` that was used. -/
noncomputable def ipSrcUpdateT (nSrc : ℕ) (X : Ten ℂ) (w : Ten ℝ) (Cx evec : Ten ℂ) (eps : ℝ)
    (st : Ten ℂ × Option (Ten ℂ)) (k : ℕ) : Except Err (Ten ℂ × Option (Ten ℂ)) := do
  let W := st.1
  let J ← orthogonalConstraintT W Cx eps
  let wk ← w.pick 2 k
  let Xw ← Ten.map2 (fun x y => x * y) X wk.toC
  let V ← einsumT [("cfn", Xw), ("dfn", X.map star)] "fcd"
  let newW ← ipNewRowT nSrc W J V evec k eps
  -- torch.cat([W[..., :k, :], new_w, W[..., k + 1 : n_src, :]], dim=-2)
  let Wa ← W.take 1 k
  let Wc ← W.take 1 nSrc
  let Wb ← Wc.drop 1 (k + 1)
  let W1 ← Ten.cat 1 Wa newW
  let W2 ← Ten.cat 1 W1 Wb
  .ok (W2, J)

/-- torchiva/auxiva_ip.py:230-240, 252: what the main loop carries. -/
structure IpT (τ : Type) where
  Y : Ten ℂ
  W : Ten ℂ
  J : Option (Ten ℂ)
  ms : τ

/-- torchiva/auxiva_ip.py:248-296: one epoch. -/
noncomputable def ipEpochT {τ : Type} (nSrc : ℕ) (X Cx evec : Ten ℂ) (model : TenModel τ) (eps : ℝ)
    (st : IpT τ) : Except Err (IpT τ) := do
  let wm ← model st.ms st.Y
  -- torch.mean(mag_sq(Y), dim=(-2, -1), keepdim=True)
  let q1 ← Ten.sumKeep 0 (magSqT st.Y)
  let q ← q1.sumKeep 1
  let count : ℝ := (st.Y.shape.getD 1 0 : ℝ) * (st.Y.shape.getD 0 0 : ℝ)
  let g := q.map fun x => clampMin (x / count) eps
  let gSqrt := g.map fun x => √x
  -- line 257 rescales Y, which is overwritten on line 296
  let _ ← divideT st.Y gSqrt eps
  let gT ← gSqrt.swap12
  let W ← divideT st.W gT eps
  let w ← Ten.map2 (fun x y => x * y) wm.1 g
  let r ← (List.range nSrc).foldlM (ipSrcUpdateT nSrc X w Cx evec eps) (W, st.J)
  let Y ← einsumT [("fcd", r.1), ("dfn", X)] "cfn"
  .ok ⟨Y, r.1, r.2, wm.2⟩

/-- torchiva/auxiva_ip.py:306: the returned signal, with the state of the source model. -/
structure IpOutT (τ : Type) where
  Y : Ten ℂ
  ms : τ

/-- torchiva/auxiva_ip.py:238: the input covariance. -/
noncomputable def inputCovT (X : Ten ℂ) : Except Err (Ten ℂ) := do
  let C ← einsumT [("cfn", X), ("dfn", X.map star)] "fcd"
  .ok (C.map fun z => z / (X.shape.headD 0 : ℂ))

/-- torchiva/auxiva_ip.py:202-306 `AuxIVA_IP.forward` (parameters already resolved, `verbose=False`). -/
noncomputable def auxivaForwardT {τ : Type} (p : IpParams) (nSrc : Option ℕ) (model : TenModel τ)
    (reset : τ → τ) (ms : τ) (X : Ten ℂ) : Except Err (IpOutT τ) :=
  match nSrc, X.shape with
  | none, _ => .error .typeError
  | some s, _ :: F :: C :: b => do
    -- W = X.new_zeros(batch_shape + (n_freq, n_src, n_chan)); W[:] = torch.eye(n_src, n_chan)
    let W ← (Ten.eye s C).expand (C :: s :: F :: b)
    let Y ← X.take 2 s
    let Cx ← inputCovT X
    let J ← orthogonalConstraintT W Cx p.eps
    let evec ← (Ten.eye C C).expand (C :: C :: W.shape.drop 2)
    let st ← iterM (ipEpochT s X Cx evec model p.eps) p.nIter ⟨Y, W, J, reset ms⟩
    match p.projBackMic with
    | some m => do
      let Y ← projectionBackDemixingT st.Y st.W st.J m
      .ok ⟨Y, st.ms⟩
    | none => .ok ⟨st.Y, st.ms⟩
  | some _, _ => .error .valueError

end Torchiva
