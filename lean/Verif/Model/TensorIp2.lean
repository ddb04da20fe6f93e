import Verif.Model.TensorFive

/-!
# AuxIVA-IP2 on tensors

torchiva/auxiva_ip2.py, statement by statement, on mixtures with any number of batch dimensions.
-/

namespace Torchiva

/-- torchiva/linalg.py:134-136: `torch.stack((a, b), dim=-1)`. -/
def Ten.stack2 {α : Type} (a b : Ten α) : Except Err (Ten α) :=
  if a.shape = b.shape then
    .ok ⟨2 :: a.shape, fun idx => if idx.headD 0 = 0 then a.val idx.tail else b.val idx.tail⟩
  else .error .runtimeError

open Classical in
/-- torchiva/linalg.py:119-140 `inv_2x2`.  The divisor is never zero for `eps > 0`. -/
noncomputable def inv2x2T (W : Ten ℂ) (eps : ℝ) : Except Err (Ten ℂ) :=
  if W.shape.getD 0 0 ≠ W.shape.getD 1 0 ∨ W.shape.getD 0 0 ≠ 2 then .error .valueError
  else do
    let W11 ← W.at2 0 0
    let W21 ← W.at2 1 0
    let W12 ← W.at2 0 1
    let W22 ← W.at2 1 1
    let p ← Ten.map2 (fun x y => x * y) W11 W22
    let q ← Ten.map2 (fun x y => x * y) W12 W21
    let det ← Ten.map2 (fun x y => x - y) p q
    let det := det.map fun d => if ‖d‖ < eps then (eps : ℂ) else d
    let c0 ← Ten.stack2 W22 (W21.map fun x => -x)
    let c1 ← Ten.stack2 (W12.map fun x => -x) W11
    let adj ← Ten.stack2 c0 c1
    let d ← det.unsq 0
    let d ← d.unsq 0
    Ten.map2 (fun x y => x / y) adj d

/-- torchiva/auxiva_ip2.py:57-64: the Hermitised weighted covariances of source `k`. -/
noncomputable def ip2CovT (Xo : Ten ℂ) (w : Ten ℝ) (k : ℕ) : Except Err (Ten ℂ) := do
  let wk ← w.sel 2 k
  let V ← einsumT [("fn", wk.toC), ("cfn", Xo), ("dfn", Xo.map star)] "fcd"
  let n := Xo.shape.headD 0
  hermitizeT (V.map fun z => z / (n : ℂ))

/-- torchiva/auxiva_ip2.py:74-79: `abs(conj(eigvec[..., None, :, k]) @ (V @ eigvec[..., :, None, k]))`. -/
noncomputable def ip2ScaleT (V vec : Ten ℂ) (k : ℕ) : Except Err (Ten ℝ) := do
  let ek ← vec.sel 0 k
  let row ← ek.unsq 1
  let col ← ek.unsq 0
  let Vc ← Ten.matmul V col
  let s ← Ten.matmul (row.map star) Vc
  .ok (s.map fun z => ‖z‖)

/-- torchiva/auxiva_ip2.py:69-82: the scaled eigenvectors. -/
noncomputable def ip2EigT (V0 V1 : Ten ℂ) (eps : ℝ) : Except Err (Ten ℂ) := do
  let r ← eigh2x2T V1 (some V0) eps
  let vec := r.vec.flip0
  let s0 ← ip2ScaleT V0 vec 0
  let s1 ← ip2ScaleT V1 vec 1
  let scale ← Ten.cat 0 s0 s1
  Ten.map2 (fun x y => x / y) vec (scale.map fun x => clampMin (√(clampMin x 1e-7)) eps).toC

/-- torchiva/auxiva_ip2.py:187-192, 207: what the main loop carries.  `W` and `A` are `None` without projection back. -/
structure Ip2T (τ : Type) where
  X : Ten ℂ
  W : Option (Ten ℂ)
  A : Option (Ten ℂ)
  ms : τ

/-- torchiva/auxiva_ip2.py:29-91 `spatial_model_update_ip2`. -/
noncomputable def ip2UpdateT (Xo : Ten ℂ) (w : Ten ℝ) (W A : Option (Ten ℂ)) (eps : ℝ) :
    Except Err (Ten ℂ × Option (Ten ℂ) × Option (Ten ℂ)) :=
  if Xo.shape.getD 2 0 = 2 then do
    let V0 ← ip2CovT Xo w 0
    let V1 ← ip2CovT Xo w 1
    let E ← ip2EigT V0 V1 eps
    let EH ← hermiteT E
    let WA ← (match W with
      | none => .ok (none, A)
      | some _ => match A with
        | none => .ok (some EH, none)
        | some _ => do
          let A ← inv2x2T EH 1e-6
          .ok (some EH, some A) : Except Err (Option (Ten ℂ) × Option (Ten ℂ)))
    let X ← einsumT [("fcd", EH), ("dfn", Xo)] "cfn"
    .ok (X, WA.1, WA.2)
  else .error .assertionError

/-- torchiva/auxiva_ip2.py:194-207: one epoch (line 203 rescales `X`, which is then overwritten). -/
noncomputable def ip2EpochT {τ : Type} (Xo : Ten ℂ) (model : TenModel τ) (eps : ℝ) (st : Ip2T τ) :
    Except Err (Ip2T τ) := do
  let w ← model st.ms st.X
  let q ← Ten.sumKeep 0 (magSqT st.X)
  let q ← q.sumKeep 1
  let n : ℝ := (st.X.shape.getD 1 0 : ℝ) * (st.X.shape.getD 0 0 : ℝ)
  let g := q.map fun x => clampMin (x / n) 1e-5
  let weights ← Ten.map2 (fun x y => x * y) w.1 g
  let r ← ip2UpdateT Xo weights st.W st.A eps
  .ok ⟨r.1, r.2.1, r.2.2, w.2⟩

/-- torchiva/auxiva_ip2.py:154-213 `AuxIVA_IP2.forward` (resolved parameters). -/
noncomputable def auxiva2ForwardT {τ : Type} (nIter : ℕ) (projBackMic : Option ℤ) (eps : ℝ) (model : TenModel τ)
    (reset : τ → τ) (ms : τ) (X : Ten ℂ) : Except Err (Ten ℂ) :=
  match X.shape with
  | _ :: F :: C :: b =>
    if C = 2 then
      match projBackMic with
      | none => do
        let st ← iterM (ip2EpochT X model eps) nIter ⟨X, none, none, reset ms⟩
        .ok st.X
      | some m =>
        if 0 ≤ m ∧ m < C then do
          -- W = zeros; W[:] = eye; A = W.clone()
          let W ← (Ten.eye C C).expand (C :: C :: F :: b)
          let st ← iterM (ip2EpochT X model eps) nIter ⟨X, some W, some W, reset ms⟩
          if 0 < nIter then
            match st.A with
            | none => .error .typeError
            | some A => do
              let r ← A.pick 1 m.toNat
              let a ← r.move13
              Ten.map2 (fun x y => x * y) a st.X
          else .ok st.X
        else .error .assertionError
    else .error .assertionError
  | _ => .error .valueError

end Torchiva
