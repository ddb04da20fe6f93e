import Verif.Model.MemoryTIss
import Verif.Model.Five
import Verif.Model.Wpe
import Verif.Model.Models

/-!
# `AuxIVA_IP`, `AuxIVA_IP2`, `WPE` and `FIVE` on the heap

See `Model/Memory.lean`.  These algorithms write in place only into tensors they have just created (torchiva/auxiva_ip.py:231,
torchiva/auxiva_ip2.py:188 and the filling of the results of `eigh_2x2`, torchiva/linalg.py:201-248); everything else
rebinds names.  A group of torch operations whose intermediate tensors are neither written nor handed out is one operation
here, which records the tensors it reads.
-/

namespace Torchiva
namespace Memory

variable {s C F N : ℕ} {σ : Type}

/-- torchiva/models/classic.py:33-43: `LaplaceModel.forward` on the heap. -/
noncomputable def laplaceMem (eps : ℝ) : MemModel Unit F N := fun s ms X => do
  let x ← read X
  let r ← out (ι := I3 s F N) [X.id] fun i => (laplaceForward eps (fun k f n => x (k, f, n)) i.1 i.2.1 i.2.2 : ℂ)
  return (r, ms)

/-- torchiva/models/classic.py:54-64: `GaussModel.forward` on the heap. -/
noncomputable def gaussMem (eps : ℝ) : MemModel Unit F N := fun s ms X => do
  let x ← read X
  let r ← out (ι := I3 s F N) [X.id] fun i => (gaussForward eps (fun k f n => x (k, f, n)) i.1 i.2.1 i.2.2 : ℂ)
  return (r, ms)

/-! ## torchiva/auxiva_ip2.py -/

/-- torchiva/auxiva_ip2.py:182-207: the names `X` and `A` of `AuxIVA_IP2.forward` and the source model's state (`W` is
not used after the loop). -/
structure Ip2Names (σ : Type) (F N : ℕ) where
  X : Ref (I3 2 F N)
  A : Ref (I3 F 2 2)
  ms : σ

/-- torchiva/auxiva_ip2.py:194-207: one iteration.  `X` is rebound twice. -/
noncomputable def ip2EpochMem (Xo : Ref (I3 2 F N)) (model : MemModel σ F N) (eps : ℝ) (r : Ip2Names σ F N) :
    Mem (Ip2Names σ F N) := do
  let wm ← model 2 r.ms r.X
  let x ← read r.X
  let g ← out (ι := Fin 2) [r.X.id] fun k => (clampMin ((∑ f, ∑ n, magSq (x (k, f, n))) / (F * N)) 1e-5 : ℂ)
  let gv ← readR g
  let _X ← out (ι := I3 2 F N) [r.X.id, g.id] fun i => divide (x i) (√(gv i.1)) 1e-7
  let ww ← readR wm.1
  let weights ← out (ι := I3 2 F N) [wm.1.id, g.id] fun i => ((ww i * gv i.1 : ℝ) : ℂ)
  let wv ← readR weights
  let xo ← read Xo
  let W ← outE (ι := I3 F 2 2) [weights.id, Xo.id]
    ((seqAll fun f => ip2Update (fun c n => xo (c, f, n)) (fun k n => wv (k, f, n)) eps).map
      fun W i => W i.1 i.2.1 i.2.2)
  let w ← read W
  let A ← out (ι := I3 F 2 2) [W.id] fun i => inv2x2Core (Matrix.of fun a b => w (i.1, a, b)) 1e-6 i.2.1 i.2.2
  let X ← out (ι := I3 2 F N) [W.id, Xo.id] fun i => ∑ d, w (i.2.1, i.1, d) * xo (d, i.2)
  return ⟨X, A, wm.2⟩

/-- torchiva/auxiva_ip2.py:154-213 `AuxIVA_IP2.forward` for two channels (other inputs fail an assertion) and a
reference microphone that passes the assertion.  The tensors of lines 187-189 are also created when there is no reference
microphone. -/
noncomputable def ip2Mem (nIter : ℕ) (projBackMic : Option (Fin 2)) (eps : ℝ) (X : Ref (I3 2 F N))
    (model : MemModel σ F N) (reset : σ → σ) (ms : σ) : Mem (Ref (I3 2 F N)) := do
  let W ← out (ι := I3 F 2 2) [] fun _ => 0
  -- W[:] = torch.eye(n_chan)
  set W (fun i => i) fun i => if i.2.1 = i.2.2 then 1 else 0
  let w ← read W
  let A ← out (ι := I3 F 2 2) [] w
  let r ← times (ip2EpochMem X model eps) nIter ⟨X, A, reset ms⟩
  match projBackMic with
  | some m =>
    if 0 < nIter then do
      let a ← read r.A
      let x ← read r.X
      out (ι := I3 2 F N) [r.A.id, r.X.id] fun i => a (i.2.1, m, i.1) * x i
    else return r.X
  | none => return r.X

/-! ## torchiva/auxiva_ip.py -/

/-- torchiva/auxiva_ip.py:230-306: an operation with a result on the heap and one (`J`) that is neither written nor
handed out and is kept as a value. -/
def outV {ι β : Type} [Encodable ι] (ids : List ℕ) (e : Except Err β) (g : β → ι → ℂ) : Mem (Ref ι × β) :=
  match e with
  | .ok b => do
    let r ← out ids (g b)
    return (r, b)
  | .error e => fun h => (.error e, h)

/-- torchiva/auxiva_ip.py:230-252: the names of the main loop of `AuxIVA_IP.forward`. -/
structure IpNames (σ : Type) (s C F N : ℕ) where
  Y : Ref (I3 s F N)
  W : Ref (I3 F s C)
  J : Fin F → Option (Matrix (Fin (C - s)) (Fin s) ℂ)
  ms : σ

/-- torchiva/auxiva_ip.py:246-296: one epoch; `Y` and `W` are rebound. -/
noncomputable def ipEpochMem (hs : s ≤ C) (X : Ref (I3 C F N)) (model : MemModel σ F N) (eps : ℝ)
    (r : IpNames σ s C F N) : Mem (IpNames σ s C F N) := do
  let wm ← model s r.ms r.Y
  let y ← read r.Y
  let g ← out (ι := Fin s) [r.Y.id] fun k => (sourceGain (fun k f n => y (k, f, n)) eps k : ℂ)
  let gv ← readR g
  let w ← read r.W
  let W ← out (ι := I3 F s C) [r.W.id, g.id] fun i => w i / (clampMin (√(gv i.2.1)) eps : ℝ)
  let ww ← readR wm.1
  let weights ← out (ι := I3 s F N) [wm.1.id, g.id] fun i => ((ww i * gv i.1 : ℝ) : ℂ)
  let w ← read W
  let wv ← readR weights
  let x ← read X
  let sw ← outV (ι := I3 F s C) [W.id, weights.id, X.id]
    (seqAll fun f => ipSweep hs (fun c n => x (c, f, n)) (inputCov (fun c f n => x (c, f, n)) f)
      (fun k n => wv (k, f, n)) eps (List.finRange s) (Matrix.of fun k c => w (f, k, c), r.J f))
    fun r i => (r i.1).1 i.2.1 i.2.2
  let w ← read sw.1
  let Y ← out (ι := I3 s F N) [sw.1.id, X.id] fun i => ∑ d, w (i.2.1, i.1, d) * x (d, i.2)
  return ⟨Y, sw.1, fun f => (sw.2 f).2, wm.2⟩

/-- torchiva/auxiva_ip.py:202-306 `AuxIVA_IP.forward` with at most as many sources as channels. -/
noncomputable def ipMem (hs : s ≤ C) (p : IpParams) (X : Ref (I3 C F N)) (model : MemModel σ F N) (reset : σ → σ)
    (ms : σ) : Mem (Ref (I3 s F N)) := do
  let W ← out (ι := I3 F s C) [] fun _ => 0
  -- W[:] = torch.eye(n_src, n_chan)
  set W (fun i => i) fun i => if i.2.1.1 = i.2.2.1 then 1 else 0
  let x ← read X
  -- Y = X[..., :n_src, :, :].clone()
  let Y ← out (ι := I3 s F N) [] fun i => x (Fin.castLE hs i.1, i.2)
  let w ← read W
  let J ← lift (seqAll fun f => orthogonalConstraint (Matrix.of fun (k : Fin s) (c : Fin C) => w (f, k, c))
    (inputCov (fun c f n => x (c, f, n)) f) p.eps)
  record [W.id, X.id]
  let r ← times (ipEpochMem hs X model p.eps) p.nIter ⟨Y, W, J, reset ms⟩
  match p.projBackMic with
  | some m => do
    let w ← read r.W
    let y ← read r.Y
    let a ← outE (ι := I2 F s) [r.W.id]
      ((seqAll fun f => projectionBackDemixing (Matrix.of fun k c => w (f, k, c)) (r.J f) m).map fun a i => a i.1 i.2)
    let av ← read a
    out (ι := I3 s F N) [r.Y.id, a.id] fun i => y i * av (i.2.1, i.1)
  | none => return r.Y

/-! ## torchiva/wpe.py -/

/-- torchiva/wpe.py:64-68: a source model for WPE on the heap. -/
abbrev MemWpeModel (σ : Type) (C F N : ℕ) := σ → Ref (I3 C F N) → Mem (Ref (I2 F N) × σ)

/-- torchiva/wpe.py:164-168: the name `Y` and the source model's state. -/
structure WpeNames (σ : Type) (C F N : ℕ) where
  Y : Ref (I3 C F N)
  ms : σ

/-- torchiva/wpe.py:28-29, 38-87, 164-166: the body of the main loop of `WPE.forward`. -/
noncomputable def wpeStepMem {T : ℕ} (X : Ref (I3 C F N)) (Xbar : Ref (I4 C F T N))
    (model : Option (MemWpeModel σ C F N)) (eps : ℝ) (r : WpeNames σ C F N) : Mem (WpeNames σ C F N) := do
  let wm ← (match model with
    | none => do
      let y ← read r.Y
      let w ← outE (ι := I2 F N) [r.Y.id]
        ((wpeDefaultWeights (fun c f n => y (c, f, n)) eps).map fun w i => (w i.1 i.2 : ℂ))
      return (w, r.ms)
    | some m => m r.ms r.Y : Mem (Ref (I2 F N) × σ))
  let w ← readR wm.1
  let x ← read X
  let xb ← read Xbar
  let H ← outE (ι := Fin F × (Fin C × Fin T) × Fin C) [wm.1.id, X.id, Xbar.id]
    ((wpeFilter (fun f n => w (f, n)) (fun c f n => x (c, f, n)) (fun c f t n => xb (c, f, t, n)) eps).map
      fun H i => H i.1 i.2.1 i.2.2)
  let hh ← read H
  let Y ← out (ι := I3 C F N) [X.id, H.id, Xbar.id] fun i =>
    wpeDerev (fun f => Matrix.of fun p s => hh (f, p, s)) (fun c f n => x (c, f, n)) (fun c f t n => xb (c, f, t, n))
      i.1 i.2.1 i.2.2
  return ⟨Y, wm.2⟩

/-- torchiva/wpe.py:136-168 `WPE.forward`. -/
noncomputable def wpeMem (nIter T D : ℕ) (eps : ℝ) (X : Ref (I3 C F N)) (model : Option (MemWpeModel σ C F N))
    (ms : σ) : Mem (Ref (I3 C F N)) := do
  let x ← read X
  let Xpad ← out (ι := I3 C F (T + D + N)) [] fun i =>
    if h : T + D ≤ i.2.2.1 then x (i.1, i.2.1, ⟨i.2.2.1 - (T + D), by omega⟩) else 0
  -- Y = X.clone()
  let Y ← out (ι := I3 C F N) [] x
  let r ← times (wpeStepMem X (xbarView T D Xpad) model eps) nIter ⟨Y, ms⟩
  return r.Y

/-! ## torchiva/five.py -/

/-- torchiva/five.py:205-242: the name `Y` and the source model's state. -/
structure FiveNames (σ : Type) (F N : ℕ) where
  Y : Ref (I2 F N)
  ms : σ

/-- torchiva/five.py:217-242: one iteration. -/
noncomputable def fiveEpochMem [NeZero C] (solver : Matrix (Fin C) (Fin C) ℂ → EigRes (Fin C)) (nPower : Option ℕ)
    (Xw : Ref (I3 C F N)) (qref : Ref (I2 F C)) (model : MemModel σ F N) (r : FiveNames σ F N) :
    Mem (FiveNames σ F N) := do
  let wm ← model 1 r.ms (r.Y.view fun i => i.2)
  let w ← readR wm.1
  let x ← read Xw
  let V ← out (ι := I3 F C C) [wm.1.id, Xw.id] fun i =>
    fiveWCov (fun c n => x (c, i.1, n)) (fun n => w (0, i.1, n)) i.2.1 i.2.2
  let v ← read V
  let ev ← outE (ι := I2 F C) [V.id]
    ((fiveVectors solver nPower fun f => Matrix.of fun c d => v (f, c, d)).map fun e i => e i.1 i.2)
  let e ← read ev
  let q ← read qref
  let z ← out (ι := Fin F) [qref.id, ev.id] fun f => ∑ c, q (f, c) * e (f, c)
  let zv ← read z
  let dw ← out (ι := I2 F C) [ev.id, z.id] fun i => e i * star (zv i.1)
  let dwv ← read dw
  let Y ← out (ι := I2 F N) [dw.id, Xw.id] fun i => ∑ c, star (dwv (i.1, c)) * x (c, i)
  return ⟨Y, wm.2⟩

/-- torchiva/five.py:143-248 `FIVE.forward` with a reference microphone. -/
noncomputable def fiveMem [NeZero C] (solver : Matrix (Fin C) (Fin C) ℂ → EigRes (Fin C)) (nIter : ℕ) (ref : Fin C)
    (nPower : Option ℕ) (X : Ref (I3 C (F + 1) N)) (model : MemModel σ F N) (reset : σ → σ) (ms : σ) :
    Mem (Ref (I3 1 (F + 1) N)) := do
  -- X = X[..., 1:, :], a view
  let X1 : Ref (I3 C F N) := X.view fun i => (i.1, i.2.1.succ, i.2.2)
  let x ← read X1
  let Cx ← out (ι := I3 F C C) [X1.id] fun i => fiveCov (fun c n => x (c, i.1, n)) i.2.1 i.2.2
  let cx ← read Cx
  -- Q and Qinv, stacked
  let QQ ← outE (ι := Fin 2 × I3 F C C) [Cx.id]
    ((seqAll fun f => fiveWhiten solver (Matrix.of fun c d => cx (f, c, d))).map fun wh i =>
      if i.1 = 0 then (wh i.2.1).Q i.2.2.1 i.2.2.2 else (wh i.2.1).Qinv i.2.2.1 i.2.2.2)
  let q ← read QQ
  let Qref : Ref (I2 F C) := QQ.view fun i => (1, i.1, ref, i.2)
  let Xw ← out (ι := I3 C F N) [QQ.id, X1.id] fun i => ∑ d, q (0, i.2.1, i.1, d) * x (d, i.2)
  let xw ← read Xw
  let z ← out (ι := Fin F) [QQ.id, Cx.id] fun f => ∑ c, q (0, f, 0, c) * cx (f, c, ref)
  let zv ← read z
  let Y ← out (ι := I2 F N) [z.id, Xw.id] fun i => zv i.1 * xw (0, i)
  let r ← times (fiveEpochMem solver nPower Xw Qref model) nIter ⟨Y, reset ms⟩
  let y ← read r.Y
  -- torch.cat copies, Y[..., None, :, :] is a view of the copy
  let out1 ← out (ι := I2 (F + 1) N) [] fun i => if h : i.1 = 0 then 0 else y (i.1.pred h, i.2)
  return out1.view fun i => i.2

end Memory
end Torchiva
