import Verif.Model.Memory

/-!
# `T_ISS.forward` on the heap

See `Model/Memory.lean`.  The values come from the item model of torchiva/t_iss.py
(`Model/TIss.lean`); what is added is which tensors are new, which are views, which are written in place and what
autograd records.
-/

namespace Torchiva
namespace Memory

/-- For instance torchiva/t_iss.py:240 (`sqrt` records its own result): record tensors for the backward pass. -/
def record (ids : List ℕ) : Mem Unit := fun h =>
  (.ok (), { h with saved := ids.map (fun i => (i, h.ver i)) ++ h.saved })

/-- torchiva/t_iss.py:234: a source model as a computation on the heap, with the state it keeps. -/
abbrev MemModel (σ : Type) (F N : ℕ) := (s : ℕ) → σ → Ref (I3 s F N) → Mem (Ref (I3 s F N) × σ)

/-- torchiva/t_iss.py:498-511: `torch_checkpoint` records its inputs and runs the function without recording
anything (the function is run again in the backward pass). -/
def checkpointed {α : Type} (ids : List ℕ) (m : Mem α) : Mem α := fun h =>
  let h1 : Heap := { h with saved := ids.map (fun i => (i, h.ver i)) ++ h.saved }
  ((m h1).1, { (m h1).2 with saved := h1.saved })

section tiss
variable {s C F N T : ℕ} {σ : Type}

/-- torchiva/t_iss.py:494-524: the names `Y`, `W`, `H`, `J` of the main loop and the source model's state. -/
structure TNames (σ : Type) (s C F N T : ℕ) where
  Y : Ref (I3 s F N)
  W : Ref (I3 s F C)
  H : Ref (I4 s F C T)
  J : Option (Ref (I3 (C - s) F s))
  ms : σ

/-- torchiva/t_iss.py:468-474: `C_XX` and `C_XbarX` (`None` in the determined case). -/
structure Covs (C F T : ℕ) where
  XX : Ref (I3 C F C)
  XbarX : Ref (I4 C T F C)

/-- torchiva/t_iss.py:230-256 `over_iss_t_one_iter`.  `None` covariances with a background filter would
raise a `TypeError` in `einsum`. -/
noncomputable def oneIterMem (hs : s ≤ C) (X : Ref (I3 C F N)) (Xbar : Ref (I4 C F T N)) (cov : Option (Covs C F T))
    (model : MemModel σ F N) (eps : ℝ) (r : TNames σ s C F N T) : Mem (TNames σ s C F N T) := do
  let wm ← model s r.ms r.Y
  let y ← read r.Y
  let g ← out (ι := Fin s) [r.Y.id] fun k => (sourceGain (fun k f n => y (k, f, n)) eps k : ℂ)
  let gv ← readR g
  let gSqrt ← out (ι := Fin s) [] fun k => (√(gv k) : ℂ)
  record [gSqrt.id]
  let gs ← readR gSqrt
  let Y ← out (ι := I3 s F N) [r.Y.id, gSqrt.id] fun i => divide (y i) (gs i.1) eps
  let w ← read r.W
  let W ← out (ι := I3 s F C) [r.W.id, gSqrt.id] fun i => divide (w i) (gs i.1) eps
  let hh ← read r.H
  let H ← out (ι := I4 s F C T) [r.H.id, gSqrt.id] fun i => divide (hh i) (gs i.1) eps
  let ww ← readR wm.1
  let weights ← out (ι := I3 s F N) [wm.1.id, g.id] fun i => ((ww i * gv i.1 : ℝ) : ℂ)
  match r.J with
  | some _ =>
    match cov with
    | none => fun h => (.error .typeError, h)
    | some cov => do
      let w ← read W
      let hh ← read H
      let cXX ← read cov.XX
      let cXbarX ← read cov.XbarX
      let J ← outE (ι := I3 (C - s) F s) [W.id, H.id, cov.XX.id, cov.XbarX.id]
        ((backgroundUpdate hs (fun k f c => w (k, f, c)) (fun k f c t => hh (k, f, c, t))
          (fun c f d => cXX (c, f, d)) (fun c t f d => cXbarX (c, t, f, d)) 1e-3).map
            fun J i => J i.1 i.2.1 i.2.2)
      let x ← read X
      let j ← read J
      let Z ← out (ι := I3 (C - s) F N) [J.id, X.id] fun i =>
        demixBackground hs (fun c f n => x (c, f, n)) (fun c f d => j (c, f, d)) i.1 i.2.1 i.2.2
      let u ← issUpdatesMem hs Y Xbar W H weights eps (some (Z, J))
      return ⟨u.X, u.W, u.H, some J, wm.2⟩
  | none => do
    let u ← issUpdatesMem hs Y Xbar W H weights eps none
    return ⟨u.X, u.W, u.H, none, wm.2⟩

/-- torchiva/t_iss.py:39-42 `demix_derev`. -/
noncomputable def demixDerevMem (X : Ref (I3 C F N)) (Xbar : Ref (I4 C F T N)) (W : Ref (I3 s F C))
    (H : Ref (I4 s F C T)) : Mem (Ref (I3 s F N)) := do
  let x ← read X
  let xb ← read Xbar
  let w ← read W
  let hh ← read H
  out (ι := I3 s F N) [H.id, Xbar.id, W.id, X.id] fun i =>
    demixDerev (fun c f n => x (c, f, n)) (fun c f t n => xb (c, f, t, n)) (fun k f c => w (k, f, c))
      (fun k f c t => hh (k, f, c, t)) i.1 i.2.1 i.2.2

/-- torchiva/t_iss.py:259-269 `over_iss_t_one_iter_dmc`, called through `torch_checkpoint` (lines 497-511): the
new signals are dropped. -/
noncomputable def oneIterDmcMem (hs : s ≤ C) (X : Ref (I3 C F N)) (Xbar : Ref (I4 C F T N))
    (cov : Option (Covs C F T)) (model : MemModel σ F N) (eps : ℝ) (r : TNames σ s C F N T) :
    Mem (TNames σ s C F N T) :=
  checkpointed (match r.J with
      | some J => [X.id, Xbar.id, r.W.id, r.H.id, J.id]
      | none => [X.id, Xbar.id, r.W.id, r.H.id]) do
    let Y ← demixDerevMem X Xbar r.W r.H
    let u ← oneIterMem hs X Xbar cov model eps ⟨Y, r.W, r.H, r.J, r.ms⟩
    return ⟨r.Y, u.W, u.H, u.J, u.ms⟩

/-- torchiva/t_iss.py:526-539: the returned signal and what is stored in the attributes `W` and `J`. -/
structure TOut (σ : Type) (s C F N : ℕ) where
  Y : Ref (I3 s F N)
  W : Ref (I3 s F C)
  J : Option (Ref (I3 (C - s) F s))
  ms : σ

/-- torchiva/t_iss.py:464-466: `X_bar` is a strided view of the padded signal. -/
def xbarView (T D : ℕ) (Xpad : Ref (I3 C F (T + D + N))) : Ref (I4 C F T N) :=
  Xpad.view fun i => (i.1, i.2.1, ⟨i.2.2.1 + i.2.2.2, by have := i.2.2.1.2; have := i.2.2.2.2; omega⟩)

/-- torchiva/t_iss.py:494-539: the main loop and the projection back of `T_ISS.forward`. -/
noncomputable def tissTailMem (hs : s ≤ C) (p : TissParams) (X : Ref (I3 C F N)) (Xbar : Ref (I4 C F p.nTaps N))
    (cov : Option (Covs C F p.nTaps)) (model : MemModel σ F N) (r : TNames σ s C F N p.nTaps) :
    Mem (TOut σ s C F N) := do
  let r ← times (if p.useDmc then oneIterDmcMem hs X Xbar cov model p.eps
    else oneIterMem hs X Xbar cov model p.eps) p.nIter r
  let Y ← (if p.useDmc then demixDerevMem X Xbar r.W r.H else pure r.Y)
  match p.projBackMic with
  | some m =>
    if 0 < p.nIter then do
      let w ← read r.W
      let j ← (match r.J with
        | some J => do
          let j ← read J
          return some fun c f d => j (c, f, d)
        | none => pure none : Mem (Option (BackJ (C - s) F s)))
      let a ← outE (ι := I2 s F) (r.W.id :: (match r.J with
          | some J => [J.id]
          | none => []))
        ((projectionBackWeights hs (fun k f c => w (k, f, c)) j m).map fun a i => a i.1 i.2)
      let av ← read a
      let y ← read Y
      let Y ← out (ι := I3 s F N) [a.id, Y.id] fun i => av (i.1, i.2.1) * y i
      return ⟨Y, r.W, r.J, r.ms⟩
    else return ⟨Y, r.W, r.J, r.ms⟩
  | none => return ⟨Y, r.W, r.J, r.ms⟩

/-- torchiva/t_iss.py:461-539: `T_ISS.forward` after parameter resolution and reset of the source model. -/
noncomputable def tissMem (hs : s ≤ C) (p : TissParams) (X : Ref (I3 C F N)) (model : MemModel σ F N) (ms : σ) :
    Mem (TOut σ s C F N) := do
  let x ← read X
  let Xpad ← out (ι := I3 C F (p.nTaps + p.nDelay + N)) [] fun i =>
    if h : p.nTaps + p.nDelay ≤ i.2.2.1 then x (i.1, i.2.1, ⟨i.2.2.1 - (p.nTaps + p.nDelay), by omega⟩) else 0
  let Xbar := xbarView (N := N) p.nTaps p.nDelay Xpad
  let xb ← read Xbar
  let cov ← (if s < C then do
      let XX ← out (ι := I3 C F C) [X.id] fun i => covXX (fun c f n => x (c, f, n)) i.1 i.2.1 i.2.2
      let XbarX ← out (ι := I4 C p.nTaps F C) [Xbar.id, X.id] fun i =>
        covXbarX (fun c f n => x (c, f, n)) (fun c f t n => xb (c, f, t, n)) i.1 i.2.1 i.2.2.1 i.2.2.2
      return some ⟨XX, XbarX⟩
    else pure none : Mem (Option (Covs C F p.nTaps)))
  let W ← out (ι := I3 s F C) [] fun _ => 0
  let eye ← out (ι := I2 s C) [] fun i => if i.1.1 = i.2.1 then 1 else 0
  let e ← read eye
  -- W[...] = eye[:, None, :]
  set W (fun i => i) fun i => e (i.1, i.2.2)
  let H ← out (ι := I4 s F C p.nTaps) [] fun _ => 0
  let J ← (match cov with
    | some cov => do
      let w ← read W
      let hh ← read H
      let cXX ← read cov.XX
      let cXbarX ← read cov.XbarX
      let J ← outE (ι := I3 (C - s) F s) [W.id, H.id, cov.XX.id, cov.XbarX.id]
        ((backgroundUpdate hs (fun k f c => w (k, f, c)) (fun k f c t => hh (k, f, c, t))
          (fun c f d => cXX (c, f, d)) (fun c t f d => cXbarX (c, t, f, d)) p.eps).map
            fun J i => J i.1 i.2.1 i.2.2)
      return some J
    | none => pure none : Mem (Option (Ref (I3 (C - s) F s))))
  let Y ← demixDerevMem X Xbar W H
  tissTailMem hs p X Xbar cov model ⟨Y, W, H, J, ms⟩

/-- torchiva/t_iss.py:414-539 `T_ISS.forward`: the number of sources is defaulted and checked, the source model is
reset. -/
noncomputable def tissForwardMem (p : TissParams) (nSrc : Option ℕ) (X : Ref (I3 C F N)) (model : MemModel σ F N)
    (reset : σ → σ) (ms : σ) : Mem (Σ s : ℕ, TOut σ s C F N) :=
  if hs : nSrc.getD C ≤ C then do
    let o ← tissMem hs p X model (reset ms)
    return ⟨nSrc.getD C, o⟩
  else lift (.error .valueError)

end tiss

end Memory
end Torchiva
