import Verif.Model.Linalg
import Verif.Model.Hankel

/-!
# Model of torchiva/t_iss.py

One batch item.  Index conventions follow the code: a signal is indexed
`channel, frequency, frame`, `W` is `source, frequency, channel`, `H` is
`source, frequency, channel, tap`, `J` is `background channel, frequency, source`.
`s` is `n_src`, `C` is `n_chan`, `F` is `n_freq`, `N` is `n_frames` (at least one frame is assumed:
line 69 divides by `n_frames`), `T` is `n_taps`, `D` is `n_delay`.
-/

namespace Torchiva

open Matrix

/-- torchiva/t_iss.py:39-42: a signal, indexed by channel, frequency and frame. -/
abbrev Sig (c F N : ℕ) := Fin c → Fin F → Fin N → ℂ
/-- torchiva/t_iss.py:234: the weights of a source model. -/
abbrev Weights (s F N : ℕ) := Fin s → Fin F → Fin N → ℝ
/-- torchiva/t_iss.py:477: the demixing matrices. -/
abbrev DemixW (s F C : ℕ) := Fin s → Fin F → Fin C → ℂ
/-- torchiva/t_iss.py:485: the dereverberation filters. -/
abbrev DemixH (s F C T : ℕ) := Fin s → Fin F → Fin C → Fin T → ℂ
/-- torchiva/t_iss.py:479: the background filter. -/
abbrev BackJ (b F s : ℕ) := Fin b → Fin F → Fin s → ℂ
/-- torchiva/t_iss.py:466: the delayed frames `X_bar`. -/
abbrev Taps (C F T N : ℕ) := Fin C → Fin F → Fin T → Fin N → ℂ

/-- torchiva/t_iss.py:234: A source model is an arbitrary, possibly stateful, function from separated signals to real
weights (a neural network, NMF, ...).  It is polymorphic in the number of sources. -/
abbrev SourceModel (σ : Type) (F N : ℕ) := (s : ℕ) → σ → Sig s F N → Weights s F N × σ

section dims
variable {s C F N T b : ℕ}

/-- For instance torchiva/linalg.py:88: A batched routine over the index type `φ`: it returns iff it returns for every index. -/
noncomputable def seqAll {φ α : Type} (g : φ → Except Err α) : Except Err (φ → α) :=
  open Classical in
  if h : ∀ f, ∃ x, g f = .ok x then .ok fun f => (h f).choose
  else .error (match g (not_forall.1 h).choose with
    | .error e => e
    | .ok _ => .runtimeError)

/-- torchiva/t_iss.py:39-42 `demix_derev`. -/
noncomputable def demixDerev (X : Sig C F N) (Xbar : Taps C F T N) (W : DemixW s F C)
    (H : DemixH s F C T) : Sig s F N := fun c f n =>
  (∑ d, W c f d * X d f n) - ∑ d, ∑ t, H c f d t * Xbar d f t n

/-- torchiva/t_iss.py:45-53 `demix_background` for `J` not `None`. -/
noncomputable def demixBackground (hs : s ≤ C) (X : Sig C F N) (J : BackJ (C - s) F s) :
    Sig (C - s) F N := fun c f n =>
  (∑ d, J c f d * X (Fin.castLE hs d) f n) - X ⟨s + c, by omega⟩ f n

/-- torchiva/t_iss.py:56-78 `iss_block_update_type_1`. -/
noncomputable def issType1 (src : Fin s) (X : Sig s F N) (w : Weights s F N) (eps : ℝ) :
    Fin s → Fin F → ℂ := fun c f =>
  let norm : ℝ := 1 / N
  let vNum : Fin s → ℂ := fun c => (∑ n, (w c f n : ℂ) * X c f n * star (X src f n)) * (norm : ℂ)
  let vDenom : Fin s → ℝ := fun c => (∑ n, w c f n * magSq (X src f n)) * norm
  if c = src then ((1 - 1 / √(clampMin (vDenom src) eps) : ℝ) : ℂ)
  else divide (vNum c) (vDenom c) eps

/-- torchiva/t_iss.py:81-98 `iss_block_update_type_2`. -/
noncomputable def issType2 (X : Sig s F N) (Zs : Fin F → Fin N → ℂ) (w : Weights s F N) (eps : ℝ) :
    Fin s → Fin F → ℂ := fun c f =>
  let vNum : ℂ := ∑ n, (w c f n : ℂ) * X c f n * star (Zs f n)
  let vDenom : ℝ := ∑ n, w c f n * magSq (Zs f n)
  divide vNum vDenom eps

/-- torchiva/t_iss.py:101-122 `iss_block_update_type_3`. -/
noncomputable def issType3 (src : Fin C) (tap : Fin T) (X : Sig s F N) (Xbar : Taps C F T N)
    (w : Weights s F N) (eps : ℝ) : Fin s → Fin F → ℂ := fun c f =>
  let Xst : Fin F → Fin N → ℂ := fun f n => Xbar src f tap n
  let vNum : ℂ := ∑ n, (w c f n : ℂ) * X c f n * star (Xst f n)
  let vDenom : ℝ := ∑ n, w c f n * magSq (Xst f n)
  divide vNum vDenom eps

/-- torchiva/t_iss.py:170-194: The three tensors carried through the ISS updates. -/
structure IssState (s C F N T : ℕ) where
  Y : Sig s F N
  W : DemixW s F C
  H : DemixH s F C T

/-- torchiva/t_iss.py:171-174: one source separation step. -/
noncomputable def issSrcStep (w : Weights s F N) (eps : ℝ) (st : IssState s C F N T) (src : Fin s) :
    IssState s C F N T :=
  let v := issType1 src st.Y w eps
  { Y := fun c f n => st.Y c f n - v c f * st.Y src f n
    W := fun c f d => st.W c f d - v c f * st.W src f d
    H := fun c f d t => st.H c f d t - v c f * st.H src f d t }

/-- torchiva/t_iss.py:179-184: one background step. -/
noncomputable def issBakStep (w : Weights s F N) (eps : ℝ) (Z : Sig (C - s) F N)
    (J : BackJ (C - s) F s) (st : IssState s C F N T) (bak : Fin (C - s)) : IssState s C F N T :=
  let v := issType2 st.Y (Z bak) w eps
  { Y := fun c f n => st.Y c f n - v c f * Z bak f n
    W := fun c f d =>
      -- W[..., :n_src] is assigned first, then W[..., n_src + bak]
      let W1 : Fin C → ℂ := fun d => if h : d.1 < s then st.W c f d - v c f * J bak f ⟨d, h⟩ else st.W c f d
      if d.1 = s + bak then W1 d + v c f else W1 d
    H := st.H }

/-- torchiva/t_iss.py:189-192: one dereverberation step. -/
noncomputable def issTapStep (w : Weights s F N) (eps : ℝ) (Xbar : Taps C F T N)
    (st : IssState s C F N T) (src : Fin C) (tap : Fin T) : IssState s C F N T :=
  let v := issType3 src tap st.Y Xbar w eps
  { Y := fun c f n => st.Y c f n - v c f * Xbar src f tap n
    W := st.W
    H := fun c f d t => if d = src ∧ t = tap then st.H c f d t + v c f else st.H c f d t }

/-- torchiva/t_iss.py:125-194 `iss_updates_with_H`.  `Z` and `J` are both `None` in the determined
case (then `n_chan = n_src`) and both present otherwise (`n_chan = n_src + Z.shape[-3]`), so the loop
over `range(n_chan)` runs over all `C` channels in both cases. -/
noncomputable def issUpdates (Xbar : Taps C F T N) (w : Weights s F N) (eps : ℝ)
    (ZJ : Option (Sig (C - s) F N × BackJ (C - s) F s)) (st : IssState s C F N T) :
    IssState s C F N T :=
  let st1 := (List.finRange s).foldl (issSrcStep w eps) st
  let st2 := match ZJ with
    | some (Z, J) => (List.finRange (C - s)).foldl (issBakStep w eps Z J) st1
    | none => st1
  (List.finRange C).foldl (fun st src => (List.finRange T).foldl
    (fun st tap => issTapStep w eps Xbar st src tap) st) st2

/-- torchiva/t_iss.py:469: `C_XX` (`c, f, d`). -/
noncomputable def covXX (X : Sig C F N) : Fin C → Fin F → Fin C → ℂ := fun c f d =>
  (∑ n, X c f n * star (X d f n)) / N

/-- torchiva/t_iss.py:470-472: `C_XbarX` (`c, t, f, d`). -/
noncomputable def covXbarX (X : Sig C F N) (Xbar : Taps C F T N) :
    Fin C → Fin T → Fin F → Fin C → ℂ := fun c t f d =>
  (∑ n, Xbar c f t n * star (X d f n)) / N

/-- torchiva/t_iss.py:203-205: the matrix `A` of `background_update` at frequency `f`. -/
noncomputable def bgA (W : DemixW s F C) (H : DemixH s F C T) (cXX : Fin C → Fin F → Fin C → ℂ)
    (cXbarX : Fin C → Fin T → Fin F → Fin C → ℂ) (f : Fin F) : Matrix (Fin s) (Fin C) ℂ :=
  Matrix.of fun k d => (∑ c, W k f c * cXX c f d) + ∑ c, ∑ t, H k f c t * cXbarX c t f d

/-- torchiva/t_iss.py:197-227 `background_update`.  Lines 210-224 are the body of
`solve_loaded_general` with `load = eps`, so that function is reused. -/
noncomputable def backgroundUpdate (hs : s ≤ C) (W : DemixW s F C) (H : DemixH s F C T)
    (cXX : Fin C → Fin F → Fin C → ℂ) (cXbarX : Fin C → Fin T → Fin F → Fin C → ℂ) (eps : ℝ) :
    Except Err (BackJ (C - s) F s) := do
  let JH ← seqAll fun f =>
    let A := bgA W H cXX cXbarX f
    let mat : Matrix (Fin s) (Fin s) ℂ := Matrix.of fun k d => A k (Fin.castLE hs d)
    let rhs : Matrix (Fin s) (Fin (C - s)) ℂ := Matrix.of fun k d => A k ⟨s + d, by omega⟩
    solveLoadedGeneral mat rhs eps eps
  return fun c f k => star (JH f k c)

/-- torchiva/t_iss.py:494-524: State of the main loop: the signals, demixing filters, background filter (present iff
over-determined) and the state of the source model. -/
structure TissState (σ : Type) (s C F N T : ℕ) where
  Y : Sig s F N
  W : DemixW s F C
  H : DemixH s F C T
  J : Option (BackJ (C - s) F s)
  ms : σ

/-- torchiva/t_iss.py:239: per-source power, clamped. -/
noncomputable def sourceGain (Y : Sig s F N) (eps : ℝ) (k : Fin s) : ℝ :=
  clampMin ((∑ f, ∑ n, magSq (Y k f n)) / (F * N)) eps

/-- torchiva/t_iss.py:230-256 `over_iss_t_one_iter`. -/
noncomputable def tissOneIter {σ : Type} (hs : s ≤ C) (X : Sig C F N) (Xbar : Taps C F T N)
    (cXX : Fin C → Fin F → Fin C → ℂ) (cXbarX : Fin C → Fin T → Fin F → Fin C → ℂ)
    (model : SourceModel σ F N) (eps : ℝ) (st : TissState σ s C F N T) :
    Except Err (TissState σ s C F N T) := do
  let (weights, ms) := model s st.ms st.Y
  let g := sourceGain st.Y eps
  let gSqrt : Fin s → ℝ := fun k => √(g k)
  let Y : Sig s F N := fun k f n => divide (st.Y k f n) (gSqrt k) eps
  let W : DemixW s F C := fun k f c => divide (st.W k f c) (gSqrt k) eps
  let H : DemixH s F C T := fun k f c t => divide (st.H k f c t) (gSqrt k) eps
  let weights : Weights s F N := fun k f n => weights k f n * g k
  match st.J with
  | some _ => do
    let J ← backgroundUpdate hs W H cXX cXbarX 1e-3
    let Z := demixBackground hs X J
    let r := issUpdates Xbar weights eps (some (Z, J)) ⟨Y, W, H⟩
    return ⟨r.Y, r.W, r.H, some J, ms⟩
  | none =>
    let r := issUpdates Xbar weights eps none ⟨Y, W, H⟩
    return ⟨r.Y, r.W, r.H, none, ms⟩

/-- torchiva/t_iss.py:259-269 `over_iss_t_one_iter_dmc` wrapped in `torch_checkpoint` (lines 498-511;
only the forward pass of the checkpoint is modelled): the signals are recomputed from the demixing
filters and the new signals are dropped, so `Y` keeps its old value. -/
noncomputable def tissOneIterDmc {σ : Type} (hs : s ≤ C) (X : Sig C F N) (Xbar : Taps C F T N)
    (cXX : Fin C → Fin F → Fin C → ℂ) (cXbarX : Fin C → Fin T → Fin F → Fin C → ℂ)
    (model : SourceModel σ F N) (eps : ℝ) (st : TissState σ s C F N T) :
    Except Err (TissState σ s C F N T) := do
  let Y := demixDerev X Xbar st.W st.H
  let r ← tissOneIter hs X Xbar cXX cXbarX model eps ⟨Y, st.W, st.H, st.J, st.ms⟩
  return ⟨st.Y, r.W, r.H, r.J, r.ms⟩

/-- torchiva/t_iss.py:494: `for epoch in range(n)`. -/
def iterM {α : Type} (f : α → Except Err α) : ℕ → α → Except Err α
  | 0, x => .ok x
  | n + 1, x => f x >>= iterM f n

/-- torchiva/t_iss.py:272-302 `projection_back_weights` without batch dimensions (for the batched
over-determined case see the shape model).  `ref_mic` is a nonnegative index; out-of-range indexing
raises `IndexError`.  The `eps` argument is unused by the code; `solve_loaded_general` runs with its
defaults. -/
noncomputable def projectionBackWeights (hs : s ≤ C) (W : DemixW s F C)
    (J : Option (BackJ (C - s) F s)) (refMic : ℕ) : Except Err (Fin s → Fin F → ℂ) := do
  if s < C then
    match J with
    | none => .error .assertionError
    | some J => do
      let B : Fin s → Fin F → Fin s → ℂ := fun k f d =>
        (∑ c : Fin (C - s), W k f ⟨s + c, by omega⟩ * J c f d) + W k f (Fin.castLE hs d)
      let rhs : Fin F → Matrix (Fin s) (Fin 1) ℂ ←
        (if _h : refMic < s then
            .ok fun _ => Matrix.of fun k _ => if k.1 = refMic then 1 else 0
          else if h2 : refMic - s < C - s then
            .ok fun f => Matrix.of fun k _ => J ⟨refMic - s, h2⟩ f k
          else .error .indexError : Except Err (Fin F → Matrix (Fin s) (Fin 1) ℂ))
      let a ← seqAll fun f => solveLoadedGeneral (Matrix.of fun c k => B k f c) (rhs f) 1e-5 1e-5
      return fun k f => a f k 0
  else
    if refMic < s then
      let a ← seqAll fun f => solveLoadedGeneral
        (Matrix.of fun (c : Fin s) k => W k f (Fin.castLE hs c))
        (Matrix.of fun (k : Fin s) (_ : Fin 1) => if k.1 = refMic then 1 else 0) 1e-5 1e-5
      return fun k f => a f k 0
    else .error .indexError

/-- torchiva/t_iss.py:440-448: Resolved parameters of one `T_ISS.forward` call. -/
structure TissParams where
  nIter : ℕ
  nTaps : ℕ
  nDelay : ℕ
  projBackMic : Option ℕ
  useDmc : Bool
  eps : ℝ

/-- torchiva/t_iss.py:536-539: What a `T_ISS.forward` call produces: the returned signal, the attributes `W` and `J` of the
object, and the new state of the source model. -/
structure TissOut (σ : Type) (s C F N : ℕ) where
  Y : Sig s F N
  W : DemixW s F C
  J : Option (BackJ (C - s) F s)
  ms : σ

/-- torchiva/t_iss.py:464-466 on all rows. -/
def delayedTaps (X : Sig C F N) (T D : ℕ) : Taps C F T N := fun c f => xbarRow (X c f) T D

/-- torchiva/t_iss.py:476-492: initial state of the main loop. -/
noncomputable def tissInit {σ : Type} (hs : s ≤ C) (X : Sig C F N) (T D : ℕ) (eps : ℝ) (ms : σ) :
    Except Err (TissState σ s C F N T) := do
  let Xbar := delayedTaps X T D
  let W : DemixW s F C := fun k _ c => if k.1 = c.1 then 1 else 0
  let H : DemixH s F C T := fun _ _ _ _ => 0
  if s < C then
    let J ← backgroundUpdate hs W H (covXX X) (covXbarX X Xbar) eps
    return ⟨demixDerev X Xbar W H, W, H, some J, ms⟩
  else
    return ⟨demixDerev X Xbar W H, W, H, none, ms⟩

/-- torchiva/t_iss.py:494-524: the main loop. -/
noncomputable def tissLoop {σ : Type} (hs : s ≤ C) (X : Sig C F N) (T D : ℕ)
    (model : SourceModel σ F N) (eps : ℝ) (useDmc : Bool) (nIter : ℕ)
    (st : TissState σ s C F N T) : Except Err (TissState σ s C F N T) :=
  let Xbar := delayedTaps X T D
  iterM (if useDmc then tissOneIterDmc hs X Xbar (covXX X) (covXbarX X Xbar) model eps
    else tissOneIter hs X Xbar (covXX X) (covXbarX X Xbar) model eps) nIter st

/-- torchiva/t_iss.py:461-539: `T_ISS.forward` after parameter resolution and reset of the source
model (`ms` is the state after the reset). -/
noncomputable def tissCore {σ : Type} (hs : s ≤ C) (p : TissParams) (X : Sig C F N)
    (model : SourceModel σ F N) (ms : σ) : Except Err (TissOut σ s C F N) := do
  let st0 ← tissInit hs X p.nTaps p.nDelay p.eps ms
  let st ← tissLoop hs X p.nTaps p.nDelay model p.eps p.useDmc p.nIter st0
  let Y := if p.useDmc then demixDerev X (delayedTaps X p.nTaps p.nDelay) st.W st.H else st.Y
  match p.projBackMic with
  | some m =>
    if 0 < p.nIter then
      let a ← projectionBackWeights hs st.W st.J m
      return ⟨fun k f n => a k f * Y k f n, st.W, st.J, st.ms⟩
    else return ⟨Y, st.W, st.J, st.ms⟩
  | none => return ⟨Y, st.W, st.J, st.ms⟩

end dims

/-- torchiva/t_iss.py:414-539 `T_ISS.forward` (parameters already resolved, see `Model/Objects.lean` for
`_set_params`): the number of sources is defaulted and checked, the model is reset (`reset` is the
identity for models without a `reset` method), then the core runs. -/
noncomputable def tissForward {σ : Type} {C F N : ℕ} (p : TissParams) (nSrc : Option ℕ)
    (X : Sig C F N) (model : SourceModel σ F N) (reset : σ → σ) (ms : σ) :
    Except Err (Σ s : ℕ, TissOut σ s C F N) :=
  let s := nSrc.getD C
  if hs : s ≤ C then (tissCore hs p X model (reset ms)).map fun o => ⟨s, o⟩
  else .error .valueError

end Torchiva
