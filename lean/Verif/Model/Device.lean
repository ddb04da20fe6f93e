import Verif.Model.Utils

/-!
# Devices of the tensors the algorithms compute

A tensor is represented by the device its storage is on.  Torch's rules (trusted, outside the repository): operations on
several tensors need all of them on one device and raise `RuntimeError` otherwise; operations on one tensor, `new_zeros`
and `new_ones` keep its device; `a.type_as(b)` and `a.to(b.device)` give the device of `b`; `b[...] = a` copies across
devices; tensors allocated without a device are on the default device, which is a parameter `dflt`.  The exception Torch
makes for tensors without dimensions is not modelled: no operation of the algorithms depends on it.
Operations on one tensor (`abs`, `clamp`, `sqrt`, `sum`, `conj`, `transpose`, indexing with Python numbers) are not written.
-/

namespace Torchiva.DV

/-- torchiva/separate.py:68-72: a device: the processor or one of the GPUs. -/
inductive Dev
  | cpu
  | cuda (i : ℕ)
  deriving DecidableEq, Repr

/-- For instance torchiva/linalg.py:38, t_iss.py:42: an operation on two tensors. -/
def join (a b : Dev) : Except Err Dev := if a = b then .ok a else .error .runtimeError

/-- For instance torchiva/t_iss.py:69: an operation on three tensors. -/
def join3 (a b c : Dev) : Except Err Dev := do
  let d ← join a b
  join d c

/-- torchiva/linalg.py:83: `torch.eye(n)` without a device; `dflt` is Torch's default device. -/
def alloc (dflt : Dev) : Dev := dflt

/-- For instance torchiva/linalg.py:83: `src.type_as(other)`; torchiva/linalg.py:200, 267: `device=other.device`, `.to(dev)`. -/
def onto (_src other : Dev) : Dev := other

/-- For instance torchiva/t_iss.py:477: `x.new_zeros(shape)`. -/
def newLike (x : Dev) : Dev := x

/-- For instance torchiva/auxiva_ip.py:231: `dst[...] = src` copies the values to the device of `dst`. -/
def assign (dst _src : Dev) : Dev := dst

/-- For instance torchiva/linalg.py:264: `x.cpu()`. -/
def toCpu (_x : Dev) : Dev := .cpu

/-- For instance torchiva/t_iss.py:155: a loop of `n` rounds over a state. -/
def loop {α : Type} (f : α → Except Err α) : ℕ → α → Except Err α
  | 0, s => .ok s
  | n + 1, s => do
    let s ← f s
    loop f n s

/-! ## linalg.py -/

/-- torchiva/linalg.py:31-32 `divide`. -/
def divide (num denom : Dev) : Except Err Dev := join num denom

/-- torchiva/linalg.py:35-51 `multiply`: every branch multiplies the two tensors. -/
def multiply (a b : Dev) : Except Err Dev := join a b

/-- torchiva/linalg.py:65-72 `bmm`. -/
def bmm (a b : Dev) : Except Err Dev := do
  let re ← join a b
  let im ← join a b
  join re im

/-- torchiva/linalg.py:82-88 `solve_loaded`. -/
def solveLoaded (dflt : Dev) (A b : Dev) : Except Err Dev := do
  let eye := onto (alloc dflt) A
  let load ← join A eye
  let M ← join A load
  join M b

/-- torchiva/linalg.py:91-107 `solve_loaded_general`. -/
def solveLoadedGeneral (dflt : Dev) (A b : Dev) : Except Err Dev := do
  let weights := A
  let loadEye := onto (alloc dflt) A
  let A2 ← join A weights
  let b ← join b weights
  let A ← join A2 A2
  let b ← join A2 b
  let M ← join A loadEye
  join M b

/-- torchiva/linalg.py:110-116 `inv_loaded`. -/
def invLoaded (dflt : Dev) (A : Dev) : Except Err Dev := do
  let eye := onto (alloc dflt) A
  let load ← join A eye
  join A load

/-- torchiva/linalg.py:119-140 `inv_2x2`. -/
def inv2x2 (W : Dev) : Except Err Dev := do
  let det ← join W W
  let det ← join (newLike det) det
  let adjoint ← join W W
  join adjoint det

/-- torchiva/linalg.py:152-218, 250-253 `eigh_2x2` with a matrix `B`. -/
def eigh2x2Gen (dflt : Dev) (A B : Dev) : Except Err (Dev × Dev) := do
  let b ← join A B
  let c ← join A B
  let delta ← join b c
  let ev := onto (alloc dflt) A
  let s ← join b delta
  let ev := assign ev s
  let ev ← join ev B
  let vec := newLike A
  let m ← multiply ev B
  let m ← join m A
  let vec := assign vec m
  let m ← join3 A ev B
  let vec := assign vec m
  let vec ← divide vec vec
  return (ev, vec)

/-- torchiva/linalg.py:220-253 `eigh_2x2` without `B`. -/
def eigh2x2Plain (A : Dev) : Except Err (Dev × Dev) := do
  let delta := A
  let ev := newLike delta
  let s ← join A delta
  let ev := assign ev s
  let vec := newLike A
  let vec := assign vec A
  let s ← join ev A
  let vec := assign vec s
  let vec ← divide vec vec
  return (ev, vec)

/-- torchiva/linalg.py:256-269 `eigh_wrapper`. -/
def eighWrapper (useCpu : Bool) (V : Dev) : Dev × Dev :=
  if useCpu then
    let dev := V
    let V := toCpu V
    (onto V dev, onto V dev)
  else (V, V)

/-- torchiva/linalg.py:272-312 `eigh`: `two` says that the matrices are 2x2. -/
def eigh (dflt : Dev) (two useCpu : Bool) (A : Dev) (B : Option Dev) : Except Err (Dev × Dev) :=
  match B with
  | some B =>
    if two then eigh2x2Gen dflt A B
    else do
      let e := eighWrapper useCpu B
      let r ← join e.1 e.2
      let bsi ← join e.2 r
      let l ← join3 bsi A bsi
      let f := eighWrapper useCpu l
      let vec ← join bsi f.2
      let vec ← join vec vec
      return (f.1, vec)
  | none => if two then eigh2x2Plain A else .ok (eighWrapper useCpu A)

/-! ## Source models -/

/-- torchiva/base.py:38-68: a source model: the devices of its state, which `reset` clears, and of the weights it returns. -/
structure SrcModel where
  σ : Type
  reset : σ
  step : σ → Dev → Except Err (Dev × σ)

/-- torchiva/models/classic.py:33-43 `LaplaceModel.forward`, 54-64 `GaussModel.forward`: the parameter `fake` is not used. -/
def classic : SrcModel where
  σ := Unit
  reset := ()
  step _ X := do
    let p ← join X X
    return (p, ())

/-- torchiva/models/glu.py, blstm.py: a network with its parameters on device `p`. -/
def network (p : Dev) : SrcModel where
  σ := Unit
  reset := ()
  step _ X := do
    let y ← join p X
    return (y, ())

/-- torchiva/models/classic.py:107-110 `NMFModel._recompute_estimate`. -/
def nmfEstimate (T V : Dev) : Except Err Dev := join T V

/-- torchiva/models/classic.py:90-105 `NMFModel._init_state`. -/
def nmfInit (s : Option (Dev × Dev × Dev)) (P : Dev) : Except Err (Dev × Dev × Dev) :=
  match s with
  | some s => .ok s
  | none => do
    let T := newLike P
    let V := newLike P
    let iR ← nmfEstimate T V
    return (T, V, iR)

/-- torchiva/models/classic.py:75-88 `NMFModel.reset`, 112-155 `NMFModel.forward`.  The factors are plain attributes, neither
parameters nor buffers. -/
def nmf : SrcModel where
  σ := Option (Dev × Dev × Dev)
  reset := none
  step s P := do
    let s ← nmfInit s P
    let T := s.1
    let V := s.2.1
    let iR := s.2.2
    let num ← join3 P iR V
    let den ← join iR V
    let T ← join3 T num den
    let iR ← nmfEstimate T V
    let num ← join3 P iR T
    let den ← join iR T
    let V ← join3 V num den
    let iR ← nmfEstimate T V
    return (iR, some (T, V, iR))

/-! ## t_iss.py -/

/-- torchiva/t_iss.py:39-42 `demix_derev`. -/
def demixDerev (X Xbar W H : Dev) : Except Err Dev := do
  let reverb ← join H Xbar
  let sep ← join W X
  join sep reverb

/-- torchiva/t_iss.py:45-53 `demix_background`. -/
def demixBackground (X : Dev) (J : Option Dev) : Except Err (Option Dev) :=
  match J with
  | some J => do
    let m ← join J X
    let m ← join m X
    return some m
  | none => .ok none

/-- torchiva/t_iss.py:56-78 `iss_block_update_type_1`. -/
def issUpdate1 (X w : Dev) : Except Err Dev := do
  let num ← join3 w X X
  let den ← join w X
  let v ← divide num den
  return assign v den

/-- torchiva/t_iss.py:81-98 `iss_block_update_type_2` and 101-122 `iss_block_update_type_3`. -/
def issUpdate23 (X Z w : Dev) : Except Err Dev := do
  let num ← join3 w X Z
  let den ← join w Z
  divide num den

/-- torchiva/t_iss.py:125-194 `iss_updates_with_H` on `(X, W, H)`. -/
def issUpdates (nSrc nBak nTaps : ℕ) (X Xbar W H w : Dev) (J Z : Option Dev) : Except Err (Dev × Dev × Dev) := do
  let s ← loop (fun s : Dev × Dev × Dev => do
    let v ← issUpdate1 s.1 w
    let X ← join3 s.1 v s.1
    let W ← join3 s.2.1 v s.2.1
    let H ← join3 s.2.2 v s.2.2
    return (X, W, H)) nSrc (X, W, H)
  let s ← (match Z, J with
    | some Z, some J => loop (fun s : Dev × Dev × Dev => do
        let v ← issUpdate23 s.1 Z w
        let X ← join3 s.1 v Z
        let d ← join3 s.2.1 v J
        let W := assign s.2.1 d
        let d ← join W v
        return (X, assign W d, s.2.2)) nBak s
    | _, _ => .ok s)
  loop (fun s => loop (fun s : Dev × Dev × Dev => do
    let v ← issUpdate23 s.1 Xbar w
    let X ← join3 s.1 v Xbar
    let HV ← join s.2.2 v
    return (X, s.2.1, assign s.2.2 HV)) nTaps s) (nSrc + nBak) s

/-- torchiva/t_iss.py:197-227 `background_update`. -/
def backgroundUpdate (dflt : Dev) (W H Cxx Cxbarx : Dev) : Except Err Dev := do
  let A1 ← join W Cxx
  let A2 ← join H Cxbarx
  let A ← join A1 A2
  let weights := A
  let load := onto (alloc dflt) A
  let mat2 ← join A weights
  let rhs ← join A weights
  let mat ← join mat2 mat2
  let rhs ← join mat2 rhs
  let M ← join mat load
  join M rhs

/-- torchiva/t_iss.py:230-256 `over_iss_t_one_iter` on `(Y, W, H, J)` and the state of the model; `cov` are the covariances of
lines 469-475. -/
def tissIter (dflt : Dev) (M : SrcModel) (nSrc nBak nTaps : ℕ) (X Xbar : Dev) (cov : Option (Dev × Dev))
    (s : (Dev × Dev × Dev × Option Dev) × M.σ) : Except Err ((Dev × Dev × Dev × Option Dev) × M.σ) := do
  let Y := s.1.1
  let r ← M.step s.2 Y
  let g := Y
  let Y ← divide Y g
  let W ← divide s.1.2.1 g
  let H ← divide s.1.2.2.1 g
  let w ← join r.1 g
  let J ← (match s.1.2.2.2, cov with
    | some _, some c => do
      let J ← backgroundUpdate dflt W H c.1 c.2
      pure (some J)
    | J, _ => pure J)
  let Z ← demixBackground X J
  let u ← issUpdates nSrc nBak nTaps Y Xbar W H w J Z
  return ((u.1, u.2.1, u.2.2, J), r.2)

/-- torchiva/t_iss.py:272-302 `projection_back_weights`: `low` says `ref_mic < n_src`. -/
def projBackWeights (dflt : Dev) (W : Dev) (J : Option Dev) (low : Bool) : Except Err Dev := do
  let eye := onto (alloc dflt) W
  match J with
  | some J => do
    let B ← join W J
    let B ← join B W
    solveLoadedGeneral dflt B (if low then eye else J)
  | none => solveLoadedGeneral dflt W eye

/-- torchiva/t_iss.py:414-539 `T_ISS.forward`: `nBak = n_chan - n_src`; `projBack = some low` when projection back is asked for. -/
def tissForward (dflt : Dev) (M : SrcModel) (nIter nSrc nBak nTaps : ℕ) (useDmc : Bool) (projBack : Option Bool) (X : Dev) :
    Except Err Dev := do
  let Xbar := X
  let cov ← (if 0 < nBak then do
      let c1 ← join X X
      let c2 ← join Xbar X
      pure (some (c1, c2))
    else pure none)
  let W := newLike X
  let W := assign W (onto (alloc dflt) W)
  let H := newLike X
  let J ← (match cov with
    | some c => do
      let J ← backgroundUpdate dflt W H c.1 c.2
      pure (some J)
    | none => pure none)
  let Y ← demixDerev X Xbar W H
  let s ← loop (fun s : (Dev × Dev × Dev × Option Dev) × M.σ => do
    let Y ← (if useDmc then demixDerev X Xbar s.1.2.1 s.1.2.2.1 else pure s.1.1)
    tissIter dflt M nSrc nBak nTaps X Xbar cov ((Y, s.1.2), s.2)) nIter ((Y, W, H, J), M.reset)
  let Y ← (if useDmc then demixDerev X Xbar s.1.2.1 s.1.2.2.1 else pure s.1.1)
  match projBack with
  | some low =>
    if 0 < nIter then (do
      let a ← projBackWeights dflt s.1.2.1 s.1.2.2.2 low
      join a Y)
    else pure Y
  | none => pure Y

/-! ## auxiva_ip.py -/

/-- torchiva/auxiva_ip.py:38-53 `orthogonal_constraint`: `over` says `n_src < n_chan`. -/
def orthogonalConstraint (dflt : Dev) (over : Bool) (W Cx : Dev) : Except Err (Option Dev) :=
  if over then do
    let A ← join W Cx
    let J ← solveLoadedGeneral dflt A A
    return some J
  else .ok none

/-- torchiva/auxiva_ip.py:56-105 `projection_back_from_demixing_matrix` (first component). -/
def projBackIp (dflt : Dev) (Y W : Dev) (J : Option Dev) (low : Bool) : Except Err Dev :=
  match J with
  | none => do
    let a ← solveLoadedGeneral dflt W (onto (alloc dflt) W)
    join Y a
  | some J => do
    let e1 := if low then onto (alloc dflt) W else J
    let BC ← join W J
    let WW ← join W BC
    let a ← solveLoadedGeneral dflt WW e1
    join Y a

/-- torchiva/auxiva_ip.py:262-293: the update of one source; `evec` is the identity of line 245. -/
def ipSource (dflt : Dev) (over : Bool) (X Cx w evec : Dev) (s : Dev × Option Dev) : Except Err (Dev × Option Dev) := do
  let W := s.1
  let J ← orthogonalConstraint dflt over W Cx
  let V ← join3 X w X
  let WV ← (match J with
    | none => join W V
    | some J => do
      let a ← join W V
      let b ← join3 J V V
      join a b)
  let n ← solveLoadedGeneral dflt WV evec
  let sc ← join3 n n V
  let n ← join n sc
  let W ← join3 W n W
  return (W, J)

/-- torchiva/auxiva_ip.py:202-306 `AuxIVA_IP.forward` without `verbose`. -/
def ipForward (dflt : Dev) (M : SrcModel) (nIter nSrc : ℕ) (over : Bool) (projBack : Option Bool) (X : Dev) :
    Except Err Dev := do
  let W := assign (newLike X) (alloc dflt)
  let Y := X
  let Cx ← join X X
  let J ← orthogonalConstraint dflt over W Cx
  let evec := onto (alloc dflt) W
  let s ← loop (fun s : (Dev × Dev × Option Dev) × M.σ => do
    let Y := s.1.1
    let r ← M.step s.2 Y
    let g := Y
    let W ← join s.1.2.1 g
    let w ← join r.1 g
    let t ← loop (ipSource dflt over X Cx w evec) nSrc (W, s.1.2.2)
    let Y ← join t.1 X
    return ((Y, t.1, t.2), r.2)) nIter ((Y, W, J), M.reset)
  match projBack with
  | some low => projBackIp dflt s.1.1 s.1.2.1 s.1.2.2 low
  | none => return s.1.1

/-! ## auxiva_ip2.py -/

/-- torchiva/auxiva_ip2.py:29-91 `spatial_model_update_ip2`. -/
def ip2Update (dflt : Dev) (Xo w : Dev) (WA : Option (Dev × Dev)) : Except Err (Dev × Option (Dev × Dev)) := do
  let V0 ← join3 w Xo Xo
  let V1 ← join3 w Xo Xo
  let e ← eigh2x2Gen dflt V1 V0
  let s0 ← join3 e.2 V0 e.2
  let s1 ← join3 e.2 V1 e.2
  let sc ← join s0 s1
  let vec ← join e.2 sc
  let WA ← (match WA with
    | some _ => do
      let A ← inv2x2 vec
      pure (some (vec, A))
    | none => pure none)
  let X ← join vec Xo
  return (X, WA)

/-- torchiva/auxiva_ip2.py:154-213 `AuxIVA_IP2.forward`. -/
def ip2Forward (dflt : Dev) (M : SrcModel) (nIter : ℕ) (projBack : Bool) (X : Dev) : Except Err Dev := do
  let WA : Option (Dev × Dev) :=
    if projBack then
      let W := assign (newLike X) (onto (alloc dflt) (newLike X))
      some (W, W)
    else none
  let s ← loop (fun s : (Dev × Option (Dev × Dev)) × M.σ => do
    let r ← M.step s.2 s.1.1
    let g := s.1.1
    let _ ← divide s.1.1 g
    let w ← join r.1 g
    let u ← ip2Update dflt X w s.1.2
    return (u, r.2)) nIter ((X, WA), M.reset)
  match s.1.2 with
  | some WA => if 0 < nIter then join WA.2 s.1.1 else return s.1.1
  | none => return s.1.1

/-! ## wpe.py -/

/-- torchiva/wpe.py:28-29 `derev`. -/
def derev (H X Xbar : Dev) : Except Err Dev := join3 X H Xbar

/-- torchiva/wpe.py:38-84 `wpe_one_iter` given the weights. -/
def wpeIter (dflt : Dev) (X Xbar w : Dev) : Except Err Dev := do
  let acm ← join3 w Xbar Xbar
  let xcv ← join3 w Xbar X
  solveLoaded dflt acm xcv

/-- torchiva/wpe.py:136-168 `WPE.forward`: `useModel = false` for the default weights (32-35); the model is not reset, so its
state before the call matters and its state after the call is returned. -/
def wpeForward (dflt : Dev) (M : SrcModel) (useModel : Bool) (nIter : ℕ) (s : M.σ) (X : Dev) : Except Err (Dev × M.σ) :=
  loop (fun t : Dev × M.σ => do
    let r ← (if useModel then M.step t.2 t.1 else pure (t.1, t.2))
    let H ← wpeIter dflt X X r.1
    let Y ← derev H X X
    return (Y, r.2)) nIter (X, s)

/-! ## five.py -/

/-- torchiva/five.py:36-50 `smallest_eigenvector_eigh_cpu`. -/
def smallestEigh (V : Dev) : Dev × Dev :=
  let dev := V
  let V := toCpu V
  (onto V dev, onto V dev)

/-- torchiva/five.py:53-73 `smallest_eigenvector_power_method` with `n = n_iter - 1 ≥ 1` rounds (vector only). -/
def smallestPower (dflt : Dev) (n : ℕ) (V : Dev) : Except Err Dev := do
  let Vi ← invLoaded dflt V
  let x ← join Vi Vi
  let x ← loop (fun x => do
    let x ← join Vi x
    join x x) n x
  join x x

/-- torchiva/five.py:146-248 `FIVE.forward`: `two` says that there are two channels; `power = some n` for `n + 1` power iterations. -/
def fiveForward (dflt : Dev) (M : SrcModel) (nIter : ℕ) (two : Bool) (power : Option ℕ) (projBack : Bool) (X : Dev) :
    Except Err Dev := do
  let Cx ← join X X
  let e ← eigh dflt two false Cx none
  let Q ← join e.1 e.2
  let Qinv ← join e.2 e.1
  let Xw ← join Q X
  let Y ← (if projBack then join3 Q Cx Xw else pure Xw)
  let s ← loop (fun s : Dev × M.σ => do
    let r ← M.step s.2 s.1
    let V ← join3 r.1 Xw Xw
    let v ← (match power with
      | none => pure (smallestEigh V).2
      | some n => smallestPower dflt n V)
    let z ← join Qinv v
    let w ← join v z
    let Y ← join w Xw
    return (Y, r.2)) nIter (Y, M.reset)
  join (newLike s.1) s.1

/-! ## beamformer.py -/

/-- torchiva/beamformer.py:27-63 `compute_mwf_bf`. -/
def mwfBf (dflt : Dev) (Rt Rn : Dev) : Except Err Dev := do
  let R ← join Rt Rn
  solveLoaded dflt R Rt

/-- torchiva/beamformer.py:66-109 `compute_mvdr_rtf_eigh`: `power = some n` for `n + 1` power iterations. -/
def mvdrRtf (dflt : Dev) (two : Bool) (power : Option ℕ) (Rt Rn : Dev) : Except Err Dev := do
  let v ← (match power with
    | none => do
      let e ← eigh dflt two false Rt (some Rn)
      pure e.2
    | some n => do
      let Phi ← solveLoaded dflt Rn Rt
      loop (fun v => join Phi v) n Phi)
  let s ← join Rn v
  join s s

/-- torchiva/beamformer.py:112-122 `compute_mvdr_bf`. -/
def mvdrBf (dflt : Dev) (Rn s : Dev) : Except Err Dev := do
  let a ← solveLoaded dflt Rn s
  let d ← join s a
  join a d

/-- torchiva/beamformer.py:125-136 `compute_mvdr_bf2`. -/
def mvdrBf2 (Rt Rn : Dev) : Except Err Dev := do
  let num ← join Rn Rt
  join num num

/-- torchiva/beamformer.py:139-158 `compute_gev_bf`. -/
def gevBf (dflt : Dev) (two : Bool) (Rt Rn : Dev) : Except Err Dev := do
  let e ← eigh dflt two false Rt (some Rn)
  let rhs := onto (alloc dflt) e.2
  let s ← join e.2 rhs
  join e.2 s

/-- torchiva/beamformer.py:262, 287, 390, 489: covariance of the signal with a mask. -/
def maskCov (mask X : Dev) : Except Err Dev := join3 mask X X

/-- torchiva/beamformer.py:235-306 `MVDRBeamformer.forward`: `three` masks or two; `scm` selects `mvdr_type="scm"`. -/
def mvdrForward (dflt : Dev) (mask : Dev → Except Err Dev) (three scm two : Bool) (power : Option ℕ) (X : Dev) :
    Except Err Dev := do
  let m ← mask X
  let Rt ← maskCov m X
  let Rn ← maskCov m X
  let bf ← (if three || !scm then do
      let rtf ← mvdrRtf dflt two power Rt Rn
      mvdrBf dflt Rn rtf
    else mvdrBf2 Rt Rn)
  join X bf

/-- torchiva/beamformer.py:367-418 `MWFBeamformer.forward`. -/
def mwfForward (dflt : Dev) (mask : Dev → Except Err Dev) (timeInvariant : Bool) (X : Dev) : Except Err Dev := do
  let m ← mask X
  let Rt ← maskCov m X
  let Rn ← maskCov m X
  if timeInvariant then do
    let bf ← mwfBf dflt Rt Rn
    join X bf
  else do
    let Rt ← join Rt m
    let Rn ← join Rn m
    let bf ← mwfBf dflt Rt Rn
    join X bf

/-- torchiva/beamformer.py:468-500 `GEVBeamformer.forward`. -/
def gevForward (dflt : Dev) (mask : Dev → Except Err Dev) (two : Bool) (X : Dev) : Except Err Dev := do
  let m ← mask X
  let Rt ← maskCov m X
  let Rn ← maskCov m X
  let bf ← gevBf dflt two Rt Rn
  bmm bf X

/-! ## scaling.py -/

/-- torchiva/scaling.py:42-78 `projection_back`. -/
def projectionBack (dflt : Dev) (Y ref : Dev) : Except Err Dev := do
  let index := Y
  let A ← join Y index
  let b ← join ref index
  let dload := onto (alloc dflt) A
  let M ← join A dload
  let c ← join M b
  join Y c

/-- torchiva/scaling.py:81-101 `minimum_distortion_l2`, 104-123 `minimum_distortion_l2_phase`. -/
def minDistL2 (Y ref : Dev) : Except Err Dev := do
  let num ← join ref Y
  let c ← join num Y
  join Y c

/-- torchiva/scaling.py:126-211 `minimum_distortion` with `p` (and `q`) below 2 and `n` executed rounds. -/
def minDist (n : ℕ) (Y ref : Dev) : Except Err Dev := do
  let c ← loop (fun c => do
    let w ← join3 ref c Y
    let num ← join3 ref Y w
    let den ← join Y w
    join num den) n (newLike Y)
  join Y c

/-! ## stft.py, nn.py and separate.py -/

/-- torchiva/stft.py:85-104 `STFT.forward` and 106-123 `STFT.inv`: the window is a buffer on device `w`. -/
def stft (w x : Dev) : Except Err Dev := join w x

/-- torchiva/nn.py:89-150: the algorithms of `BSSSeparator` with their options. -/
inductive Algo
  | tiss (nIter nSrc nBak nTaps : ℕ) (useDmc : Bool) (projBack : Option Bool)
  | ip (nIter nSrc : ℕ) (over : Bool) (projBack : Option Bool)
  | ip2 (nIter : ℕ) (projBack : Bool)
  | five (nIter : ℕ) (two : Bool) (power : Option ℕ) (projBack : Bool)
  | mvdr (three two : Bool) (power : Option ℕ)
  | mwf
  | gev (two : Bool)

/-- torchiva/nn.py:160: `self.separator(X)`; the beamformers take their masks from the source model. -/
def runAlgo (dflt : Dev) (M : SrcModel) (a : Algo) (X : Dev) : Except Err Dev :=
  let mask := fun X => (M.step M.reset X).map Prod.fst
  match a with
  | .tiss nIter nSrc nBak nTaps useDmc projBack => tissForward dflt M nIter nSrc nBak nTaps useDmc projBack X
  | .ip nIter nSrc over projBack => ipForward dflt M nIter nSrc over projBack X
  | .ip2 nIter projBack => ip2Forward dflt M nIter projBack X
  | .five nIter two power projBack => fiveForward dflt M nIter two power projBack X
  | .mvdr three two power => mvdrForward dflt mask three false two power X
  | .mwf => mwfForward dflt mask true X
  | .gev two => gevForward dflt mask two X

/-- torchiva/nn.py:153-178 `BSSSeparator.forward`: `short` says that the output is shorter than the input. -/
def separate (dflt : Dev) (M : SrcModel) (window : Dev) (a : Algo) (short : Bool) (x : Dev) : Except Err Dev := do
  let X ← stft window x
  let Y ← runAlgo dflt M a X
  let y ← stft window Y
  if short then join y (newLike y) else return y

/-- torchiva/separate.py:41-65, 210-211: the separator, with its window and its source model (`M dev` is the model on `dev`), and
the recording are moved to `dev`; the result is brought back to the processor.  First component: the device of the recording when it is
separated; second: that of the saved tensor. -/
def separateFile (dflt : Dev) (M : Dev → SrcModel) (a : Algo) (short : Bool) (dev loaded : Dev) : Except Err (Dev × Dev) := do
  let mix := onto loaded dev
  let y ← separate dflt (M dev) dev a short mix
  return (mix, toCpu y)

/-- torchiva/separate.py:68-72 `device_type`; `isNum` says which characters are numeric for Python's `str.isnumeric`, which is
false for the empty string. -/
def deviceType (isNum : Char → Bool) (s : List Char) : List Char :=
  if s ≠ [] ∧ ∀ c ∈ s, isNum c = true then "cuda:".toList ++ s else s

end Torchiva.DV
