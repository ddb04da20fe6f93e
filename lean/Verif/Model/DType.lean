import Verif.Model.Utils

/-!
# Dtypes of the tensors the algorithms compute

A tensor is represented by what its dtype says (real or complex, single or double precision) and by one more
bit: whether some of its values went through a number of single precision.  Torch's rules (trusted, outside the
repository): element-wise operations promote; matrix products, contractions in `einsum`, `solve` need equal
dtypes and raise `RuntimeError` otherwise; `einsum` works from the left, multiplying element-wise as long as
nothing is summed; assignment into a tensor keeps the dtype of the tensor written to; `clamp` refuses complex
tensors; tensors allocated without a dtype have the default dtype, which is a parameter.
Only floats and complex floats of 32/64 bits per component are considered.
-/

namespace Torchiva.DT

/-- For instance torchiva/stft.py:43: single (32 bits per component) and double (64 bits) precision. -/
inductive Prec
  | single | double
  deriving DecidableEq, Repr

/-- For instance torchiva/linalg.py:205: Torch promotes to the larger precision. -/
def Prec.max : Prec → Prec → Prec
  | .single, .single => .single
  | _, _ => .double

/-- For instance torchiva/linalg.py:25: what is known of a tensor. `rounded`: some value was held in single precision
(the constants 0 and 1, which single precision holds exactly, do not count). -/
structure TD where
  cpx : Bool
  prec : Prec
  rounded : Bool
  deriving DecidableEq, Repr

/-- torchiva/dtypes.py:39-44: the dtype of the tensor. -/
def TD.dtype : TD → Dtype
  | ⟨false, .single, _⟩ => .float32
  | ⟨false, .double, _⟩ => .float64
  | ⟨true, .single, _⟩ => .complex64
  | ⟨true, .double, _⟩ => .complex128

/-- For instance torchiva/t_iss.py:416: a tensor given by the caller: single precision counts as rounded. -/
def input (cpx : Bool) (p : Prec) : TD := ⟨cpx, p, p == .single⟩

/-- For instance torchiva/linalg.py:38: result of arithmetic of the given dtype on data with the given history. -/
def arith (cpx : Bool) (p : Prec) (r : Bool) : TD := ⟨cpx, p, r || p == .single⟩

/-- For instance torchiva/linalg.py:38, t_iss.py:157: element-wise `a * b`, `a + b`, `a - b`, `a / b` and `einsum`
without a sum. -/
def mul (a b : TD) : TD := arith (a.cpx || b.cpx) (a.prec.max b.prec) (a.rounded || b.rounded)

/-- For instance torchiva/t_iss.py:69: arithmetic with Python numbers, `sqrt`, `reciprocal`, `sum`, `mean`. -/
def scal (a : TD) : TD := arith a.cpx a.prec a.rounded

/-- For instance torchiva/linalg.py:178: `x.real` (works on real tensors). -/
def realPart (a : TD) : TD := { a with cpx := false }

/-- torchiva/linalg.py:181: `x.imag` raises on real tensors. -/
def imagPart (a : TD) : Except Err TD := if a.cpx then .ok { a with cpx := false } else .error .runtimeError

/-- For instance torchiva/linalg.py:85, 96: `abs()` and `torch.linalg.norm`. -/
def absD (a : TD) : TD := arith false a.prec a.rounded

/-- For instance torchiva/linalg.py:32: `torch.clamp` is not defined for complex tensors. -/
def clampD (a : TD) : Except Err TD := if a.cpx then .error .runtimeError else .ok a

/-- For instance torchiva/t_iss.py:42: `@`, `bmm` and `einsum` with a sum: dtypes must agree. -/
def mm (a b : TD) : Except Err TD :=
  if a.cpx = b.cpx ∧ a.prec = b.prec then .ok (arith a.cpx a.prec (a.rounded || b.rounded))
  else .error .runtimeError

/-- torchiva/linalg.py:88, 107: `torch.linalg.solve`: dtypes must agree. -/
def solveD (a b : TD) : Except Err TD := mm a b

/-- torchiva/linalg.py:265, 269: `torch.linalg.eigh`: real eigenvalues and eigenvectors of the dtype of the argument. -/
def eighD (a : TD) : TD × TD := (arith false a.prec a.rounded, scal a)

/-- For instance torchiva/auxiva_ip.py:276, 293: `torch.cat` and `torch.stack` promote. -/
def cat (a b : TD) : TD := ⟨a.cpx || b.cpx, a.prec.max b.prec, a.rounded || b.rounded⟩

/-- For instance torchiva/linalg.py:201: `dst[...] = src` writes values converted to the dtype of `dst`. -/
def assign (dst src : TD) : TD :=
  ⟨dst.cpx, dst.prec, dst.rounded || src.rounded || (dst.prec == .single && src.prec == .double)⟩

/-- For instance torchiva/linalg.py:83: `src.type_as(other)`. -/
def typeAs (src other : TD) : TD :=
  ⟨other.cpx, other.prec, src.rounded || (other.prec == .single && src.prec == .double)⟩

/-- torchiva/linalg.py:83, 200: `torch.eye(n)` and `torch.zeros(shape)` without a dtype; `dflt` is torch's default precision. -/
def alloc (dflt : Prec) : TD := ⟨false, dflt, false⟩

/-- For instance torchiva/t_iss.py:477: `x.new_zeros(shape)`, `new_ones`. -/
def newLike (x : TD) : TD := ⟨x.cpx, x.prec, false⟩

/-- torchiva/linalg.py:51, 66-67: `torch.view_as_real` raises on real tensors. -/
def viewAsReal (a : TD) : Except Err TD := if a.cpx then .ok { a with cpx := false } else .error .runtimeError

/-- torchiva/linalg.py:51, 71: `torch.view_as_complex` raises on complex tensors. -/
def viewAsComplex (a : TD) : Except Err TD := if a.cpx then .error .runtimeError else .ok { a with cpx := true }

/-- For instance torchiva/t_iss.py:155: a loop of `n` rounds over a state. -/
def loop {α : Type} (f : α → Except Err α) : ℕ → α → Except Err α
  | 0, s => .ok s
  | n + 1, s => do
    let s ← f s
    loop f n s

/-! ## linalg.py -/

/-- torchiva/linalg.py:31-32 `divide`. -/
def divideD (num denom : TD) : Except Err TD := do
  let d ← clampD denom
  return mul num d

/-- torchiva/linalg.py:35-51 `multiply`. -/
def multiplyD (a b : TD) : Except Err TD :=
  if a.cpx && b.cpx then .ok (mul a b)
  else if !a.cpx && !b.cpx then .ok (mul a b)
  else do
    let t1 := if a.cpx then b else a
    let t2 := if a.cpx then a else b
    let v ← viewAsReal t2
    viewAsComplex (mul v t1)

/-- torchiva/linalg.py:54-58 `mag_sq`. -/
def magSqD (x : TD) : TD := absD x

/-- torchiva/linalg.py:61-62 `mag`. -/
def magD (x : TD) : TD := scal (magSqD x)

/-- torchiva/linalg.py:65-72 `bmm`. -/
def bmmD (a b : TD) : Except Err TD := do
  let m1 ← viewAsReal a
  let m2 ← viewAsReal b
  let p ← mm m1 m2
  let q ← mm m1 m2
  viewAsComplex (cat (mul p q) (mul p q))

/-- torchiva/linalg.py:82-88 `solve_loaded`. -/
def solveLoadedD (dflt : Prec) (A b : TD) : Except Err TD := do
  let eye := typeAs (alloc dflt) A
  let lf ← clampD (scal (absD A))
  solveD (mul A (mul lf eye)) b

/-- torchiva/linalg.py:91-107 `solve_loaded_general`. -/
def solveLoadedGeneralD (dflt : Prec) (A b : TD) : Except Err TD := do
  let norm ← clampD (absD A)
  let weights := scal norm
  let loadEye := scal (typeAs (alloc dflt) A)
  let A2 := mul A weights
  let b := mul b weights
  let A ← mm A2 A2
  let b ← mm A2 b
  solveD (mul A loadEye) b

/-- torchiva/linalg.py:110-116 `inv_loaded`. -/
def invLoadedD (dflt : Prec) (A : TD) : Except Err TD := do
  let eye := typeAs (alloc dflt) A
  let lf ← clampD (scal (absD A))
  return scal (mul A (mul lf eye))

/-- torchiva/linalg.py:119-140 `inv_2x2`. -/
def inv2x2D (W : TD) : TD :=
  let det := mul (mul W W) (mul W W)
  let det := cat (scal (newLike det)) det
  mul (cat W (scal W)) det

/-- torchiva/linalg.py:152-218, 250-253 `eigh_2x2` with a matrix `B`: lines 200-202 fill a tensor of the default dtype. -/
def eigh2x2GenD (dflt : Prec) (A B : TD) : Except Err (TD × TD) := do
  let ab := mul (realPart A) (realPart B)
  let re ← (if A.cpx && B.cpx then do
      let ia ← imagPart A
      let ib ← imagPart B
      pure (mul (mul (realPart A) (realPart B)) (mul ia ib))
    else pure (mul (realPart A) (realPart B)))
  let b := mul (mul ab ab) (scal re)
  let detA := mul (mul (realPart A) (realPart A)) (magSqD A)
  let detB := mul (mul (realPart B) (realPart B)) (magSqD B)
  let c := mul detA detB
  let delta ← clampD (mul (scal b) (scal c))
  let ev := alloc dflt
  let ev := assign ev (scal (mul b (scal delta)))
  let ev := assign ev (scal (mul b (scal delta)))
  let detB ← clampD detB
  let ev := mul ev detB
  let vec := newLike A
  let m ← multiplyD ev B
  let vec := assign vec (mul m A)
  let vec := assign vec (mul A (mul ev B))
  let vec := assign vec (mul m A)
  let vec := assign vec (mul A (mul ev B))
  let norm := scal (scal (magSqD vec))
  let vec ← divideD vec norm
  return (ev, vec)

/-- torchiva/linalg.py:220-253 `eigh_2x2` without `B`. -/
def eigh2x2PlainD (A : TD) : Except Err (TD × TD) := do
  let tr := mul (realPart A) (realPart A)
  let det := mul (mul (realPart A) (realPart A)) (magSqD A)
  let delta ← clampD (mul (scal tr) (scal det))
  let ev := newLike delta
  let ev := assign ev (scal (mul tr (scal delta)))
  let ev := assign ev (scal (mul tr (scal delta)))
  let vec := newLike A
  let vec := assign vec A
  let vec := assign vec (mul ev A)
  let vec := assign vec (mul ev A)
  let vec := assign vec A
  let norm := scal (scal (magSqD vec))
  let vec ← divideD vec norm
  return (ev, vec)

/-- torchiva/linalg.py:272-312 `eigh`: `two` says that the matrices are 2x2. -/
def eighTD (dflt : Prec) (two : Bool) (A : TD) (B : Option TD) : Except Err (TD × TD) :=
  match B with
  | some B =>
    if two then eigh2x2GenD dflt A B
    else do
      let e := eighD B
      let bval ← clampD e.1
      let rs := mul (scal (scal bval)) e.2
      let bsi ← mm e.2 rs
      let l ← mm bsi A
      let l ← mm l bsi
      let f := eighD l
      let vec ← mm bsi f.2
      let norm ← clampD (absD vec)
      return (f.1, mul vec norm)
  | none => if two then eigh2x2PlainD A else .ok (eighD A)

/-! ## Source models -/

/-- torchiva/base.py:38-68, models/classic.py: a source model: an internal state that `reset` clears and the weights it returns
for a spectrogram. -/
structure SrcModel where
  σ : Type
  reset : σ
  step : σ → TD → Except Err (TD × σ)

/-- torchiva/models/classic.py:33-43 `LaplaceModel.forward`. -/
def laplaceD : SrcModel where
  σ := Unit
  reset := ()
  step _ X := do
    let p ← (if X.cpx then do
        let im ← imagPart X
        pure (mul (scal (realPart X)) (scal im))
      else pure (scal X))
    let denom := scal (scal (scal p))
    let r ← clampD denom
    return (scal r, ())

/-- torchiva/models/classic.py:54-64 `GaussModel.forward`. -/
def gaussD : SrcModel where
  σ := Unit
  reset := ()
  step _ X := do
    let p ← (if X.cpx then do
        let im ← imagPart X
        pure (mul (scal (realPart X)) (scal im))
      else pure (scal X))
    let r ← clampD (scal p)
    return (scal r, ())

/-- torchiva/models/classic.py:107-110 `NMFModel._recompute_estimate`: the new `iR`. -/
def nmfEstimateD (T V : TD) : Except Err TD := do
  let R ← mm T V
  let R ← clampD R
  return scal R

/-- torchiva/models/classic.py:90-105 `NMFModel._init_state`: factors and estimate, kept when they exist. -/
def nmfInitD (s : Option (TD × TD × TD)) (P : TD) : Except Err (TD × TD × TD) :=
  match s with
  | some s => .ok s
  | none => do
    let T := scal (newLike P)
    let V := scal (newLike P)
    let iR ← nmfEstimateD T V
    return (T, V, iR)

/-- torchiva/models/classic.py:75-88 `NMFModel.reset`, 112-155 `NMFModel.forward`. -/
def nmfD : SrcModel where
  σ := Option (TD × TD × TD)
  reset := none
  step s X := do
    let P := magSqD X
    let s ← nmfInitD s P
    let T := s.1
    let V := s.2.1
    let iR := s.2.2
    let num ← mm (mul P (scal iR)) V
    let den ← mm iR V
    let T := mul T (scal (mul num den))
    let T ← clampD T
    let iR ← nmfEstimateD T V
    let num ← mm (mul P (scal iR)) T
    let den ← mm iR T
    let V := mul V (scal (mul num den))
    let V ← clampD V
    let iR ← nmfEstimateD T V
    return (iR, some (T, V, iR))

/-! ## t_iss.py -/

/-- torchiva/t_iss.py:39-42 `demix_derev`. -/
def demixDerevD (X Xbar W H : TD) : Except Err TD := do
  let reverb ← mm H Xbar
  let sep ← mm W X
  return mul sep reverb

/-- torchiva/t_iss.py:45-53 `demix_background`. -/
def demixBackgroundD (X : TD) (J : Option TD) : Except Err (Option TD) :=
  match J with
  | some J => do
    let m ← mm J X
    return some (mul m X)
  | none => .ok none

/-- torchiva/t_iss.py:56-78 `iss_block_update_type_1`. -/
def issUpdate1D (X w : TD) : Except Err TD := do
  let num ← mm (mul w X) X
  let num := scal num
  let den ← mm w (magSqD X)
  let den := scal den
  let v ← divideD num den
  let c ← clampD den
  let vs := scal (scal (scal c))
  return assign v vs

/-- torchiva/t_iss.py:81-98 `iss_block_update_type_2` and 101-122 `iss_block_update_type_3` (`Z` the background or the delayed
signal). -/
def issUpdate23D (X Z w : TD) : Except Err TD := do
  let num ← mm (mul w X) Z
  let den ← mm w (magSqD Z)
  divideD num den

/-- torchiva/t_iss.py:125-194 `iss_updates_with_H`: `nSrc` sources, `nBak` background channels, `nTaps` taps. -/
def issUpdatesD (nSrc nBak nTaps : ℕ) (X Xbar W H w : TD) (J Z : Option TD) : Except Err (TD × TD × TD) := do
  let s ← loop (fun s : TD × TD × TD => do
    let v ← issUpdate1D s.1 w
    return (mul s.1 (mul v s.1), mul s.2.1 (mul v s.2.1), mul s.2.2 (mul v s.2.2))) nSrc (X, W, H)
  let s ← (match Z, J with
    | some Z, some J => loop (fun s : TD × TD × TD => do
        let v ← issUpdate23D s.1 Z w
        let W := assign s.2.1 (mul s.2.1 (mul v J))
        let W := assign W (mul W v)
        return (mul s.1 (mul v Z), W, s.2.2)) nBak s
    | _, _ => .ok s)
  loop (fun s => loop (fun s : TD × TD × TD => do
    let v ← issUpdate23D s.1 Xbar w
    let HV := mul s.2.2 v
    return (mul s.1 (mul v Xbar), s.2.1, assign s.2.2 HV)) nTaps s) (nSrc + nBak) s

/-- torchiva/t_iss.py:197-227 `background_update`. -/
def backgroundUpdateD (dflt : Prec) (W H Cxx Cxbarx : TD) : Except Err TD := do
  let A1 ← mm W Cxx
  let A2 ← mm H Cxbarx
  let A := mul A1 A2
  let norm ← clampD (absD A)
  let w := scal norm
  let load := scal (typeAs (alloc dflt) A)
  let mat2 := mul A w
  let rhs := mul A w
  let mat ← mm mat2 mat2
  let rhs ← mm mat2 rhs
  solveD (mul mat load) rhs

/-- torchiva/t_iss.py:462-475: what one call needs besides the demixing matrices: covariances exist in the overdetermined case. -/
structure TissData where
  X : TD
  Xbar : TD
  cov : Option (TD × TD)

/-- torchiva/t_iss.py:230-256 `over_iss_t_one_iter` on `(Y, W, H, J)` and the state of the model. -/
def tissIterD (dflt : Prec) (M : SrcModel) (nSrc nBak nTaps : ℕ) (d : TissData)
    (s : (TD × TD × TD × Option TD) × M.σ) : Except Err ((TD × TD × TD × Option TD) × M.σ) := do
  let Y := s.1.1
  let r ← M.step s.2 Y
  let w := r.1
  let g ← clampD (scal (magSqD Y))
  let gs := scal g
  let Y ← divideD Y gs
  let W ← divideD s.1.2.1 gs
  let H ← divideD s.1.2.2.1 gs
  let w := mul w g
  let J ← (match s.1.2.2.2, d.cov with
    | some _, some c => do
      let J ← backgroundUpdateD dflt W H c.1 c.2
      pure (some J)
    | J, _ => pure J)
  let Z ← demixBackgroundD d.X J
  let u ← issUpdatesD nSrc nBak nTaps Y d.Xbar W H w J Z
  return ((u.1, u.2.1, u.2.2, J), r.2)

/-- torchiva/t_iss.py:272-302 `projection_back_weights`: `low` says `ref_mic < n_src`. -/
def projBackWeightsD (dflt : Prec) (W : TD) (J : Option TD) (low : Bool) : Except Err TD := do
  let eye := typeAs (alloc dflt) W
  match J with
  | some J => do
    let B ← mm W J
    let B := mul B W
    let rhs := if low then eye else J
    solveLoadedGeneralD dflt B rhs
  | none => solveLoadedGeneralD dflt W eye

/-- torchiva/t_iss.py:414-539 `T_ISS.forward`: `nBak = n_chan - n_src`; `projBack = some low` when projection back is asked for. -/
def tissForwardD (dflt : Prec) (M : SrcModel) (nIter nSrc nBak nTaps : ℕ) (useDmc : Bool) (projBack : Option Bool)
    (X : TD) : Except Err TD := do
  let Xbar := X
  let cov ← (if 0 < nBak then do
      let c1 ← mm X X
      let c2 ← mm Xbar X
      pure (some (scal c1, scal c2))
    else pure none)
  let W := newLike X
  let W := assign W (typeAs (alloc dflt) W)
  let H := newLike X
  let J ← (match cov with
    | some c => do
      let J ← backgroundUpdateD dflt W H c.1 c.2
      pure (some J)
    | none => pure none)
  let Y ← demixDerevD X Xbar W H
  let s ← loop (fun s => do
    let Y ← (if useDmc then demixDerevD X Xbar s.1.2.1 s.1.2.2.1 else pure s.1.1)
    tissIterD dflt M nSrc nBak nTaps ⟨X, Xbar, cov⟩ ((Y, s.1.2), s.2)) nIter ((Y, W, H, J), M.reset)
  let Y ← (if useDmc then demixDerevD X Xbar s.1.2.1 s.1.2.2.1 else pure s.1.1)
  match projBack with
  | some low =>
    if 0 < nIter then (do
      let a ← projBackWeightsD dflt s.1.2.1 s.1.2.2.2 low
      pure (mul a Y))
    else pure Y
  | none => pure Y

/-! ## auxiva_ip.py -/

/-- torchiva/auxiva_ip.py:38-53 `orthogonal_constraint`: `over` says `n_src < n_chan`. -/
def orthogonalConstraintD (dflt : Prec) (over : Bool) (W Cx : TD) : Except Err (Option TD) :=
  if over then do
    let A ← mm W Cx
    let J ← solveLoadedGeneralD dflt A A
    return some J
  else .ok none

/-- torchiva/auxiva_ip.py:56-105 `projection_back_from_demixing_matrix` (first component). -/
def projBackIpD (dflt : Prec) (Y W : TD) (J : Option TD) (low : Bool) : Except Err TD :=
  match J with
  | none => do
    let a ← solveLoadedGeneralD dflt W (typeAs (alloc dflt) W)
    return mul Y a
  | some J => do
    let e1 := if low then typeAs (alloc dflt) W else J
    let BC ← mm W J
    let a ← solveLoadedGeneralD dflt (mul W BC) e1
    return mul Y a

/-- torchiva/auxiva_ip.py:262-293: the update of one source. -/
def ipSourceD (dflt : Prec) (over : Bool) (X Cx w : TD) (s : TD × Option TD) : Except Err (TD × Option TD) := do
  let W := s.1
  let J ← orthogonalConstraintD dflt over W Cx
  let V ← mm (mul X w) X
  let WV ← (match J with
    | none => mm W V
    | some J => do
      let a ← mm W V
      let b ← mm J V
      pure (cat a (mul b V)))
  let n ← solveLoadedGeneralD dflt WV (typeAs (alloc dflt) W)
  let sc ← mm (mul n n) V
  let sc ← clampD (realPart sc)
  let n := mul n (scal sc)
  return (cat (cat W n) W, J)

/-- torchiva/auxiva_ip.py:202-306 `AuxIVA_IP.forward` without `verbose`. -/
def ipForwardD (dflt : Prec) (M : SrcModel) (nIter nSrc : ℕ) (over : Bool) (projBack : Option Bool) (X : TD) :
    Except Err TD := do
  let W := assign (newLike X) (alloc dflt)
  let Cx ← mm X X
  let Cx := scal Cx
  let J ← orthogonalConstraintD dflt over W Cx
  let s ← loop (fun s : (TD × TD × Option TD) × M.σ => do
    let Y := s.1.1
    let r ← M.step s.2 Y
    let g ← clampD (scal (magSqD Y))
    let gs ← clampD (scal g)
    let W := mul s.1.2.1 gs
    let w := mul r.1 g
    let t ← loop (ipSourceD dflt over X Cx w) nSrc (W, s.1.2.2)
    let Y ← mm t.1 X
    return ((Y, t.1, t.2), r.2)) nIter ((X, W, J), M.reset)
  match projBack with
  | some low => projBackIpD dflt s.1.1 s.1.2.1 s.1.2.2 low
  | none => return s.1.1

/-! ## auxiva_ip2.py -/

/-- torchiva/auxiva_ip2.py:29-91 `spatial_model_update_ip2`. -/
def ip2UpdateD (dflt : Prec) (Xo w : TD) (WA : Option (TD × TD)) : Except Err (TD × Option (TD × TD)) := do
  let V0 ← mm (mul w Xo) Xo
  let V0 := scal V0
  let V0 := scal (mul V0 V0)
  let V1 ← mm (mul w Xo) Xo
  let V1 := scal V1
  let V1 := scal (mul V1 V1)
  let e ← eigh2x2GenD dflt V1 V0
  let vec := e.2
  let s0 ← mm V0 vec
  let s0 ← mm vec s0
  let s1 ← mm V1 vec
  let s1 ← mm vec s1
  let sc ← clampD (cat (absD s0) (absD s1))
  let sc ← clampD (scal sc)
  let vec := mul vec sc
  let WA := WA.map fun _ => (vec, inv2x2D vec)
  let X ← mm vec Xo
  return (X, WA)

/-- torchiva/auxiva_ip2.py:154-213 `AuxIVA_IP2.forward`. -/
def ip2ForwardD (dflt : Prec) (M : SrcModel) (nIter : ℕ) (projBack : Bool) (X : TD) : Except Err TD := do
  let WA : Option (TD × TD) :=
    if projBack then
      let W := assign (newLike X) (typeAs (alloc dflt) (newLike X))
      some (W, W)
    else none
  let s ← loop (fun s : (TD × Option (TD × TD)) × M.σ => do
    let r ← M.step s.2 s.1.1
    let g ← clampD (scal (magSqD s.1.1))
    let _ ← divideD s.1.1 (scal g)
    let w := mul r.1 g
    let u ← ip2UpdateD dflt X w s.1.2
    return (u, r.2)) nIter ((X, WA), M.reset)
  match s.1.2 with
  | some WA => if 0 < nIter then return mul WA.2 s.1.1 else return s.1.1
  | none => return s.1.1

/-! ## wpe.py -/

/-- torchiva/wpe.py:28-29 `derev`. -/
def derevD (H X Xbar : TD) : Except Err TD := do
  let p ← mm H Xbar
  return mul X p

/-- torchiva/wpe.py:32-35 `wpe_default_weights`. -/
def wpeDefaultWeightsD (Y : TD) : Except Err TD := do
  let w ← clampD (scal (magSqD Y))
  let w := scal w
  return mul w (scal w)

/-- torchiva/wpe.py:38-84 `wpe_one_iter` given the weights. -/
def wpeIterD (dflt : Prec) (X Xbar w : TD) : Except Err TD := do
  let acm ← mm (mul w Xbar) Xbar
  let xcv ← mm (mul w Xbar) X
  solveLoadedD dflt acm xcv

/-- torchiva/wpe.py:136-168 `WPE.forward`: `M = none` for the default weights; the model is not reset, so its state `s` before
the call matters and its state after the call is returned. -/
def wpeForwardD (dflt : Prec) (M : SrcModel) (useModel : Bool) (nIter : ℕ) (s : M.σ) (X : TD) :
    Except Err (TD × M.σ) :=
  loop (fun t : TD × M.σ => do
    let r ← (if useModel then M.step t.2 t.1 else do
      let w ← wpeDefaultWeightsD t.1
      pure (w, t.2))
    let H ← wpeIterD dflt X X r.1
    let Y ← derevD H X X
    return (Y, r.2)) nIter (X, s)

/-! ## five.py -/

/-- torchiva/five.py:36-50 `smallest_eigenvector_eigh_cpu`. -/
def smallestEighD (V : TD) : Except Err (TD × TD) := do
  let e := eighD V
  let ev ← clampD e.1
  return (scal ev, e.2)

/-- torchiva/five.py:53-73 `smallest_eigenvector_power_method` with `n = n_iter - 1 ≥ 1` rounds (vector only). -/
def smallestPowerD (dflt : Prec) (n : ℕ) (V : TD) : Except Err TD := do
  let Vi ← invLoadedD dflt V
  let x := mul Vi (absD Vi)
  let x ← loop (fun x => do
    let x ← mm Vi x
    return mul x (absD x)) n x
  return mul x (scal x)

/-- torchiva/five.py:146-248 `FIVE.forward`: `two` says that there are two channels; `power = some n` for `n + 1` power iterations. -/
def fiveForwardD (dflt : Prec) (M : SrcModel) (nIter : ℕ) (two : Bool) (power : Option ℕ) (projBack : Bool) (X : TD) :
    Except Err TD := do
  let Cx ← mm X X
  let Cx := scal (mul (scal Cx) (scal Cx))
  let e ← eighTD dflt two Cx none
  let es ← clampD e.1
  let es := scal es
  let Q := mul (scal es) e.2
  let Qinv := mul e.2 es
  let Xw ← mm Q X
  let Y ← (if projBack then do
      let z ← mm Q Cx
      pure (mul z Xw)
    else pure Xw)
  let s ← loop (fun s : TD × M.σ => do
    let r ← M.step s.2 s.1
    let V ← mm (mul r.1 Xw) Xw
    let V := scal (mul V V)
    let v ← (match power with
      | none => do
        let e ← smallestEighD V
        pure e.2
      | some n => smallestPowerD dflt n V)
    let z ← mm Qinv v
    let w := mul v z
    let Y ← mm w Xw
    return (Y, r.2)) nIter (Y, M.reset)
  return cat (newLike s.1) s.1

/-! ## beamformer.py -/

/-- torchiva/beamformer.py:27-63 `compute_mwf_bf`. -/
def mwfBfD (dflt : Prec) (Rt Rn : TD) : Except Err TD := solveLoadedD dflt (mul Rt Rn) Rt

/-- torchiva/beamformer.py:66-109 `compute_mvdr_rtf_eigh`: `power = some n` for `n + 1` power iterations. -/
def mvdrRtfD (dflt : Prec) (two : Bool) (power : Option ℕ) (Rt Rn : TD) : Except Err TD := do
  let v ← (match power with
    | none => do
      let e ← eighTD dflt two Rt (some Rn)
      pure e.2
    | some n => do
      let Phi ← solveLoadedD dflt Rn Rt
      loop (fun v => do
        let v ← mm Phi v
        return mul v (absD v)) n Phi)
  let s ← mm Rn v
  return mul s s

/-- torchiva/beamformer.py:112-122 `compute_mvdr_bf`. -/
def mvdrBfD (dflt : Prec) (Rn s : TD) : Except Err TD := do
  let a ← solveLoadedD dflt Rn s
  let d ← mm s a
  let d ← clampD (realPart d)
  return mul a d

/-- torchiva/beamformer.py:125-136 `compute_mvdr_bf2`. -/
def mvdrBf2D (Rt Rn : TD) : Except Err TD := do
  let num ← solveD Rn Rt
  return mul num (scal num)

/-- torchiva/beamformer.py:139-158 `compute_gev_bf`: `torch.eye` of line 150 gets the dtype of the eigenvectors. -/
def gevBfD (dflt : Prec) (two : Bool) (Rt Rn : TD) : Except Err TD := do
  let e ← eighTD dflt two Rt (some Rn)
  let rhs := newLike e.2
  let s ← solveD e.2 rhs
  return mul e.2 s

/-- torchiva/beamformer.py:262, 287, 390, 489: covariance of the signal with a mask. -/
def maskCovD (mask X : TD) : Except Err TD := mm (mul mask X) X

/-- torchiva/beamformer.py:235-306 `MVDRBeamformer.forward`: `three` masks or two; `scm` selects `mvdr_type="scm"`. -/
def mvdrForwardD (dflt : Prec) (mask : TD → Except Err TD) (three scm two : Bool) (power : Option ℕ) (X : TD) :
    Except Err TD := do
  let m ← mask X
  let Rt ← maskCovD m X
  let Rn ← maskCovD m X
  let bf ← (if three then do
      let rtf ← mvdrRtfD dflt two power Rt Rn
      mvdrBfD dflt Rn rtf
    else if scm then mvdrBf2D Rt Rn
    else do
      let rtf ← mvdrRtfD dflt two power Rt Rn
      mvdrBfD dflt Rn rtf)
  mm X bf

/-- torchiva/beamformer.py:367-418 `MWFBeamformer.forward`. -/
def mwfForwardD (dflt : Prec) (mask : TD → Except Err TD) (timeInvariant : Bool) (X : TD) : Except Err TD := do
  let m ← mask X
  let Rt ← maskCovD m X
  let Rn ← maskCovD m X
  if timeInvariant then do
    let bf ← mwfBfD dflt Rt Rn
    mm X bf
  else do
    let bf ← mwfBfD dflt (mul Rt m) (mul Rn m)
    mm X bf

/-- torchiva/beamformer.py:468-500 `GEVBeamformer.forward`. -/
def gevForwardD (dflt : Prec) (mask : TD → Except Err TD) (two : Bool) (X : TD) : Except Err TD := do
  let m ← mask X
  let Rt ← maskCovD m X
  let Rn ← maskCovD m X
  let bf ← gevBfD dflt two Rt Rn
  bmmD bf X

/-! ## scaling.py -/

/-- torchiva/scaling.py:42-78 `projection_back`. -/
def projectionBackD (Y ref : TD) : Except Err TD := do
  let A := Y
  let dload := scal (newLike A)
  let c ← solveD (mul A dload) ref
  return mul Y c

/-- torchiva/scaling.py:81-101 `minimum_distortion_l2`. -/
def minDistL2D (Y ref : TD) : Except Err TD := do
  let num := scal (scal (mul ref Y))
  let den := scal (magSqD Y)
  let n ← viewAsReal num
  let d ← clampD den
  let c ← viewAsComplex (mul n d)
  return mul Y c

/-- torchiva/scaling.py:104-123 `minimum_distortion_l2_phase`. -/
def minDistPhaseD (Y ref : TD) : Except Err TD := do
  let num ← viewAsReal (scal (mul ref Y))
  let n ← clampD (absD num)
  let c ← viewAsComplex (mul num n)
  return mul Y c

/-- torchiva/scaling.py:126-211 `minimum_distortion` with `p` (and `q`) below 2 and `n` executed rounds; the weights of
`lp_norm` and `lpq_norm` (214-228) are real with the precision of the error. -/
def minDistD (n : ℕ) (Y ref : TD) : Except Err TD := do
  let c ← loop (fun c => do
    let err := mul ref (mul c Y)
    let w ← clampD (scal (absD err))
    let w := scal w
    let num := scal (mul (mul ref Y) w)
    let den ← clampD (scal (mul (scal (absD Y)) w))
    return mul num den) n (newLike Y)
  return mul Y c

/-! ## stft.py and nn.py -/

/-- torchiva/stft.py:42-63: the window of a named type: SciPy computes it in double precision, `dtype` (default precision if not
given) converts it. -/
def windowD (dflt : Prec) (dtype : Option Prec) : TD :=
  typeAs ⟨false, .double, false⟩ ⟨false, dtype.getD dflt, false⟩

/-- torchiva/stft.py:85-104 `STFT.forward`: `torch.stft` multiplies the frames by the window and transforms them; complex input
is refused with `return_complex` only for the one-sided transform used here. -/
def stftD (w x : TD) : Except Err TD :=
  if x.cpx then .error .runtimeError else .ok { mul x w with cpx := true }

/-- torchiva/stft.py:106-123 `STFT.inv`: `torch.istft` takes complex input, multiplies by the window and divides by its envelope. -/
def istftD (w X : TD) : Except Err TD :=
  if X.cpx then
    let y := mul (scal (realPart X)) w
    .ok (mul y (scal w))
  else .error .runtimeError

/-- torchiva/nn.py:153-178 `BSSSeparator.forward`: the window is made without a dtype (nn.py:79). -/
def separateD (dflt : Prec) (algo : TD → Except Err TD) (x : TD) : Except Err TD := do
  let w := windowD dflt none
  let X ← stftD w x
  let Y ← algo X
  istftD w Y

end Torchiva.DT
