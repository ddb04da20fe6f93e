import Verif.Model.TIss
import Mathlib.Analysis.SpecialFunctions.Exp
import Mathlib.Analysis.SpecialFunctions.Log.Base

/-!
# Model of torchiva/models/*.py

`s` sources (or, after flattening, `B` batch items), `F` frequencies, `N` frames, `K` basis
functions.  Network bodies (convolutions, LSTM, linear layers, mel filter bank) are arbitrary
functions.
-/

namespace Torchiva

/-- torchiva/models/classic.py:25, 49, 70 and torchiva/models/parameters.py:3-7: `eps` argument of
the classic source models; `None` selects 1e-5. -/
noncomputable def classicEps (eps : Option ℝ) : ℝ := eps.getD (1 / 100000)

section classic
variable {s F N : ℕ}

/-- torchiva/models/classic.py:33-44 `LaplaceModel.forward` (complex input). -/
noncomputable def laplaceForward (eps : ℝ) (X : Sig s F N) : Weights s F N := fun c _ n =>
  let denom : ℝ := 2 * √(∑ f, magSq (X c f n))
  1 / clampMin denom eps

/-- torchiva/models/classic.py:30-31 `LaplaceModel.cost`. -/
noncomputable def laplaceCost (Y : Sig s F N) : ℝ :=
  ∑ c, (∑ n, √(∑ f, ‖Y c f n‖ ^ 2)) / N

/-- torchiva/models/classic.py:54-64 `GaussModel.forward` (complex input). -/
noncomputable def gaussForward (eps : ℝ) (X : Sig s F N) : Weights s F N := fun c _ n =>
  let denom : ℝ := (∑ f, magSq (X c f n)) / F
  1 / clampMin denom eps

/-- torchiva/models/classic.py:33-43: The Laplace model as a (stateless) source model of the separation algorithms. -/
noncomputable def laplaceModel (eps : ℝ) : SourceModel Unit F N :=
  fun _ st X => (laplaceForward eps X, st)

/-- torchiva/models/classic.py:54-64: The Gauss model as a (stateless) source model of the separation algorithms. -/
noncomputable def gaussModel (eps : ℝ) : SourceModel Unit F N :=
  fun _ st X => (gaussForward eps X, st)

end classic

/-! ## NMFModel -/

/-- torchiva/models/classic.py:86-88, 96-105: The attributes `T`, `V`, `iR` of an initialised `NMFModel`.  The batch dimensions (lines
120-124) are flattened into `B`; `B`, `F`, `N` are those of the first call after `reset`. -/
structure NmfState (B F N K : ℕ) where
  T : Fin B → Fin F → Fin K → ℝ
  V : Fin B → Fin N → Fin K → ℝ
  iR : Fin B → Fin F → Fin N → ℝ

section nmf
variable {B F N K : ℕ}

/-- torchiva/models/classic.py:107-110 `_recompute_estimate`. -/
noncomputable def nmfRecompute (eps : ℝ) (T : Fin B → Fin F → Fin K → ℝ)
    (V : Fin B → Fin N → Fin K → ℝ) : NmfState B F N K where
  T := T
  V := V
  iR := fun b f n => (clampMin (∑ k, T b f k * V b n k) eps)⁻¹

/-- torchiva/models/classic.py:90-105 `_init_state` on a model that is not initialised.  `uT` and
`uV` are the random draws of `uniform_()`. -/
noncomputable def nmfInit (eps : ℝ) (uT : Fin B → Fin F → Fin K → ℝ)
    (uV : Fin B → Fin N → Fin K → ℝ) : NmfState B F N K :=
  nmfRecompute eps (fun b f k => 0.9 * uT b f k + 0.1) (fun b n k => 0.9 * uV b n k + 0.1)

open Classical in
/-- torchiva/models/classic.py:132-139: update of the basis matrix, then of the estimate.  A
division by exactly zero is the outcome `nonFinite`. -/
noncomputable def nmfUpdateT (eps : ℝ) (P : Fin B → Fin F → Fin N → ℝ) (st : NmfState B F N K) :
    Except Err (NmfState B F N K) :=
  let num := fun b f k => ∑ n, P b f n * st.iR b f n ^ 2 * st.V b n k
  let den := fun b f k => ∑ n, st.iR b f n * st.V b n k
  if ∃ b f k, den b f k = 0 then .error .nonFinite
  else .ok (nmfRecompute eps
    (fun b f k => clampMin (st.T b f k * √(num b f k / den b f k)) eps) st.V)

open Classical in
/-- torchiva/models/classic.py:141-150: update of the activation matrix, then of the estimate. -/
noncomputable def nmfUpdateV (eps : ℝ) (P : Fin B → Fin F → Fin N → ℝ) (st : NmfState B F N K) :
    Except Err (NmfState B F N K) :=
  let num := fun b n k => ∑ f, P b f n * st.iR b f n ^ 2 * st.T b f k
  let den := fun b n k => ∑ f, st.iR b f n * st.T b f k
  if ∃ b n k, den b n k = 0 then .error .nonFinite
  else .ok (nmfRecompute eps st.T
    (fun b n k => clampMin (st.V b n k * √(num b n k / den b n k)) eps))

/-- torchiva/models/classic.py:112-155 `NMFModel.forward`.  `st` is `none` after construction or
`reset`; a call with another shape than the first one since `reset` is outside this model. -/
noncomputable def nmfForward (eps : ℝ) (uT : Fin B → Fin F → Fin K → ℝ)
    (uV : Fin B → Fin N → Fin K → ℝ) (st : Option (NmfState B F N K)) (X : Sig B F N) :
    Except Err (Weights B F N × Option (NmfState B F N K)) := do
  let P := fun b f n => magSq (X b f n)
  let st0 := st.getD (nmfInit eps uT uV)
  let st1 ← nmfUpdateT eps P st0
  let st2 ← nmfUpdateV eps P st1
  .ok (st2.iR, some st2)

/-- torchiva/models/classic.py:75-88, 112-155: What a user can do with an `NMFModel`. -/
inductive NmfCall (B F N K : ℕ)
  | reset
  | forward (uT : Fin B → Fin F → Fin K → ℝ) (uV : Fin B → Fin N → Fin K → ℝ) (X : Sig B F N)

/-- One call (torchiva/models/classic.py:75-88 `reset`, :112-155 `forward`): the weights it
returns, if any, and the next state. -/
noncomputable def nmfCall (eps : ℝ) (st : Option (NmfState B F N K)) :
    NmfCall B F N K → Except Err (Option (Weights B F N) × Option (NmfState B F N K))
  | .reset => .ok (none, none)
  | .forward uT uV X => do
    let (w, st') ← nmfForward eps uT uV st X
    .ok (some w, st')

/-- torchiva/models/classic.py:75-88, 112-155: A sequence of calls: everything returned, oldest first, and the final state. -/
noncomputable def nmfHistory (eps : ℝ) (st : Option (NmfState B F N K)) :
    List (NmfCall B F N K) → Except Err (List (Weights B F N) × Option (NmfState B F N K))
  | [] => .ok ([], st)
  | c :: cs => do
    let (w, st') ← nmfCall eps st c
    let (ws, st'') ← nmfHistory eps st' cs
    .ok (w.toList ++ ws, st'')

end nmf

/-! ## Neural masks -/

/-- torchiva/models/glu.py:81, 172: `torch.sigmoid` on one element. -/
noncomputable def sigmoid (x : ℝ) : ℝ := 1 / (1 + Real.exp (-x))

section masks
variable {B F N : ℕ}

/-- torchiva/models/glu.py:145-149, 153-154: normalised power features (`mag_spec=True`). -/
noncomputable def gluPower (X : Sig B F N) : Fin B → Fin F → Fin N → ℝ := fun b f n =>
  let g := clampMin ((∑ f, ∑ n, magSq (X b f n)) / (F * N)) 1e-5
  magSq (X b f n) / clampMin g 1e-7

/-- torchiva/models/glu.py:145-149, 155-158: normalised real and imaginary parts, stacked along
frequency (`mag_spec=False`). -/
noncomputable def gluReIm (X : Sig B F N) : Fin B → Fin (F + F) → Fin N → ℝ := fun b i n =>
  let g := clampMin ((∑ f, ∑ n, magSq (X b f n)) / (F * N)) 1e-5
  let Y : Fin F → ℂ := fun f => divide (X b f n) √g 1e-7
  Fin.addCases (fun f => (Y f).re) (fun f => (Y f).im) i

/-- torchiva/models/glu.py:160-165: optional logarithm. -/
noncomputable def gluLog {I : ℕ} (logSpec : Bool) (X : Fin B → Fin I → Fin N → ℝ) :
    Fin B → Fin I → Fin N → ℝ := fun b i n =>
  if logSpec then Real.logb 10 (|X b i n| + 1e-7) else X b i n

/-- torchiva/models/glu.py:140-177 `GLUMask.forward` for `mag_spec=True`; the layers are an
arbitrary function `net`. -/
noncomputable def gluMaskMag (logSpec : Bool)
    (net : (Fin B → Fin F → Fin N → ℝ) → Fin B → Fin F → Fin N → ℝ) (X : Sig B F N) :
    Weights B F N := fun b f n =>
  sigmoid (net (gluLog logSpec (gluPower X)) b f n) * (1 - 1e-5) + 1e-5

/-- torchiva/models/glu.py:140-177 `GLUMask.forward` for `mag_spec=False`. -/
noncomputable def gluMaskReIm (logSpec : Bool)
    (net : (Fin B → Fin (F + F) → Fin N → ℝ) → Fin B → Fin F → Fin N → ℝ) (X : Sig B F N) :
    Weights B F N := fun b f n =>
  sigmoid (net (gluLog logSpec (gluReIm X)) b f n) * (1 - 1e-5) + 1e-5

/-- torchiva/models/blstm.py:50-87 `BLSTMMask.forward`; features, BLSTM and output layer are an
arbitrary function `net` of the input. -/
noncomputable def blstmMask (net : Sig B F N → Fin B → Fin F → Fin N → ℝ) (X : Sig B F N) :
    Weights B F N := fun b f n => sigmoid (net X b f n) * (1 - 1e-5) + 1e-5

/-- torchiva/models/blstm.py:125-155 `MaskMVDRSupport.forward`; `net` is everything up to and
including `ff2`, with `n_masks * n_src * n_input` output features (line 123).  The feature dimension is
reshaped row-major to `(n_src, n_masks, n_input)` (line 153). -/
noncomputable def maskMvdrSupport {S M : ℕ} (eps : ℝ)
    (net : Sig B F N → Fin B → Fin (M * S * F) → Fin N → ℝ) (X : Sig B F N) :
    Fin B → Fin S → Fin M → Fin F → Fin N → ℝ := fun b s m f n =>
  (1 - eps) * sigmoid (net X b ⟨(s * M + m) * F + f, by
    have hs := s.2; have hm := m.2; have hf := f.2
    have h1 : s * M + m < M * S := by nlinarith
    nlinarith⟩ n) + eps

/-- torchiva/models/simple.py:25-51 `SimpleModel.forward`; everything before the sigmoid is an
arbitrary function `net`. -/
noncomputable def simpleMask (eps : ℝ) (net : Sig B F N → Fin B → Fin F → Fin N → ℝ)
    (X : Sig B F N) : Weights B F N := fun b f n => sigmoid (eps + (1 - eps) * net X b f n)

end masks

/-! ## Shapes through `GLUMask`

A tensor of shape `(n_batch, channels, frames)` is represented by `(channels, frames)`. -/

/-- torchiva/models/glu.py:32-49, 128-133: `nn.Conv1d(cin, cout, k, padding=p)` / `nn.ConvTranspose1d(cin, cout, k, padding=p)` (stride 1)
on a shape: wrong channel number, or an empty result, raises `RuntimeError`. -/
def convShape (transposed : Bool) (cin cout k p : ℕ) (x : ℕ × ℕ) : Except Err (ℕ × ℕ) :=
  if x.1 ≠ cin then .error .runtimeError
  else if transposed then
    if x.2 + k ≤ 1 + 2 * p then .error .runtimeError else .ok (cout, x.2 + k - 1 - 2 * p)
  else
    if x.2 + 2 * p < k then .error .runtimeError else .ok (cout, x.2 + 2 * p + 1 - k)

/-- torchiva/models/glu.py:70-87 `GLULayer.forward` on shapes.  Sub-layer `i` of `m` maps `nIn`
channels to `pool * nOut` (last one, :30) or `pool * nIn` channels, and the max-pooling over the
transposed tensor divides the channels by `pool`.  The gate has the same shape as the signal.  With
`m = 0` the loop of `__init__` that assigns `self.lin_layers` (:58) never runs, so `forward` raises
`AttributeError`. -/
def gluLayerShape (nIn nOut m k pool : ℕ) (x : ℕ × ℕ) : Except Err (ℕ × ℕ) :=
  if m = 0 then .error .attributeError
  else (List.range m).foldlM (init := x) fun x i => do
    let y ← convShape (nIn < nOut) nIn (pool * if i = m - 1 then nOut else nIn) k (k / 2) x
    .ok (y.1 / pool, y.2)

/-- torchiva/models/glu.py:92-135, 140-177 `GLUMask` on shapes: constructor arguments `n_freq`,
`n_bottleneck`, `pool_size`, `kernel_size`, `mag_spec`, `n_sublayers`; input of shape
`(n_batch, F, N)` with `n_batch > 0`, `N > 0`.  The final reshape (:177) raises `RuntimeError` when the
number of elements differs. -/
def gluMaskShape (nFreq nBot pool k : ℕ) (magSpec : Bool) (nSub F N : ℕ) :
    Except Err (ℕ × ℕ) := do
  let nIn := if magSpec then nFreq else 2 * nFreq
  let x := (if magSpec then F else 2 * F, N)
  let x ← gluLayerShape nIn nBot 1 3 pool x
  let x ← gluLayerShape nBot nBot nSub 3 pool x
  let x ← gluLayerShape nBot nBot nSub 3 pool x
  let x ← convShape true nBot nFreq k (k / 2) x
  if x.1 * x.2 ≠ F * N then .error .runtimeError else .ok (F, N)

end Torchiva
