import Verif.Model.Models
import Mathlib.Algebra.BigOperators.Fin
import Mathlib.Logic.Equiv.Fin.Basic
import Mathlib.Order.Fin.Basic

/-!
# The layers of the neural source models

torchiva/models/glu.py (`GLULayer`, `GLUMask`) and torchiva/models/simple.py (`SimpleModel`) with their layers: convolutions, batch
normalisation, gating, max-pooling over channels, dropout, mel scale and linear layers.  Parameters are arbitrary.  A module is in
training mode (`training = true`, the state after construction) or in evaluation mode (after `.eval()`).  Items whose shape the layers
reject are the subject of C78; here all shapes fit (odd kernel sizes, positive pool size, at least one sublayer).
-/

namespace Torchiva

variable {B N I O F : ℕ}

/-- A frame of a zero-padded sequence (the padding of the convolutions in torchiva/models/glu.py:37, 47, 132). -/
def readZ (x : Fin N → ℝ) (i : ℤ) : ℝ := if h : 0 ≤ i ∧ i.toNat < N then x ⟨i.toNat, h.2⟩ else 0

/-- torchiva/models/glu.py:32-49, 128-133: the parameters of `nn.Conv1d` or `nn.ConvTranspose1d`; the two first indices are the input and the output channel. -/
structure Conv (I O k : ℕ) where
  weight : Fin I → Fin O → Fin k → ℝ
  bias : Fin O → ℝ

/-- `nn.Conv1d` (`transposed = false`) and `nn.ConvTranspose1d`, stride 1 and padding `k // 2`, `k` odd (torchiva/models/glu.py:32-49 and 128-133). -/
noncomputable def Conv.apply {k : ℕ} (c : Conv I O k) (transposed : Bool) (x : Fin I → Fin N → ℝ) : Fin O → Fin N → ℝ := fun o n =>
  c.bias o + ∑ i, ∑ j : Fin k, c.weight i o j * readZ (x i) (if transposed then (n : ℤ) + (k / 2 : ℕ) - j else n + j - (k / 2 : ℕ))

/-- torchiva/models/glu.py:40, 50: parameters and buffers of `nn.BatchNorm1d`. -/
structure BatchNorm (C : ℕ) where
  gamma : Fin C → ℝ
  beta : Fin C → ℝ
  runningMean : Fin C → ℝ
  runningVar : Fin C → ℝ

/-- The mean over items and frames, used by `nn.BatchNorm1d` (torchiva/models/glu.py:80, 83). -/
noncomputable def batchMean {C : ℕ} (x : Fin B → Fin C → Fin N → ℝ) (c : Fin C) : ℝ := (∑ b, ∑ n, x b c n) / (B * N)

/-- The (biased) variance over items and frames, used by `nn.BatchNorm1d` (torchiva/models/glu.py:80, 83). -/
noncomputable def batchVar {C : ℕ} (x : Fin B → Fin C → Fin N → ℝ) (c : Fin C) : ℝ :=
  (∑ b, ∑ n, (x b c n - batchMean x c) ^ 2) / (B * N)

/-- torchiva/models/glu.py:80, 83: `nn.BatchNorm1d` with its defaults `eps=1e-5`, `momentum=0.1`: the statistics of the batch in training mode, which also updates the
running ones (with the unbiased variance), the running ones in evaluation mode. -/
noncomputable def BatchNorm.forward {C : ℕ} (bn : BatchNorm C) (training : Bool) (x : Fin B → Fin C → Fin N → ℝ) :
    (Fin B → Fin C → Fin N → ℝ) × BatchNorm C :=
  let μ := if training then batchMean x else bn.runningMean
  let v := if training then batchVar x else bn.runningVar
  (fun b c n => (x b c n - μ c) / √(v c + 1e-5) * bn.gamma c + bn.beta c,
    if training then { bn with
      runningMean := fun c => 0.9 * bn.runningMean c + 0.1 * batchMean x c
      runningVar := fun c => 0.9 * bn.runningVar c + 0.1 * (batchVar x c * (B * N) / (B * N - 1)) }
    else bn)

/-- torchiva/models/glu.py:29-56: the layers of one sublayer of `GLULayer`; the convolutions have `pool * O` output channels. -/
structure GluSub (I O pool : ℕ) where
  lin : Conv I (O * pool) 3
  linBn : BatchNorm (O * pool)
  gate : Conv I (O * pool) 3
  gateBn : BatchNorm (O * pool)

/-- `nn.MaxPool1d(pool)` along the channels (torchiva/models/glu.py:53-55, 85): the maximum of every group of `pool` consecutive channels. -/
noncomputable def poolChannels {pool : ℕ} [NeZero pool] (x : Fin (O * pool) → Fin N → ℝ) : Fin O → Fin N → ℝ := fun o n =>
  Finset.univ.sup' Finset.univ_nonempty fun p : Fin pool => x (finProdFinEquiv (o, p)) n

/-- torchiva/models/glu.py:79-85: one pass of the loop of `GLULayer.forward`, on a batch, with the updated buffers.  `transposed` is chosen
in line 26. -/
noncomputable def GluSub.forward {pool : ℕ} [NeZero pool] (l : GluSub I O pool) (transposed training : Bool) (x : Fin B → Fin I → Fin N → ℝ) :
    (Fin B → Fin O → Fin N → ℝ) × GluSub I O pool :=
  let g := l.gateBn.forward training fun b => l.gate.apply transposed (x b)
  let y := l.linBn.forward training fun b => l.lin.apply transposed (x b)
  (fun b => poolChannels fun c n => sigmoid (g.1 b c n) * y.1 b c n, { l with linBn := y.2, gateBn := g.2 })

/-- torchiva/models/glu.py:8-62 `GLULayer` with `n_bottleneck` inputs and outputs: a non-empty list of sublayers (all have the same
number of channels). -/
abbrev GluLayer (K pool : ℕ) := List (GluSub K K pool)

/-- torchiva/models/glu.py:70-87 `GLULayer.forward` for as many inputs as outputs (`nn.Conv1d`, line 26). -/
noncomputable def GluLayer.forward {K pool : ℕ} [NeZero pool] (training : Bool) : GluLayer K pool → (Fin B → Fin K → Fin N → ℝ) →
    (Fin B → Fin K → Fin N → ℝ) × GluLayer K pool
  | [], x => (x, [])
  | l :: ls, x =>
    let r := l.forward false training x
    let t := GluLayer.forward training ls r.1
    (t.1, r.2 :: t.2)

/-- torchiva/models/glu.py:112-135: the layers of `GLUMask`.  The argument `kernel_size` only reaches the last layer; the first layer has
one sublayer, the two others `n_sublayers`. -/
structure GluNet (I K F pool k : ℕ) where
  first : GluSub I K pool
  second : GluLayer K pool
  third : GluLayer K pool
  out : Conv K F k
  dropoutP : ℝ

/-- torchiva/models/glu.py:121: `nn.Dropout(p)`: in training mode every entry is zeroed unless drawn to be kept (probability `1 - p`), and the kept ones are divided by
`1 - p`; the identity in evaluation mode. -/
noncomputable def dropout {K : ℕ} (p : ℝ) (training : Bool) (keep : Fin B → Fin K → Fin N → Bool) (x : Fin B → Fin K → Fin N → ℝ) :
    Fin B → Fin K → Fin N → ℝ := fun b c n => if training then (if keep b c n then x b c n / (1 - p) else 0) else x b c n

/-- torchiva/models/glu.py:167-169: all the layers of `GLUMask`, with the updated buffers. -/
noncomputable def GluNet.forward {K pool k : ℕ} [NeZero pool] (net : GluNet I K F pool k) (training : Bool) (keep : Fin B → Fin K → Fin N → Bool)
    (x : Fin B → Fin I → Fin N → ℝ) : (Fin B → Fin F → Fin N → ℝ) × GluNet I K F pool k :=
  let r1 := net.first.forward (decide (I < K)) training x
  let r2 := GluLayer.forward training net.second r1.1
  let r3 := GluLayer.forward training net.third (dropout net.dropoutP training keep r2.1)
  (fun b => net.out.apply true (r3.1 b), { net with first := r1.2, second := r2.2, third := r3.2 })

/-- torchiva/models/glu.py:140-177 `GLUMask.forward` for `mag_spec=True`, with the updated network.  `nn.BatchNorm1d` in training mode raises
`ValueError` for a single frame of a single item. -/
noncomputable def gluForwardMag {K pool k : ℕ} [NeZero pool] (logSpec : Bool) (net : GluNet F K F pool k) (training : Bool)
    (keep : Fin B → Fin K → Fin N → Bool) (X : Sig B F N) : Except Err (Weights B F N × GluNet F K F pool k) :=
  if training ∧ B * N = 1 then .error .valueError
  else .ok (gluMaskMag logSpec (fun x => (net.forward training keep x).1) X, (net.forward training keep (gluLog logSpec (gluPower X))).2)

/-- torchiva/models/glu.py:140-177 `GLUMask.forward` for `mag_spec=False`. -/
noncomputable def gluForwardReIm {K pool k : ℕ} [NeZero pool] (logSpec : Bool) (net : GluNet (F + F) K F pool k) (training : Bool)
    (keep : Fin B → Fin K → Fin N → Bool) (X : Sig B F N) : Except Err (Weights B F N × GluNet (F + F) K F pool k) :=
  if training ∧ B * N = 1 then .error .valueError
  else .ok (gluMaskReIm logSpec (fun x => (net.forward training keep x).1) X, (net.forward training keep (gluLog logSpec (gluReIm X))).2)

/-- The mode of the source model of a separator returned by `load_separator` (torchiva/loader.py:82-85: construction and
`load_state_dict`, no call to `.eval()`) and used as it is by the command line (torchiva/separate.py:50-51): modules are
constructed in training mode. -/
def loadedTraining : Bool := true

/-- `GLUMask(mag_spec=True)` (torchiva/models/glu.py:140-177) as the source model of a separation, every call with the same draws of the dropout (`keep`, the same for all
entries).  In training mode the buffers are written but not read, so the state is left out; one frame of one source, which raises, is
not distinguished. -/
noncomputable def gluSource {K pool k : ℕ} [NeZero pool] (logSpec : Bool) (net : GluNet F K F pool k) (training keep : Bool) : SourceModel Unit F N :=
  fun _ _ Y => (gluMaskMag logSpec (fun x => (net.forward training (fun _ _ _ => keep) x).1) Y, ())

/-- torchiva/models/simple.py:22-23: the parameters of `nn.Linear`. -/
structure Linear (I O : ℕ) where
  weight : Fin O → Fin I → ℝ
  bias : Fin O → ℝ

/-- torchiva/models/simple.py:38, 41: `nn.Linear` on one vector. -/
noncomputable def Linear.apply (l : Linear I O) (x : Fin I → ℝ) : Fin O → ℝ := fun o => l.bias o + ∑ i, l.weight o i * x i

/-- torchiva/models/simple.py:7-23: the layers of `SimpleModel`; `mel` is the filter bank of `MelScale`. -/
structure SimpleNet (F M H : ℕ) where
  mel : Fin F → Fin M → ℝ
  hidden : Linear M H
  output : Linear H F
  eps : ℝ

/-- torchiva/models/simple.py:25-51 `SimpleModel.forward`. -/
noncomputable def SimpleNet.forward {M H : ℕ} (net : SimpleNet F M H) (X : Sig B F N) : Weights B F N :=
  simpleMask net.eps (fun X b f n =>
    let power : Fin F → ℝ := fun f => ‖X b f n‖ ^ 2
    let mel : Fin M → ℝ := fun m => ∑ f, power f * net.mel f m
    let logMel : Fin M → ℝ := fun m => 10 * Real.logb 10 (net.eps + mel m)
    net.output.apply (net.hidden.apply logMel) f) X

/-! ## Recurrent networks -/

/-- The hyperbolic tangent used inside `nn.LSTM` (torchiva/models/blstm.py:32-38, 115-121), on one element. -/
noncomputable def tanhR (x : ℝ) : ℝ := (Real.exp x - Real.exp (-x)) / (Real.exp x + Real.exp (-x))

/-- torchiva/models/blstm.py:32-38, 115-121: the parameters of one direction of one layer of `nn.LSTM`, as torch documents them, for the input, forget, cell and output gates; `bias` is the sum of the two
biases of torch. -/
structure LstmCell (I H : ℕ) where
  wi : Fin 4 → Fin H → Fin I → ℝ
  wh : Fin 4 → Fin H → Fin H → ℝ
  bias : Fin 4 → Fin H → ℝ

/-- One step of the `nn.LSTM` of torchiva/models/blstm.py:76, 137, by torch's documented equations: state `(h, c)` and input. -/
noncomputable def LstmCell.step {H : ℕ} (l : LstmCell I H) (s : (Fin H → ℝ) × (Fin H → ℝ)) (x : Fin I → ℝ) : (Fin H → ℝ) × (Fin H → ℝ) :=
  let a : Fin 4 → Fin H → ℝ := fun g j => ∑ i, l.wi g j i * x i + ∑ i, l.wh g j i * s.1 i + l.bias g j
  let c : Fin H → ℝ := fun j => sigmoid (a 1 j) * s.2 j + sigmoid (a 0 j) * tanhR (a 2 j)
  (fun j => sigmoid (a 3 j) * tanhR (c j), c)

/-- The state of the `nn.LSTM` of torchiva/models/blstm.py:76, 137 after the first `t` inputs of a sequence, from the zero state (no state is passed). -/
noncomputable def LstmCell.state {H : ℕ} (l : LstmCell I H) (x : Fin N → Fin I → ℝ) : ℕ → (Fin H → ℝ) × (Fin H → ℝ)
  | 0 => (0, 0)
  | t + 1 => if h : t < N then l.step (l.state x t) (x ⟨t, h⟩) else l.state x t

/-- torchiva/models/blstm.py:37, 120: the two directions of one layer. -/
structure BiLstm (I H : ℕ) where
  forward : LstmCell I H
  backward : LstmCell I H

/-- torchiva/models/blstm.py:76, 137: one bidirectional layer of `nn.LSTM` on a tensor of shape `(frames, batch, features)`: both directions, concatenated. -/
noncomputable def BiLstm.apply {H : ℕ} (l : BiLstm I H) (x : Fin N → Fin B → Fin I → ℝ) : Fin N → Fin B → Fin (H + H) → ℝ := fun n b =>
  Fin.append (l.forward.state (fun t => x t b) (n.1 + 1)).1 (l.backward.state (fun t => x t.rev b) (n.rev.1 + 1)).1

/-- torchiva/models/blstm.py:32-38, 115-121: the layers of `nn.LSTM(bidirectional=True)`.  Simplification: any number of layers (`BLSTMMask` has
three, `MaskMVDRSupport` has `n_layers`). -/
structure Blstm (I H : ℕ) where
  first : BiLstm I H
  rest : List (BiLstm (H + H) H)

/-- torchiva/models/blstm.py:36, 119: the layers after the first one, each preceded by dropout. -/
noncomputable def blstmRest {H : ℕ} (p : ℝ) (training : Bool) : List (BiLstm (H + H) H) → (ℕ → Fin N → Fin B → Fin (H + H) → Bool) →
    (Fin N → Fin B → Fin (H + H) → ℝ) → Fin N → Fin B → Fin (H + H) → ℝ
  | [], _, x => x
  | l :: ls, keep, x => blstmRest p training ls (fun i => keep (i + 1)) (l.apply fun n b j =>
      if training then (if keep 0 n b j then x n b j / (1 - p) else 0) else x n b j)

/-- torchiva/models/blstm.py:76, 137: `nn.LSTM(bidirectional=True, dropout=p)` on a tensor of shape `(frames, batch, features)`, with zero initial states. -/
noncomputable def Blstm.apply {H : ℕ} (l : Blstm I H) (p : ℝ) (training : Bool) (keep : ℕ → Fin N → Fin B → Fin (H + H) → Bool)
    (x : Fin N → Fin B → Fin I → ℝ) : Fin N → Fin B → Fin (H + H) → ℝ := blstmRest p training l.rest keep (l.first.apply x)

/-- torchiva/models/blstm.py:10-45: the layers of `BLSTMMask`; the output layer is a convolution with kernel size one. -/
structure BlstmNet (F I H : ℕ) where
  blstm : Blstm I H
  output : Linear (H + H) F
  dropoutP : ℝ

/-- torchiva/models/blstm.py:74-79: permutation to `(frames, batch, features)`, recurrent layers, permutation back, output layer. -/
noncomputable def BlstmNet.forward {H : ℕ} (net : BlstmNet F I H) (training : Bool) (keep : ℕ → Fin N → Fin B → Fin (H + H) → Bool)
    (x : Fin B → Fin I → Fin N → ℝ) : Fin B → Fin F → Fin N → ℝ :=
  let y := net.blstm.apply net.dropoutP training keep fun n b i => x b i n
  fun b f n => net.output.apply (y n b) f

/-- torchiva/models/blstm.py:59-64: mel features of the power, with an optional logarithm (`mag_spec=True`). -/
noncomputable def melPower {M : ℕ} (mel : Fin F → Fin M → ℝ) (logSpec : Bool) (X : Sig B F N) : Fin B → Fin M → Fin N → ℝ := fun b m n =>
  let p := ∑ f, magSq (X b f n) * mel f m
  if logSpec then Real.log (p + 1e-7) else p

/-- torchiva/models/blstm.py:65-72: mel features of the real and imaginary parts, stacked (`mag_spec=False`). -/
noncomputable def melReIm {M : ℕ} (mel : Fin F → Fin M → ℝ) (X : Sig B F N) : Fin B → Fin (M + M) → Fin N → ℝ := fun b i n =>
  Fin.append (fun m => ∑ f, (X b f n).re * mel f m) (fun m => ∑ f, (X b f n).im * mel f m) i

/-- torchiva/models/blstm.py:50-87 `BLSTMMask.forward` for `mag_spec=True`. -/
noncomputable def blstmForwardMag {M H : ℕ} (mel : Fin F → Fin M → ℝ) (logSpec : Bool) (net : BlstmNet F M H) (training : Bool)
    (keep : ℕ → Fin N → Fin B → Fin (H + H) → Bool) (X : Sig B F N) : Weights B F N :=
  blstmMask (fun X => net.forward training keep (melPower mel logSpec X)) X

/-- torchiva/models/blstm.py:50-87 `BLSTMMask.forward` for `mag_spec=False`. -/
noncomputable def blstmForwardReIm {M H : ℕ} (mel : Fin F → Fin M → ℝ) (net : BlstmNet F (M + M) H) (training : Bool)
    (keep : ℕ → Fin N → Fin B → Fin (H + H) → Bool) (X : Sig B F N) : Weights B F N :=
  blstmMask (fun X => net.forward training keep (melReIm mel X)) X

/-- torchiva/models/blstm.py:98-123: the layers of `MaskMVDRSupport`. -/
structure SupportNet (F H S M : ℕ) where
  blstm : Blstm F H
  ff1 : Linear (H + H) (H + H)
  ff2 : Linear (H + H) (M * S * F)
  dropoutP : ℝ
  eps : ℝ

/-- torchiva/models/blstm.py:125-155 `MaskMVDRSupport.forward`. -/
noncomputable def SupportNet.forward {H S M : ℕ} (net : SupportNet F H S M) (training : Bool) (keep : ℕ → Fin N → Fin B → Fin (H + H) → Bool)
    (X : Sig B F N) : Fin B → Fin S → Fin M → Fin F → Fin N → ℝ :=
  maskMvdrSupport net.eps (fun X b j n =>
    let y := net.blstm.apply net.dropoutP training keep fun n b f => Real.log (1 + ‖X b f n‖)
    net.ff2.apply (fun i => max (net.ff1.apply (y n b) i) 0) j) X

end Torchiva
