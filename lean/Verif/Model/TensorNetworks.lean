import Verif.Model.TensorTIss
import Verif.Model.TensorScaling
import Verif.Model.TensorBeamformer
import Verif.Model.Networks

/-!
# The neural source models on tensors

`GLUMask`, `BLSTMMask`, `SimpleModel` and `MaskMVDRSupport` of torchiva/models on signals with any number of batch
dimensions: they flatten all dimensions before frequencies and frames into one, apply their layers (Model/Networks) and
restore the dimensions.
-/

namespace Torchiva

/-- torchiva/models/glu.py:167-175, torchiva/models/blstm.py:76-85: the tensor of shape `(batch, features, frames)` that the layers
return. -/
def ofItems {B I N : ℕ} (r : Fin B → Fin I → Fin N → ℝ) : Ten ℝ := ⟨[N, I, B], fun idx =>
  if h : idx.getD 2 0 < B ∧ idx.getD 1 0 < I ∧ idx.getD 0 0 < N then
    r ⟨idx.getD 2 0, h.1⟩ ⟨idx.getD 1 0, h.2.1⟩ ⟨idx.getD 0 0, h.2.2⟩ else 0⟩

/-- torchiva/models/glu.py:142-145, 167-177, torchiva/models/blstm.py:52-55, 74-87, torchiva/models/simple.py:26-28, 49: flattening, the
layers `net`, the dimensions restored.  The layers reject another number of frequencies. -/
noncomputable def netT {τ : Type} {F : ℕ} (net : ∀ B N, Sig B F N → Except Err (Weights B F N × τ)) (X : Ten ℂ) :
    Except Err (Ten ℝ × τ) :=
  match X.shape with
  | N :: f :: bs => do
    let Xf ← flatT X [N, f]
    let B := Xf.shape.getD 2 0
    if f = F then do
      let r ← net B N fun b f n => Xf.val [(n : ℕ), (f : ℕ), (b : ℕ)]
      let w ← (ofItems r.1).reshape (N :: f :: bs)
      .ok (w, r.2)
    else .error .runtimeError
  | _ => .error .valueError

section
variable {F K pool k M H : ℕ}

/-- torchiva/models/glu.py:140-177 `GLUMask.forward` (`mag_spec=True`); `keep` holds the draws of the dropout, in training mode. -/
noncomputable def gluT [NeZero pool] (logSpec training : Bool) (keep : ∀ B N, Fin B → Fin K → Fin N → Bool) :
    TenModel (GluNet F K F pool k) := fun net X =>
  netT (fun B N x => gluForwardMag logSpec net training (keep B N) x) X

/-- torchiva/models/glu.py:140-177 `GLUMask.forward` (`mag_spec=False`). -/
noncomputable def gluReImT [NeZero pool] (logSpec training : Bool) (keep : ∀ B N, Fin B → Fin K → Fin N → Bool) :
    TenModel (GluNet (F + F) K F pool k) := fun net X =>
  netT (fun B N x => gluForwardReIm logSpec net training (keep B N) x) X

/-- torchiva/models/blstm.py:50-87 `BLSTMMask.forward` (`mag_spec=True`). -/
noncomputable def blstmT (mel : Fin F → Fin M → ℝ) (logSpec training : Bool)
    (keep : ∀ B N, ℕ → Fin N → Fin B → Fin (H + H) → Bool) : TenModel (BlstmNet F M H) := fun net X =>
  netT (fun B N x => .ok (blstmForwardMag mel logSpec net training (keep B N) x, net)) X

/-- torchiva/models/blstm.py:50-87 `BLSTMMask.forward` (`mag_spec=False`). -/
noncomputable def blstmReImT (mel : Fin F → Fin M → ℝ) (training : Bool)
    (keep : ∀ B N, ℕ → Fin N → Fin B → Fin (H + H) → Bool) : TenModel (BlstmNet F (M + M) H) := fun net X =>
  netT (fun B N x => .ok (blstmForwardReIm mel net training (keep B N) x, net)) X

/-- torchiva/models/simple.py:25-51 `SimpleModel.forward`. -/
noncomputable def simpleT : TenModel (SimpleNet F M H) := fun net X => netT (fun _ _ x => .ok (net.forward x, net)) X

/-- torchiva/models/blstm.py:133-148: `MaskMVDRSupport.forward` between flattening and line 151, on a tensor of shape
`(batch, n_freq, n_frames)`: features, recurrent layers, linear layers, sigmoid, offset. -/
noncomputable def SupportNet.features {B N S : ℕ} (net : SupportNet F H S M) (training : Bool)
    (keep : ℕ → Fin N → Fin B → Fin (H + H) → Bool) (X : Sig B F N) : Fin B → Fin (M * S * F) → Fin N → ℝ := fun b j n =>
  let y := net.blstm.apply net.dropoutP training keep fun n b f => Real.log (1 + ‖X b f n‖)
  (1 - net.eps) * sigmoid (net.ff2.apply (fun i => max (net.ff1.apply (y n b) i) 0) j) + net.eps

/-- torchiva/models/blstm.py:125-155 `MaskMVDRSupport.forward`. -/
noncomputable def supportT {S : ℕ} (net : SupportNet F H S M) (training : Bool)
    (keep : ∀ B N, ℕ → Fin N → Fin B → Fin (H + H) → Bool) : MaskT := fun X =>
  match X.shape with
  | N :: f :: b => do
    let Xf ← flatT X [N, f]
    let B := Xf.shape.getD 2 0
    if f = F then do
      let r := net.features training (keep B N) fun b f n => Xf.val [(n : ℕ), (f : ℕ), (b : ℕ)]
      -- X.reshape(batch_shape + X.shape[-2:])
      let w ← (ofItems r).reshape (N :: (M * S * F) :: b)
      -- X.reshape(X.shape[:-2] + (n_src, n_masks, -1) + X.shape[-1:])
      let rest := N * M * S * numel b
      if rest = 0 then .error .runtimeError
      else w.reshape (N :: (numel w.shape / rest) :: M :: S :: b)
    else .error .runtimeError
  | _ => .error .valueError

end

end Torchiva
