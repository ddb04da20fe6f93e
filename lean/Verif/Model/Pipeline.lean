import Verif.Model.Stft
import Verif.Model.Objects
import Verif.Model.TIss

/-!
# Model of `BSSSeparator.forward` from recording to recordings: torchiva/nn.py, torchiva/stft.py

Unlike `sepForward`, which leaves the transforms abstract, the transforms are those of `Verif.Model.Stft` here.  One item of a batch;
the state of the source model is inside `sep`.
-/

namespace Torchiva

variable {C S n : ℕ}

/-- torchiva/stft.py:85-104 `STFT.forward` on all channels of one item: channel, frequency, frame. -/
noncomputable def stftAll (nFft : ℕ) (hop : Option ℕ) (w : Fin nFft → ℝ) (x : Fin C → Fin n → ℝ) :
    Except Err (Sig C (nFft / 2 + 1) (stftFrames nFft (hopOf nFft hop) n)) := do
  let Z ← seqAll fun c => stftForward nFft hop w (x c)
  .ok fun c f m => Z c m f

/-- torchiva/stft.py:106-123 `STFT.inv` on all channels of one item. -/
noncomputable def istftAll (nFft : ℕ) (hop : Option ℕ) (w : Fin nFft → ℝ) {frames : ℕ} (Y : Sig S (nFft / 2 + 1) frames) :
    Except Err (Fin S → Fin (istftLen nFft (hopOf nFft hop) frames) → ℝ) :=
  seqAll fun k => stftInv nFft hop w fun m q => if h : q < nFft / 2 + 1 then Y k ⟨q, h⟩ m else 0

/-- torchiva/nn.py:159-178 `BSSSeparator.forward` for one item with `n` samples; `sep` is line 165.  The result has `n` samples per channel
because of lines 171-176 (`fixLength`). -/
noncomputable def separateRecording (nFft : ℕ) (hop : Option ℕ) (w : Fin nFft → ℝ)
    (sep : Sig C (nFft / 2 + 1) (stftFrames nFft (hopOf nFft hop) n) →
      Except Err (Sig S (nFft / 2 + 1) (stftFrames nFft (hopOf nFft hop) n)))
    (x : Fin C → Fin n → ℝ) : Except Err (Fin S → Fin n → ℝ) := do
  let X ← stftAll nFft hop w x
  let Y ← sep X
  let y ← istftAll nFft hop w Y
  .ok fun k i => (fixLength (List.ofFn (y k)) n).getD i 0

end Torchiva
