import Verif.Model.FftConv
import Mathlib.Analysis.SpecialFunctions.Trigonometric.Basic

/-!
# Model of torchiva/stft.py

One real signal.  `torch.stft` / `torch.istft` (with `center=True`, `pad_mode="reflect"`,
`normalized=False`, `onesided=True`, no `length`) are transcribed from their documentation with exact
transforms.
-/

namespace Torchiva

/-! ## Constructor -/

/-- torchiva/stft.py:33, 47-57: The `window` argument: `None`, a name or a custom array/tensor of some length. -/
inductive WindowArg
  | none
  | name (s : String)
  | custom (len : ℕ)

/-- torchiva/stft.py:29-63 `STFT.__init__`: result is the name of the window.  `known` are the names
accepted by `scipy.signal.get_window` (others raise `ValueError`).  For a custom window line 54 assigns to
`window_type`, a property without setter. -/
def stftInit (known : String → Bool) : WindowArg → Except Err String
  | .none => if known "hann" then .ok "hann" else .error .valueError
  | .name s => if known s then .ok s else .error .valueError
  | .custom _ => .error .attributeError

/-! ## Transform -/

/-- torchiva/stft.py:95, 117: `hop_length=None` means `n_fft // 4` in `torch.stft` and `torch.istft`. -/
def hopOf (nFft : ℕ) (hop : Option ℕ) : ℕ := hop.getD (nFft / 4)

/-- torchiva/stft.py:92-98: Reflection padding by `p` on both sides of `n` samples: source index of padded position `i`. -/
def reflectIdx (n p i : ℕ) : ℕ :=
  if i < p then p - i
  else if i < p + n then i - p
  else 2 * (n - 1) - (i - p)

/-- torchiva/stft.py:92-98: Number of frames of `torch.stft`. -/
def stftFrames (nFft hop n : ℕ) : ℕ := 1 + (n + 2 * (nFft / 2) - nFft) / hop

/-- torchiva/stft.py:85-104 `STFT.forward` on one signal: frames `m`, bins `k` (`0..n_fft//2`).
Raises `RuntimeError` when the reflection padding is not smaller than the signal or when
`hop_length` is zero. -/
noncomputable def stftForward (nFft : ℕ) (hop : Option ℕ) (w : Fin nFft → ℝ) {n : ℕ}
    (x : Fin n → ℝ) : Except Err (Fin (stftFrames nFft (hopOf nFft hop) n) → ℕ → ℂ) :=
  let h := hopOf nFft hop
  let p := nFft / 2
  if n ≤ p ∨ h = 0 then .error .runtimeError
  else .ok fun m k =>
    rfft (fun j : Fin nFft => w j *
      (if hi : reflectIdx n p (m * h + j) < n then x ⟨reflectIdx n p (m * h + j), hi⟩ else 0)) nFft k

/-- torchiva/stft.py:114-120: Number of samples returned by `torch.istft`. -/
def istftLen (nFft hop frames : ℕ) : ℕ := nFft + hop * (frames - 1) - 2 * (nFft / 2)

/-- torchiva/stft.py:106-123 `STFT.inv` on one signal: windowed overlap-add divided by the overlap-added
squared window, after removing `n_fft//2` samples on each side.  Raises `RuntimeError` when the
squared-window envelope is not above 1e-11 everywhere in the kept range, or the hop is invalid. -/
noncomputable def stftInv (nFft : ℕ) (hop : Option ℕ) (w : Fin nFft → ℝ) {frames : ℕ}
    (Z : Fin frames → ℕ → ℂ) :
    Except Err (Fin (istftLen nFft (hopOf nFft hop) frames) → ℝ) :=
  let h := hopOf nFft hop
  let p := nFft / 2
  let at_ : (Fin nFft → ℝ) → Fin frames → ℕ → ℝ := fun v m i =>
    if hi : m * h ≤ i ∧ i - m * h < nFft then v ⟨i - m * h, hi.2⟩ else 0
  let env : ℕ → ℝ := fun i => ∑ m, at_ (fun j => w j ^ 2) m i
  open Classical in
  if frames = 0 ∨ h = 0 ∨ nFft < h then .error .runtimeError
  else if ∀ i : Fin (istftLen nFft h frames), 1e-11 < |env (p + i)| then
    .ok fun i => (∑ m, at_ (fun j => w j * irfft (Z m) nFft j) m (p + i)) / env (p + i)
  else .error .runtimeError

/-- torchiva/stft.py:48, 52: `scipy.signal.get_window("hann", n)` (periodic Hann window). -/
noncomputable def hann (n : ℕ) : Fin n → ℝ := fun j => 0.5 - 0.5 * Real.cos (2 * Real.pi * j / n)

end Torchiva
