import Verif.Model.TensorScaling
import Verif.Model.Pipeline

/-!
# The STFT and `BSSSeparator.forward` on tensors

torchiva/stft.py and torchiva/nn.py, statement by statement, on recordings with any number of batch dimensions.
`torch.stft` and `torch.istft` are transcribed from their documentation, with exact transforms, for a two-dimensional
batch of signals.
-/

namespace Torchiva

/-- torchiva/stft.py:92-98: `torch.stft` of the rows of a matrix. -/
noncomputable def torchStftT (nFft : ℕ) (hop : Option ℕ) (w : Fin nFft → ℝ) (x : Ten ℝ) : Except Err (Ten ℂ) :=
  match x.shape with
  | [n, rows] =>
    let h := hopOf nFft hop
    if n ≤ nFft / 2 ∨ h = 0 then .error .runtimeError
    else .ok ⟨[stftFrames nFft h n, nFft / 2 + 1, rows], fun idx =>
      let frame := idx.getD 0 0
      let bin := idx.getD 1 0
      let row := idx.getD 2 0
      rfft (fun j : Fin nFft =>
        let i := reflectIdx n (nFft / 2) (frame * h + j)
        w j * if i < n then x.val [i, row] else 0) nFft bin⟩
  | _ => .error .runtimeError

/-- torchiva/stft.py:85-104 `STFT.forward`. -/
noncomputable def stftT (nFft : ℕ) (hop : Option ℕ) (w : Fin nFft → ℝ) (x : Ten ℝ) : Except Err (Ten ℂ) :=
  match x.shape with
  | n :: b => do
    let x ← flatT x [n]
    let X ← torchStftT nFft hop w x
    X.reshape (X.shape.take 2 ++ b)
  | [] => .error .indexError

open Classical in
/-- torchiva/stft.py:114-120: `torch.istft` of the matrices of a three-dimensional tensor. -/
noncomputable def torchIstftT (nFft : ℕ) (hop : Option ℕ) (w : Fin nFft → ℝ) (X : Ten ℂ) : Except Err (Ten ℝ) :=
  match X.shape with
  | [frames, bins, rows] =>
    let h := hopOf nFft hop
    let p := nFft / 2
    -- the value of frame `m`, starting at `m * h`, at position `i`
    let at_ : (Fin nFft → ℝ) → ℕ → ℕ → ℝ := fun v m i =>
      if hi : m * h ≤ i ∧ i - m * h < nFft then v ⟨i - m * h, hi.2⟩ else 0
    let env : ℕ → ℝ := fun i => ∑ m ∈ Finset.range frames, at_ (fun j => w j ^ 2) m i
    if bins ≠ nFft / 2 + 1 ∨ frames = 0 ∨ h = 0 ∨ nFft < h then .error .runtimeError
    else if ∀ i, i < istftLen nFft h frames → 1e-11 < |env (p + i)| then
      .ok ⟨[istftLen nFft h frames, rows], fun idx =>
        let i := idx.getD 0 0
        let row := idx.getD 1 0
        (∑ m ∈ Finset.range frames, at_ (fun j => w j *
          irfft (fun q => if q < bins then X.val [m, q, row] else 0) nFft j) m (p + i)) / env (p + i)⟩
    else .error .runtimeError
  | _ => .error .runtimeError

/-- torchiva/stft.py:106-123 `STFT.inv`. -/
noncomputable def istftT (nFft : ℕ) (hop : Option ℕ) (w : Fin nFft → ℝ) (X : Ten ℂ) : Except Err (Ten ℝ) :=
  match X.shape with
  | n :: f :: b => do
    let X ← flatT X [n, f]
    let x ← torchIstftT nFft hop w X
    x.reshape (x.shape.take 1 ++ b)
  | _ => .error .valueError

/-- torchiva/nn.py:171-176: zero padding or truncation to the length of the input. -/
def fixLengthT (n : ℕ) (y : Ten ℝ) : Except Err (Ten ℝ) :=
  match y.shape with
  | m :: b =>
    if m < n then Ten.cat 0 y ⟨(n - m) :: b, fun _ => 0⟩
    else if n < m then y.take 0 n
    else .ok y
  | [] => .error .indexError

/-- torchiva/nn.py:159-178 `BSSSeparator.forward`; `sep` is line 165, with the source model in the state left by lines
155-157. -/
noncomputable def separateT (nFft : ℕ) (hop : Option ℕ) (w : Fin nFft → ℝ) (sep : Ten ℂ → Except Err (Ten ℂ)) (x : Ten ℝ) :
    Except Err (Ten ℝ) :=
  match x.shape with
  | n :: _ :: _ => do
    let X ← stftT nFft hop w x
    let Y ← sep X
    let y ← istftT nFft hop w Y
    fixLengthT n y
  | _ => .error .valueError

end Torchiva
