import Verif.Model.Torch
import Mathlib.Analysis.SpecialFunctions.Complex.CircleAddChar

/-!
# Model of torchiva/fftconvolve.py

One pair of real signals of lengths `n1`, `n2` (the last dimension; the transpositions of the
`dim` argument and the batch dimensions are not modelled).  FFT routines are the exact transforms.
-/

namespace Torchiva

/-- torchiva/fftconvolve.py:46-47: `torch.fft.rfft(x, n=n)` for `n ≥ len(x)`: zero-pads to `n` samples; bin `k` (the code only uses
bins `0..n//2`). -/
noncomputable def rfft {m : ℕ} (x : Fin m → ℝ) (n : ℕ) (k : ℕ) : ℂ :=
  ∑ j : Fin n, (if h : j.1 < m then (x ⟨j, h⟩ : ℂ) else 0) *
    Complex.exp (-(2 * Real.pi * Complex.I * (j.1 * k) / n))

/-- torchiva/fftconvolve.py:50: `torch.fft.irfft(Z, n=n)`: only bins `0..n//2` of `Z` are used, the others are filled by
Hermitian symmetry, the imaginary parts of bin `0` and (for even `n`) bin `n/2` are ignored. -/
noncomputable def irfft (Z : ℕ → ℂ) (n : ℕ) (m : ℕ) : ℝ :=
  let full : ℕ → ℂ := fun k =>
    if k = 0 ∨ 2 * k = n then ((Z k).re : ℂ)
    else if 2 * k < n then Z k
    else star (Z (n - k))
  ((1 / n : ℂ) * ∑ k : Fin n, full k * Complex.exp (2 * Real.pi * Complex.I * (m * k.1) / n)).re

/-- torchiva/fftconvolve.py:24-71 `fftconvolve` on two nonempty real signals. -/
noncomputable def fftconvolve {n1 n2 : ℕ} (x1 : Fin n1 → ℝ) (x2 : Fin n2 → ℝ) (mode : String) :
    Except Err (List ℝ) :=
  let n := n1 + n2 - 1
  let X1 := rfft x1 n
  let X2 := rfft x2 n
  let y := (List.range n).map (irfft (fun k => X1 k * X2 k) n)
  if mode = "full" then .ok ((y.take n).drop 0)
  else if mode = "same" then
    let retlen := n1
    let startind := (n - retlen) / 2
    .ok ((y.take (startind + retlen)).drop startind)
  else if mode = "valid" then
    let validLen := max n1 n2 - min n1 n2 + 1
    let startind := (n - validLen) / 2
    .ok ((y.take (startind + validLen)).drop startind)
  else .error .valueError

end Torchiva
