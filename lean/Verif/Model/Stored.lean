import Verif.Model.Linalg

/-!
# `eigh_2x2` with eigenvalues stored in a tensor of another precision
-/

namespace Torchiva

open Matrix

/-- torchiva/linalg.py:161-218: generalised branch of `eigh_2x2`, like `eigh2x2Gen`, but writing into the tensor of line 200
(torch's default dtype) converts the values of lines 201 and 202 by `store`. The other operations stay exact. -/
noncomputable def eigh2x2GenStored (store : ℝ → ℝ) (A B : Matrix (Fin 2) (Fin 2) ℂ) (eps : ℝ) :
    Except Err (EigRes (Fin 2)) :=
  let a11 := A 0 0
  let a12 := A 0 1
  let a22 := A 1 1
  let b11 := B 0 0
  let b12 := B 0 1
  let b22 := B 1 1
  let a11b22 := a11.re * b22.re
  let a22b11 := a22.re * b11.re
  let re_a12b12c := a12.re * b12.re + a12.im * b12.im
  let b := a11b22 + a22b11 - 2 * re_a12b12c
  let detA := a11.re * a22.re - magSq a12
  let detB := b11.re * b22.re - magSq b12
  let c := detA * detB
  let delta := clampMin (b ^ 2 - 4 * c) eps
  open Classical in
  if clampMin detB eps = 0 then .error .nonFinite else
  let ev1 := store (0.5 * (b - √delta)) / clampMin detB eps
  let ev2 := store (0.5 * (b + √delta)) / clampMin detB eps
  let V : Matrix (Fin 2) (Fin 2) ℂ :=
    !![(ev1 : ℂ) * b12 - a12, (ev2 : ℂ) * b12 - a12;
       a11 - (ev1 : ℂ) * b11, a11 - (ev2 : ℂ) * b11]
  normalizeCols ![ev1, ev2] V eps

end Torchiva
