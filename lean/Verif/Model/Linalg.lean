import Verif.Model.Torch
import Mathlib.LinearAlgebra.Matrix.Hermitian

/-!
# Model of torchiva/linalg.py
-/

namespace Torchiva

open Matrix

variable {ι κ μ : Type} [Fintype ι] [DecidableEq ι]

/-! ## Element-wise helpers -/

/-- torchiva/linalg.py:37, 55, 76: One element of a real (`re`) or complex (`cx`) tensor; the tag is what
`torch.is_complex` / `dtype in complex_types` inspects. -/
inductive Elem
  | re (x : ℝ)
  | cx (z : ℂ)

/-- torchiva/linalg.py:31-32 `divide`, one element.  Only meaningful when
`max denom eps ≠ 0` (all call sites below except `eigh_2x2` have `eps > 0`;
`eigh2x2` checks for zero explicitly). -/
noncomputable def divide (num : ℂ) (denom eps : ℝ) : ℂ := num / (clampMin denom eps : ℝ)

/-- torchiva/linalg.py:35-51 `multiply`, one element.  The mixed case goes through
`view_as_real`, i.e. it multiplies the two components separately. -/
noncomputable def multiply : Elem → Elem → Elem
  | .cx a, .cx b => .cx (a * b)
  | .re a, .re b => .re (a * b)
  | .cx a, .re b => .cx ⟨a.re * b, a.im * b⟩
  | .re a, .cx b => .cx ⟨b.re * a, b.im * a⟩

/-- torchiva/linalg.py:54-58 `mag_sq`, one element. -/
noncomputable def magSqE : Elem → ℝ
  | .cx z => z.re ^ 2 + z.im ^ 2
  | .re x => x ^ 2

/-- torchiva/linalg.py:61-62 `mag`, one element. -/
noncomputable def magE (x : Elem) : ℝ := √(magSqE x)

/-- torchiva/linalg.py:54-56: `mag_sq` on a complex element (the only case used by the algorithms). -/
noncomputable def magSq (z : ℂ) : ℝ := magSqE (.cx z)

/-- torchiva/linalg.py:65-72 `bmm`: complex matrix product through the real and
imaginary parts. -/
noncomputable def bmm [Fintype κ] (m1 : Matrix ι κ ℂ) (m2 : Matrix κ μ ℂ) : Matrix ι μ ℂ :=
  let m1r : Matrix ι κ ℝ := Matrix.of fun i j => (m1 i j).re
  let m1i : Matrix ι κ ℝ := Matrix.of fun i j => (m1 i j).im
  let m2r : Matrix κ μ ℝ := Matrix.of fun i j => (m2 i j).re
  let m2i : Matrix κ μ ℝ := Matrix.of fun i j => (m2 i j).im
  let realPart := m1r * m2r - m1i * m2i
  let imagPart := m1r * m2i + m1i * m2r
  fun i j => ⟨realPart i j, imagPart i j⟩

/-- torchiva/linalg.py:75-79 `hermite` on the last two dimensions of a tensor. -/
def hermiteE (A : Matrix ι κ Elem) : Matrix κ ι Elem := fun i j =>
  match A j i with
  | .cx z => .cx (star z)
  | .re x => .re x

/-! ## Loaded linear solves -/

/-- torchiva/linalg.py:82-88 `solve_loaded`. -/
noncomputable def solveLoaded (A : Matrix ι ι ℂ) (b : Matrix ι κ ℂ) (load : ℝ) :
    Except Err (Matrix ι κ ℂ) := do
  let m ← maxAbs A
  let loadFactor := clampMin (load * m) load
  solve (A + (loadFactor : ℂ) • (1 : Matrix ι ι ℂ)) b

/-- torchiva/linalg.py:110-116 `inv_loaded`. -/
noncomputable def invLoaded (A : Matrix ι ι ℂ) (load : ℝ) : Except Err (Matrix ι ι ℂ) := do
  let m ← maxAbs A
  let loadFactor := clampMin (load * m) load
  inv (A + (loadFactor : ℂ) • (1 : Matrix ι ι ℂ))

/-- torchiva/linalg.py:96-97: `1 / clamp(norm(A, dim=-1), min=eps)` for row `k`. -/
noncomputable def rowWeight (A : Matrix κ ι ℂ) (eps : ℝ) (k : κ) : ℝ :=
  1 / clampMin (√(∑ j, ‖A k j‖ ^ 2)) eps

/-- torchiva/linalg.py:91-107 `solve_loaded_general`. -/
noncomputable def solveLoadedGeneral [Fintype κ] (A : Matrix κ ι ℂ) (b : Matrix κ μ ℂ)
    (load eps : ℝ) : Except Err (Matrix ι μ ℂ) :=
  let A2 : Matrix κ ι ℂ := fun k j => A k j * (rowWeight A eps k : ℂ)
  let b2 : Matrix κ μ ℂ := fun k j => b k j * (rowWeight A eps k : ℂ)
  let AA : Matrix ι ι ℂ := fun m n => ∑ k, star (A2 k m) * A2 k n
  let Ab : Matrix ι μ ℂ := fun m n => ∑ k, star (A2 k m) * b2 k n
  solve (AA + (load : ℂ) • (1 : Matrix ι ι ℂ)) Ab

/-! ## 2x2 routines -/

/-- torchiva/linalg.py:119-122: A matrix whose shape is only known at run time. -/
structure DynMat where
  rows : ℕ
  cols : ℕ
  val : Matrix (Fin rows) (Fin cols) ℂ

/-- torchiva/linalg.py:124-140: body of `inv_2x2` after the shape check.
`pt.stack((pt.stack((W22, -W21), -1), pt.stack((-W12, W11), -1)), -1)`: the inner
stacks are the columns of the result, so entry (i,j) is the `i`-th element of the `j`-th
inner stack. -/
noncomputable def inv2x2Core (W : Matrix (Fin 2) (Fin 2) ℂ) (eps : ℝ) :
    Matrix (Fin 2) (Fin 2) ℂ :=
  let W11 := W 0 0
  let W21 := W 1 0
  let W12 := W 0 1
  let W22 := W 1 1
  let det := W11 * W22 - W12 * W21
  let det' : ℂ := open Classical in if ‖det‖ < eps then (eps : ℂ) else det
  let inner : Fin 2 → Fin 2 → ℂ := ![![W22, -W21], ![-W12, W11]]
  fun i j => inner j i / det'

/-- torchiva/linalg.py:119-140 `inv_2x2`. -/
noncomputable def inv2x2 (W : DynMat) (eps : ℝ) : Except Err (Matrix (Fin 2) (Fin 2) ℂ) :=
  if W.cols ≠ W.rows ∨ W.cols ≠ 2 then .error .valueError
  else if h : W.rows = 2 ∧ W.cols = 2 then
    .ok (inv2x2Core (fun i j => W.val (Fin.cast h.1.symm i) (Fin.cast h.2.symm j)) eps)
  else .error .valueError

/-- torchiva/linalg.py:143-149 `diagonal_loading`: reads the undefined global `eps`
before anything else can be returned. -/
def diagonalLoading (_A : Matrix ι ι ℂ) (_d : ι → ℂ) : Except Err (Matrix ι ι ℂ) :=
  .error .nameError

/-- torchiva/linalg.py:308-312: Result of an eigendecomposition: eigenvalues and the matrix whose columns are
the eigenvectors. -/
structure EigRes (n : Type) where
  val : n → ℝ
  vec : Matrix n n ℂ

/-- torchiva/linalg.py:250-253: column normalisation shared by both branches.
A zero divisor (`eps = 0` and a zero column) yields nan, reported as `nonFinite`. -/
noncomputable def normalizeCols (vals : Fin 2 → ℝ) (V : Matrix (Fin 2) (Fin 2) ℂ) (eps : ℝ) :
    Except Err (EigRes (Fin 2)) :=
  let norm : Fin 2 → ℝ := fun j => √(∑ i, magSq (V i j))
  open Classical in
  if clampMin (norm 0) eps = 0 ∨ clampMin (norm 1) eps = 0 then .error .nonFinite
  else .ok ⟨vals, fun i j => divide (V i j) (norm j) eps⟩

/-- torchiva/linalg.py:161-218: generalised branch of `eigh_2x2` (complex dtype, so
line 182 is the branch taken for `re_a12b12c`). -/
noncomputable def eigh2x2Gen (A B : Matrix (Fin 2) (Fin 2) ℂ) (eps : ℝ) :
    Except Err (EigRes (Fin 2)) :=
  let a11 := A 0 0
  let a12 := A 0 1
  let a22 := A 1 1
  let b11 := B 0 0
  let b12 := B 0 1
  let b22 := B 1 1
  let a11b22 := a11.re * b22.re
  let a22b11 := a22.re * b11.re
  let re_a12b12c := a12.re * b12.re + a12.im * b12.im
  let b := a11b22 + a22b11 - 2 * re_a12b12c
  let detA := a11.re * a22.re - magSq a12
  let detB := b11.re * b22.re - magSq b12
  let c := detA * detB
  let delta := clampMin (b ^ 2 - 4 * c) eps
  open Classical in
  if clampMin detB eps = 0 then .error .nonFinite else
  let ev1 := (0.5 * (b - √delta)) / clampMin detB eps
  let ev2 := (0.5 * (b + √delta)) / clampMin detB eps
  let V : Matrix (Fin 2) (Fin 2) ℂ :=
    !![(ev1 : ℂ) * b12 - a12, (ev2 : ℂ) * b12 - a12;
       a11 - (ev1 : ℂ) * b11, a11 - (ev2 : ℂ) * b11]
  normalizeCols ![ev1, ev2] V eps

/-- torchiva/linalg.py:220-248: plain branch of `eigh_2x2`. -/
noncomputable def eigh2x2Plain (A : Matrix (Fin 2) (Fin 2) ℂ) (eps : ℝ) :
    Except Err (EigRes (Fin 2)) :=
  let trace := (A 0 0).re + (A 1 1).re
  let det := (A 0 0).re * (A 1 1).re - magSq (A 0 1)
  let delta := clampMin (trace ^ 2 - 4 * det) eps
  let ev1 := 0.5 * (trace - √delta)
  let ev2 := 0.5 * (trace + √delta)
  let V : Matrix (Fin 2) (Fin 2) ℂ :=
    !![(ev1 : ℂ) - A 1 1, A 1 0;
       A 0 1, (ev2 : ℂ) - A 0 0]
  normalizeCols ![ev1, ev2] V eps

/-- torchiva/linalg.py:152-253 `eigh_2x2` on matrices of run-time shape
(`broadcast_tensors` acts on batch dimensions only and is not modelled). -/
noncomputable def eigh2x2 (A : DynMat) (B : Option DynMat) (eps : ℝ) :
    Except Err (EigRes (Fin 2)) :=
  if hA : A.rows = 2 ∧ A.cols = 2 then
    let A' : Matrix (Fin 2) (Fin 2) ℂ := fun i j => A.val (Fin.cast hA.1.symm i) (Fin.cast hA.2.symm j)
    match B with
    | some B =>
      if hB : B.rows = 2 ∧ B.cols = 2 then
        eigh2x2Gen A' (fun i j => B.val (Fin.cast hB.1.symm i) (Fin.cast hB.2.symm j)) eps
      else .error .assertionError
    | none => eigh2x2Plain A' eps
  else .error .assertionError

/-! ## General eigendecomposition -/

/-- torchiva/linalg.py:256-269: Contract of `torch.linalg.eigh` (LAPACK): on a Hermitian matrix it returns ascending
eigenvalues and orthonormal eigenvectors.  Which basis is returned (phases, multiplicities)
is unspecified, so the solver is a parameter of everything that uses it. -/
structure EighContract (n : ℕ) (solver : Matrix (Fin n) (Fin n) ℂ → EigRes (Fin n)) : Prop where
  ascending : ∀ A, A.IsHermitian → Monotone (solver A).val
  orthonormal : ∀ A, A.IsHermitian → (solver A).vecᴴ * (solver A).vec = 1
  eigen : ∀ A, A.IsHermitian →
    A * (solver A).vec = (solver A).vec * diagonal (fun i => ((solver A).val i : ℂ))

/-- torchiva/linalg.py:290-292: `B_sqrt_inv`. -/
noncomputable def bSqrtInv {n : ℕ} (solver : Matrix (Fin n) (Fin n) ℂ → EigRes (Fin n))
    (B : Matrix (Fin n) (Fin n) ℂ) : Matrix (Fin n) (Fin n) ℂ :=
  let r := solver B
  let s : Fin n → ℝ := fun i => √(clampMin (r.val i) 1e-5)
  r.vec * Matrix.of fun i j => ((1 / s i : ℝ) : ℂ) * r.vecᴴ i j

/-- torchiva/linalg.py:286-302: generalised decomposition for sizes other than two. -/
noncomputable def eighGen {n : ℕ} (solver : Matrix (Fin n) (Fin n) ℂ → EigRes (Fin n))
    (A B : Matrix (Fin n) (Fin n) ℂ) : EigRes (Fin n) :=
  let S := bSqrtInv solver B
  let M := S * A * Sᴴ
  let r := solver M
  let V := Sᴴ * r.vec
  ⟨r.val, fun i j => V i j / (clampMin (√(∑ k, ‖V k j‖ ^ 2)) 1e-5 : ℝ)⟩

/-- torchiva/linalg.py:272-312 `eigh` (square inputs of equal size; CPU/GPU placement is
not modelled). -/
noncomputable def eigh {n : ℕ} (solver : Matrix (Fin n) (Fin n) ℂ → EigRes (Fin n))
    (A : Matrix (Fin n) (Fin n) ℂ) (B : Option (Matrix (Fin n) (Fin n) ℂ)) (eps : ℝ) :
    Except Err (EigRes (Fin n)) :=
  if h : n = 2 then
    (eigh2x2 ⟨n, n, A⟩ (B.map fun B => ⟨n, n, B⟩) eps).map fun r =>
      ⟨fun i => r.val (Fin.cast h i), fun i j => r.vec (Fin.cast h i) (Fin.cast h j)⟩
  else match B with
    | some B => .ok (eighGen solver A B)
    | none => .ok (solver A)

end Torchiva
