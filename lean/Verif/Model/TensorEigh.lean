import Verif.Model.TensorLinalg

/-!
# Eigendecompositions on tensors

`eigh_2x2`, `eigh` and `bmm` of torchiva/linalg.py, statement by statement, on tensors with any number of
leading dimensions.  `torch.linalg.eigh` is a parameter that decomposes one matrix at a time.
-/

namespace Torchiva

/-- torchiva/linalg.py:265, 269: what `torch.linalg.eigh` does with one matrix. -/
abbrev Solver := (n : ℕ) → Matrix (Fin n) (Fin n) ℂ → EigRes (Fin n)

/-- torchiva/linalg.py:308-312: eigenvalues and eigenvectors. -/
structure EigT where
  val : Ten ℝ
  vec : Ten ℂ

/-- torchiva/linalg.py:256-269 `eigh_wrapper`: `torch.linalg.eigh` on every matrix. -/
noncomputable def eighWrapperT (solver : Solver) (A : Ten ℂ) : Except Err EigT :=
  match A.shape with
  | n :: n' :: s =>
    if n = n' then
      .ok ⟨⟨n :: s, fun idx =>
          if h : idx.headD 0 < n then (solver n (matAt A n idx.tail)).val ⟨idx.headD 0, h⟩ else 0⟩,
        ⟨n :: n :: s, fun idx =>
          if h : idx.getD 1 0 < n ∧ idx.getD 0 0 < n then
            (solver n (matAt A n (idx.drop 2))).vec ⟨idx.getD 1 0, h.1⟩ ⟨idx.getD 0 0, h.2⟩
          else 0⟩⟩
    else .error .runtimeError
  | _ => .error .runtimeError

/-- torchiva/linalg.py:75-77 `hermite` of a complex tensor. -/
def hermiteT (A : Ten ℂ) : Except Err (Ten ℂ) := do
  let t ← A.swap01
  .ok (t.map star)

/-- For instance torchiva/linalg.py:171: `A[..., i, j]`. -/
def Ten.at2 {α : Type} (i j : ℕ) (A : Ten α) : Except Err (Ten α) := do
  let r ← A.sel 1 i
  r.sel 0 j

/-- torchiva/linalg.py:250-253: the columns of the eigenvectors are normalised. -/
noncomputable def normalizeColsT (vals : Ten ℝ) (V : Ten ℂ) (eps : ℝ) : Except Err EigT := do
  let q ← Ten.sumKeep 1 (magSqT V)
  let norm := q.map fun x => √x
  let U ← Ten.div V (norm.map fun x => clampMin x eps).toC
  .ok ⟨vals, U⟩

/-- torchiva/linalg.py:161-218 and 250-253: `eigh_2x2` of two complex tensors. -/
noncomputable def eigh2x2GenT (A B : Ten ℂ) (eps : ℝ) : Except Err EigT := do
  let s ← bcast A.shape B.shape
  let A : Ten ℂ := ⟨s, A.read⟩
  let B : Ten ℂ := ⟨s, B.read⟩
  let a11 ← A.at2 0 0
  let a12 ← A.at2 0 1
  let a22 ← A.at2 1 1
  let b11 ← B.at2 0 0
  let b12 ← B.at2 0 1
  let b22 ← B.at2 1 1
  let re : Ten ℂ → Ten ℝ := Ten.map Complex.re
  let im : Ten ℂ → Ten ℝ := Ten.map Complex.im
  let a11b22 ← Ten.map2 (fun x y => x * y) (re a11) (re b22)
  let a22b11 ← Ten.map2 (fun x y => x * y) (re a22) (re b11)
  let r1 ← Ten.map2 (fun x y => x * y) (re a12) (re b12)
  let r2 ← Ten.map2 (fun x y => x * y) (im a12) (im b12)
  let re_a12b12c ← Ten.map2 (fun x y => x + y) r1 r2
  let b0 ← Ten.map2 (fun x y => x + y) a11b22 a22b11
  let b ← Ten.map2 (fun x y => x - 2 * y) b0 re_a12b12c
  let dA ← Ten.map2 (fun x y => x * y) (re a11) (re a22)
  let detA ← Ten.map2 (fun x y => x - y) dA (magSqT a12)
  let dB ← Ten.map2 (fun x y => x * y) (re b11) (re b22)
  let detB ← Ten.map2 (fun x y => x - y) dB (magSqT b12)
  let c ← Ten.map2 (fun x y => x * y) detA detB
  let delta0 ← Ten.map2 (fun x y => x ^ 2 - 4 * y) b c
  let delta := delta0.map fun x => clampMin x eps
  let z : Ten ℝ := ⟨s.tail, fun _ => 0⟩
  let e1 ← Ten.map2 (fun x y => 0.5 * (x - √y)) b delta
  let z ← z.setSel 0 0 e1
  let e2 ← Ten.map2 (fun x y => 0.5 * (x + √y)) b delta
  let z ← z.setSel 0 1 e2
  let d ← detB.unsq 0
  let vals ← Ten.div z (d.map fun x => clampMin x eps)
  let ev1 ← vals.sel 0 0
  let ev2 ← vals.sel 0 1
  let V : Ten ℂ := Ten.zeros s
  let m1 ← Ten.map2 (fun x y => x * y) ev1.toC b12
  let v ← Ten.map2 (fun x y => x - y) m1 a12
  let V ← V.setLast2 0 0 v
  let m2 ← Ten.map2 (fun x y => x * y) ev1.toC b11
  let v ← Ten.map2 (fun x y => x - y) a11 m2
  let V ← V.setLast2 1 0 v
  let m3 ← Ten.map2 (fun x y => x * y) ev2.toC b12
  let v ← Ten.map2 (fun x y => x - y) m3 a12
  let V ← V.setLast2 0 1 v
  let m4 ← Ten.map2 (fun x y => x * y) ev2.toC b11
  let v ← Ten.map2 (fun x y => x - y) a11 m4
  let V ← V.setLast2 1 1 v
  normalizeColsT vals V eps

/-- torchiva/linalg.py:220-253: `eigh_2x2` of one complex tensor. -/
noncomputable def eigh2x2PlainT (A : Ten ℂ) (eps : ℝ) : Except Err EigT := do
  let a11 ← A.at2 0 0
  let a12 ← A.at2 0 1
  let a21 ← A.at2 1 0
  let a22 ← A.at2 1 1
  let re : Ten ℂ → Ten ℝ := Ten.map Complex.re
  let trace ← Ten.map2 (fun x y => x + y) (re a11) (re a22)
  let d ← Ten.map2 (fun x y => x * y) (re a11) (re a22)
  let det ← Ten.map2 (fun x y => x - y) d (magSqT a12)
  let delta0 ← Ten.map2 (fun x y => x ^ 2 - 4 * y) trace det
  let delta := delta0.map fun x => clampMin x eps
  let z : Ten ℝ := ⟨A.shape.tail, fun _ => 0⟩
  let e1 ← Ten.map2 (fun x y => 0.5 * (x - √y)) trace delta
  let z ← z.setSel 0 0 e1
  let e2 ← Ten.map2 (fun x y => 0.5 * (x + √y)) trace delta
  let vals ← z.setSel 0 1 e2
  let V : Ten ℂ := Ten.zeros A.shape
  let V ← V.setLast2 1 0 a12
  let ev1 ← vals.sel 0 0
  let v ← Ten.map2 (fun x y => x - y) ev1.toC a22
  let V ← V.setLast2 0 0 v
  let ev2 ← vals.sel 0 1
  let v ← Ten.map2 (fun x y => x - y) ev2.toC a11
  let V ← V.setLast2 1 1 v
  let V ← V.setLast2 0 1 a21
  normalizeColsT vals V eps

/-- torchiva/linalg.py:152-253 `eigh_2x2` (complex tensors). -/
noncomputable def eigh2x2T (A : Ten ℂ) (B : Option (Ten ℂ)) (eps : ℝ) : Except Err EigT :=
  if A.shape.getD 0 0 = 2 ∧ A.shape.getD 1 0 = 2 then
    match B with
    | some B =>
      if B.shape.getD 0 0 = 2 ∧ B.shape.getD 1 0 = 2 then eigh2x2GenT A B eps else .error .assertionError
    | none => eigh2x2PlainT A eps
  else .error .assertionError

/-- torchiva/linalg.py:290-292: `B_sqrt_inv`. -/
noncomputable def bSqrtInvT (solver : Solver) (B : Ten ℂ) : Except Err (Ten ℂ) := do
  let r ← eighWrapperT solver B
  let s := r.val.map fun x => √(clampMin x 1e-5)
  let sc ← s.unsq 0
  let h ← hermiteT r.vec
  let m ← Ten.map2 (fun x y => x * y) (sc.map fun x => 1 / x).toC h
  Ten.matmul r.vec m

/-- torchiva/linalg.py:289-302: the generalised decomposition for sizes other than two. -/
noncomputable def eighGenT (solver : Solver) (A B : Ten ℂ) : Except Err EigT := do
  let S ← bSqrtInvT solver B
  let SA ← Ten.matmul S A
  let SH ← hermiteT S
  let M ← Ten.matmul SA SH
  let r ← eighWrapperT solver M
  let V ← Ten.matmul SH r.vec
  -- torch.linalg.norm(eigenvectors, dim=-2, keepdim=True)
  let q ← Ten.sumKeep 1 (V.map fun z => ‖z‖ ^ 2)
  let norm := q.map fun x => √x
  let U ← Ten.map2 (fun x d => x / (d : ℂ)) V (norm.map fun x => clampMin x 1e-5)
  .ok ⟨r.val, U⟩

/-- torchiva/linalg.py:272-312 `eigh`. -/
noncomputable def eighT (solver : Solver) (A : Ten ℂ) (B : Option (Ten ℂ)) (eps : ℝ) : Except Err EigT :=
  if A.shape = [] then .error .indexError
  else if A.shape.headD 0 = 2 then eigh2x2T A B eps
  else match B with
    | some B => if A.shape = B.shape then eighGenT solver A B else .error .assertionError
    | none => eighWrapperT solver A

/-- torchiva/linalg.py:65-72 `bmm`: the complex product through the real and imaginary parts. -/
noncomputable def bmmT (A B : Ten ℂ) : Except Err (Ten ℂ) := do
  let re : Ten ℂ → Ten ℝ := Ten.map Complex.re
  let im : Ten ℂ → Ten ℝ := Ten.map Complex.im
  let rr ← Ten.matmul (re A) (re B)
  let ii ← Ten.matmul (im A) (im B)
  let realPart ← Ten.map2 (fun x y => x - y) rr ii
  let ri ← Ten.matmul (re A) (im B)
  let ir ← Ten.matmul (im A) (re B)
  let imagPart ← Ten.map2 (fun x y => x + y) ri ir
  Ten.map2 (fun x y => (⟨x, y⟩ : ℂ)) realPart imagPart

end Torchiva
