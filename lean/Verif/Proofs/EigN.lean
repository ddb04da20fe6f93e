import Verif.Proofs.Eig2
import Mathlib.Analysis.Matrix.Spectrum
import Mathlib.Data.Fin.Tuple.Sort

/-! # Helper lemmas for the n x n eigendecomposition -/

namespace Torchiva

open Matrix Spec

variable {n : ℕ}

/-- The contract of `torch.linalg.eigh` is satisfiable. -/
lemma eighContract_exists (n : ℕ) : ∃ solver, EighContract n solver := by
  classical
  refine ⟨fun A => if h : A.IsHermitian then
    ⟨fun i => h.eigenvalues (Tuple.sort h.eigenvalues i),
      Matrix.of fun i j =>
        (h.eigenvectorUnitary : Matrix (Fin n) (Fin n) ℂ) i (Tuple.sort h.eigenvalues j)⟩
    else ⟨0, 0⟩, ?_, ?_, ?_⟩
  · intro A h
    simp only [h, dite_true]
    exact Tuple.monotone_sort h.eigenvalues
  · intro A h
    simp only [h, dite_true]
    ext i j
    have hu : star (h.eigenvectorUnitary : Matrix (Fin n) (Fin n) ℂ) * h.eigenvectorUnitary = 1 :=
      Unitary.coe_star_mul_self _
    have := congrFun (congrFun hu (Tuple.sort h.eigenvalues i)) (Tuple.sort h.eigenvalues j)
    simp only [Matrix.mul_apply, Matrix.conjTranspose_apply, Matrix.star_apply,
      Matrix.of_apply] at this ⊢
    rw [this]
    simp [Matrix.one_apply]
  · intro A h
    simp only [h, dite_true]
    ext i j
    have := congrFun (h.mulVec_eigenvectorBasis (Tuple.sort h.eigenvalues j)) i
    rw [Matrix.mul_diagonal]
    simp only [Matrix.mul_apply, Matrix.of_apply]
    simp only [mulVec, dotProduct, Pi.smul_apply, Complex.real_smul] at this
    simp only [Matrix.IsHermitian.eigenvectorUnitary_apply]
    rw [this, mul_comm]

lemma orthonormal_col {V : Matrix (Fin n) (Fin n) ℂ} (h : Vᴴ * V = 1) (i : Fin n) :
    ∑ k, ‖V k i‖ ^ 2 = 1 := by
  have := congrFun (congrFun h i) i
  simp only [Matrix.mul_apply, Matrix.conjTranspose_apply, Matrix.one_apply_eq] at this
  have h2 : ((∑ k, ‖V k i‖ ^ 2 : ℝ) : ℂ) = 1 := by
    rw [← this]; push_cast
    exact Finset.sum_congr rfl fun k _ => by rw [Complex.star_def, Complex.conj_mul']
  exact_mod_cast h2

/-- Rayleigh quotient at an eigenvector. -/
lemma power_eigvec {A V : Matrix (Fin n) (Fin n) ℂ} {d : Fin n → ℝ} (h : Vᴴ * V = 1)
    (he : A * V = V * diagonal (fun i => (d i : ℂ))) (i : Fin n) :
    power A (fun k => V k i) = d i := by
  have hcol : A *ᵥ (fun k => V k i) = (d i : ℂ) • fun k => V k i := by
    funext k
    have := congrFun (congrFun he k) i
    rw [Matrix.mul_diagonal, Matrix.mul_apply] at this
    simp only [mulVec, dotProduct, Pi.smul_apply, smul_eq_mul]
    rw [this, mul_comm]
  unfold power
  rw [hcol, dotProduct_smul]
  have h1 : (star fun k => V k i) ⬝ᵥ (fun k => V k i) = 1 := by
    have := congrFun (congrFun h i) i
    simpa [Matrix.mul_apply, dotProduct] using this
  rw [h1]; simp

/-- Lower bound on the form bounds the eigenvalues returned by the solver. -/
lemma solver_val_ge {solver} (hc : EighContract n solver) {B : Matrix (Fin n) (Fin n) ℂ}
    (hB : B.IsHermitian) {m : ℝ} (hm : ∀ v, m * ∑ k, ‖v k‖ ^ 2 ≤ power B v) (i : Fin n) :
    m ≤ (solver B).val i := by
  have h := hm (fun k => (solver B).vec k i)
  rw [orthonormal_col (hc.orthonormal B hB), mul_one,
    power_eigvec (hc.orthonormal B hB) (hc.eigen B hB)] at h
  exact h

lemma bSqrtInv_eq (solver) (B : Matrix (Fin n) (Fin n) ℂ) :
    bSqrtInv solver B = (solver B).vec *
      diagonal (fun i => ((1 / √(clampMin ((solver B).val i) 1e-5) : ℝ) : ℂ)) * (solver B).vecᴴ := by
  rw [bSqrtInv, Matrix.mul_assoc]
  congr 1
  ext i j
  rw [Matrix.diagonal_mul]
  rfl

lemma bSqrtInv_hermitian (solver) (B : Matrix (Fin n) (Fin n) ℂ) :
    (bSqrtInv solver B)ᴴ = bSqrtInv solver B := by
  rw [bSqrtInv_eq]
  simp only [Matrix.conjTranspose_mul, Matrix.conjTranspose_conjTranspose, Matrix.mul_assoc,
    Matrix.diagonal_conjTranspose]
  congr 2
  ext i j
  by_cases h : i = j
  · subst h
    simp only [Matrix.diagonal_apply_eq, Pi.star_apply]
    exact Complex.conj_ofReal _
  · simp [Matrix.diagonal_apply_ne _ h]

/-- `S B S = 1` for `S = B^{-1/2}` when no eigenvalue is clamped. -/
lemma bSqrtInv_congr {solver} (hc : EighContract n solver) {B : Matrix (Fin n) (Fin n) ℂ}
    (hB : B.IsHermitian) (hm : ∀ i, 1e-5 ≤ (solver B).val i) :
    bSqrtInv solver B * B * bSqrtInv solver B = 1 := by
  set V := (solver B).vec
  have ho : Vᴴ * V = 1 := hc.orthonormal B hB
  have ho' : V * Vᴴ = 1 := mul_eq_one_comm.1 ho
  have he := hc.eigen B hB
  set D := diagonal (fun i => ((1 / √(clampMin ((solver B).val i) 1e-5) : ℝ) : ℂ))
  have h1 : B = V * diagonal (fun i => ((solver B).val i : ℂ)) * Vᴴ := by
    rw [← he, Matrix.mul_assoc, ho', Matrix.mul_one]
  have h2 : D * diagonal (fun i => ((solver B).val i : ℂ)) * D = 1 := by
    rw [Matrix.diagonal_mul_diagonal, Matrix.diagonal_mul_diagonal, ← Matrix.diagonal_one]
    congr 1
    funext i
    have hv : clampMin ((solver B).val i) 1e-5 = (solver B).val i := max_eq_left (hm i)
    have hp : 0 < (solver B).val i := lt_of_lt_of_le (by norm_num) (hm i)
    rw [hv, ← Complex.ofReal_mul, ← Complex.ofReal_mul]
    have : 1 / √((solver B).val i) * (solver B).val i * (1 / √((solver B).val i)) = 1 := by
      have hs := Real.mul_self_sqrt hp.le
      have : √((solver B).val i) ≠ 0 := (Real.sqrt_pos.2 hp).ne'
      field_simp
      nlinarith
    rw [this]; rfl
  rw [bSqrtInv_eq]
  change V * D * Vᴴ * B * (V * D * Vᴴ) = 1
  conv_lhs => rw [h1]
  calc V * D * Vᴴ * (V * diagonal (fun i => ((solver B).val i : ℂ)) * Vᴴ) * (V * D * Vᴴ)
      = V * (D * (Vᴴ * V) * diagonal (fun i => ((solver B).val i : ℂ)) * (Vᴴ * V) * D) * Vᴴ := by
        simp only [Matrix.mul_assoc]
    _ = 1 := by rw [ho, Matrix.mul_one, Matrix.mul_one, h2, Matrix.mul_one, ho']

/-- Eigenvector property and column norms of the generalised decomposition. -/
lemma eighGen_spec {solver} (hc : EighContract n solver) {A B : Matrix (Fin n) (Fin n) ℂ}
    (hA : A.IsHermitian) (hB : B.IsHermitian) (hm : ∀ i, 1e-5 ≤ (solver B).val i) :
    Monotone (eighGen solver A B).val ∧
    ∃ U : Matrix (Fin n) (Fin n) ℂ, Uᴴ * B * U = 1 ∧
      A * U = B * U * diagonal (fun i => ((eighGen solver A B).val i : ℂ)) ∧
      ∀ i j, (eighGen solver A B).vec i j
        = U i j / ((max (√(∑ k, ‖U k j‖ ^ 2)) 1e-5 : ℝ) : ℂ) := by
  set S := bSqrtInv solver B with hS
  have hSh : Sᴴ = S := bSqrtInv_hermitian solver B
  have hSB : S * B * S = 1 := bSqrtInv_congr hc hB hm
  have hM : (S * A * Sᴴ).IsHermitian := by
    unfold Matrix.IsHermitian
    rw [Matrix.conjTranspose_mul, Matrix.conjTranspose_mul, hSh, hSh, hA.eq, Matrix.mul_assoc]
  have hl : S * (B * S) = 1 := by rw [← Matrix.mul_assoc]; exact hSB
  have hr : (B * S) * S = 1 := mul_eq_one_comm.1 hl
  refine ⟨hc.ascending _ hM, Sᴴ * (solver (S * A * Sᴴ)).vec, ?_, ?_, fun i j => rfl⟩
  · have ho := hc.orthonormal _ hM
    rw [Matrix.conjTranspose_mul, hSh, hSh]
    rw [hSh] at ho
    calc _ = (solver (S * A * S)).vecᴴ * (S * B * S) * (solver (S * A * S)).vec := by
          simp only [Matrix.mul_assoc]
      _ = 1 := by rw [hSB, Matrix.mul_one, ho]
  · have he := hc.eigen _ hM
    change _ = _ * diagonal (fun i => ((solver (S * A * Sᴴ)).val i : ℂ))
    rw [hSh] at he ⊢
    set r := solver (S * A * S)
    calc A * (S * r.vec) = (B * S * S) * (A * (S * r.vec)) := by rw [hr, Matrix.one_mul]
      _ = B * S * (S * A * S * r.vec) := by simp only [Matrix.mul_assoc]
      _ = B * S * (r.vec * diagonal (fun i => (r.val i : ℂ))) := by rw [he]
      _ = B * (S * r.vec) * diagonal (fun i => (r.val i : ℂ)) := by simp only [Matrix.mul_assoc]

end Torchiva
