import Verif.Model.Linalg
import Verif.Spec.Linalg
import Mathlib.LinearAlgebra.Matrix.PosDef

/-! # Helper lemmas: ridge regression, loaded solves -/

namespace Torchiva

open Matrix Spec
open scoped ComplexOrder

variable {ι κ μ : Type} [Fintype ι] [DecidableEq ι] [Fintype κ]

lemma norm_sq_add (a b : ℂ) : ‖a + b‖ ^ 2 = ‖a‖ ^ 2 + ‖b‖ ^ 2 + 2 * (star b * a).re := by
  simp only [Complex.sq_norm, Complex.normSq_apply, Complex.star_def, Complex.add_re, Complex.add_im,
    Complex.mul_re, Complex.conj_re, Complex.conj_im]
  ring

/-- Completing the square for the ridge cost. -/
lemma ridge_expand (w : κ → ℝ) (A : Matrix κ ι ℂ) (b : κ → ℂ) (load : ℝ) (x y : ι → ℂ)
    (h : ∀ j, ∑ k, star (A k j) * ((w k : ℂ) ^ 2 * ((A *ᵥ x) k - b k)) + (load : ℂ) * x j = 0) :
    ridgeCost w A b load y = ridgeCost w A b load x
      + ∑ k, w k ^ 2 * ‖(A *ᵥ (y - x)) k‖ ^ 2 + load * ∑ j, ‖(y - x) j‖ ^ 2 := by
  set d := y - x with hd
  have hy : y = x + d := by simp [hd]
  have key : ∑ k, w k ^ 2 * (2 * (star ((A *ᵥ d) k) * ((A *ᵥ x) k - b k)).re)
      + load * ∑ j, 2 * (star (d j) * x j).re = 0 := by
    have h2 : ∑ j, star (d j) *
        (∑ k, star (A k j) * ((w k : ℂ) ^ 2 * ((A *ᵥ x) k - b k)) + (load : ℂ) * x j) = 0 := by
      exact Finset.sum_eq_zero fun j _ => by rw [h j, mul_zero]
    have h3 : ∑ k, ((w k : ℂ) ^ 2 * (star ((A *ᵥ d) k) * ((A *ᵥ x) k - b k)))
        + (load : ℂ) * ∑ j, star (d j) * x j = 0 := by
      rw [← h2]
      simp only [mul_add, Finset.sum_add_distrib, Finset.mul_sum]
      congr 1
      · rw [Finset.sum_comm]
        refine Finset.sum_congr rfl fun k _ => ?_
        simp only [mulVec, dotProduct, star_sum, star_mul', Finset.sum_mul, Finset.mul_sum]
        refine Finset.sum_congr rfl fun j _ => ?_
        ring
      · refine Finset.sum_congr rfl fun j _ => ?_
        ring
    have h4 := congrArg Complex.re h3
    simp only [Complex.add_re, Complex.re_sum, Complex.zero_re, ← Complex.ofReal_pow,
      Complex.re_ofReal_mul] at h4
    have : 2 * (∑ k, w k ^ 2 * (star ((A *ᵥ d) k) * ((A *ᵥ x) k - b k)).re
        + load * ∑ j, (star (d j) * x j).re) = 0 := by rw [h4]; simp
    rw [← this, mul_add]
    simp only [Finset.mul_sum]
    congr 1
    · exact Finset.sum_congr rfl fun k _ => by ring
    · exact Finset.sum_congr rfl fun k _ => by ring
  have e1 : ∀ k, ‖(A *ᵥ y) k - b k‖ ^ 2 = ‖(A *ᵥ x) k - b k‖ ^ 2 + ‖(A *ᵥ d) k‖ ^ 2
      + 2 * (star ((A *ᵥ d) k) * ((A *ᵥ x) k - b k)).re := by
    intro k
    rw [← norm_sq_add, hy, mulVec_add]
    congr 2
    simp only [Pi.add_apply]; ring
  have e2 : ∀ j, ‖y j‖ ^ 2 = ‖x j‖ ^ 2 + ‖d j‖ ^ 2 + 2 * (star (d j) * x j).re := by
    intro j
    rw [← norm_sq_add, hy]; simp
  unfold ridgeCost
  simp only [e1, e2, mul_add, Finset.sum_add_distrib] at key ⊢
  linarith [key]

lemma ridge_min (w : κ → ℝ) (A : Matrix κ ι ℂ) (b : κ → ℂ) (load : ℝ) (hl : 0 < load) (x : ι → ℂ)
    (h : ∀ j, ∑ k, star (A k j) * ((w k : ℂ) ^ 2 * ((A *ᵥ x) k - b k)) + (load : ℂ) * x j = 0) :
    IsUniqueMin (ridgeCost w A b load) x := by
  intro y
  have e := ridge_expand w A b load x y h
  have p1 : 0 ≤ ∑ k, w k ^ 2 * ‖(A *ᵥ (y - x)) k‖ ^ 2 := Finset.sum_nonneg fun k _ => by positivity
  have p2 : 0 ≤ ∑ j, ‖(y - x) j‖ ^ 2 := Finset.sum_nonneg fun k _ => by positivity
  refine ⟨by rw [e]; nlinarith [mul_nonneg hl.le p2], fun hEq => ?_⟩
  have : ∑ j, ‖(y - x) j‖ ^ 2 = 0 := by
    rw [hEq] at e
    have : load * ∑ j, ‖(y - x) j‖ ^ 2 = 0 := by nlinarith [mul_nonneg hl.le p2]
    rcases mul_eq_zero.1 this with h | h
    · linarith
    · exact h
  rw [Finset.sum_eq_zero_iff_of_nonneg (fun _ _ => by positivity)] at this
  funext j
  have := this j (Finset.mem_univ _)
  have h0 : (y - x) j = 0 := by simpa using this
  simpa [sub_eq_zero] using h0

lemma isUnit_det_of_posDef {M : Matrix ι ι ℂ} (h : M.PosDef) : IsUnit M.det :=
  (Matrix.isUnit_iff_isUnit_det M).1 h.isUnit

lemma posDef_load {load : ℝ} (hl : 0 < load) : ((load : ℂ) • (1 : Matrix ι ι ℂ)).PosDef :=
  Matrix.PosDef.one.smul (by exact_mod_cast hl)

omit [Fintype κ] in
lemma solve_spec {A : Matrix ι ι ℂ} (b : Matrix ι κ ℂ) (h : IsUnit A.det) :
    ∃ x, solve A b = .ok x ∧ A * x = b := by
  refine ⟨A⁻¹ * b, if_pos h, ?_⟩
  rw [← Matrix.mul_assoc, Matrix.mul_nonsing_inv _ h, Matrix.one_mul]

omit [Fintype κ] in
lemma solve_ok {A : Matrix ι ι ℂ} {b x : Matrix ι κ ℂ} (h : solve A b = .ok x) :
    IsUnit A.det ∧ A * x = b := by
  unfold solve at h
  split_ifs at h with hu
  · obtain rfl : A⁻¹ * b = x := by simpa using h
    refine ⟨hu, ?_⟩
    rw [← Matrix.mul_assoc, Matrix.mul_nonsing_inv _ hu, Matrix.one_mul]

omit [Fintype κ] in
lemma solve_ok_iff {A : Matrix ι ι ℂ} {b x : Matrix ι κ ℂ} :
    solve A b = .ok x ↔ IsUnit A.det ∧ A * x = b := by
  refine ⟨solve_ok, fun ⟨hu, hx⟩ => ?_⟩
  simp only [solve, hu, if_true]
  rw [← hx, ← Matrix.mul_assoc, Matrix.nonsing_inv_mul _ hu, Matrix.one_mul]

/-- `A2ᴴ A2 + load I` as built by `solve_loaded_general`. -/
noncomputable def gram (A : Matrix κ ι ℂ) (eps : ℝ) : Matrix ι ι ℂ := fun m n =>
  ∑ k, star (A k m * (rowWeight A eps k : ℂ)) * (A k n * (rowWeight A eps k : ℂ))

omit [DecidableEq ι] in
lemma gram_eq (A : Matrix κ ι ℂ) (eps : ℝ) :
    gram A eps = (Matrix.of fun k n => A k n * (rowWeight A eps k : ℂ))ᴴ
      * (Matrix.of fun k n => A k n * (rowWeight A eps k : ℂ)) := by
  ext i j
  simp [gram, Matrix.mul_apply]

lemma gram_load_posDef (A : Matrix κ ι ℂ) (eps : ℝ) {load : ℝ} (hl : 0 < load) :
    (gram A eps + (load : ℂ) • (1 : Matrix ι ι ℂ)).PosDef := by
  rw [gram_eq]
  exact Matrix.PosDef.posSemidef_add (Matrix.posSemidef_conjTranspose_mul_self _) (posDef_load hl)

lemma solveLoadedGeneral_normal (A : Matrix κ ι ℂ) (b : Matrix κ μ ℂ) (eps : ℝ) {load : ℝ}
    (hl : 0 < load) : ∃ x, solveLoadedGeneral A b load eps = .ok x ∧
      ∀ c j, ∑ k, star (A k j) * ((rowWeight A eps k : ℂ) ^ 2 * ((A *ᵥ (fun i => x i c)) k - b k c))
        + (load : ℂ) * x j c = 0 := by
  obtain ⟨x, hx, hs⟩ := solve_spec
    (A := gram A eps + (load : ℂ) • (1 : Matrix ι ι ℂ))
    (fun m n => ∑ k, star (A k m * (rowWeight A eps k : ℂ)) * (b k n * (rowWeight A eps k : ℂ)))
    (isUnit_det_of_posDef (gram_load_posDef A eps hl))
  refine ⟨x, hx, fun c j => ?_⟩
  rw [Matrix.add_mul, Matrix.smul_mul, Matrix.one_mul] at hs
  have h := congrFun (congrFun hs j) c
  simp only [Matrix.add_apply, Matrix.mul_apply, gram, Matrix.smul_apply, smul_eq_mul] at h
  have e : ∀ k, star (A k j) * ((rowWeight A eps k : ℂ) ^ 2 * ((A *ᵥ (fun i => x i c)) k - b k c))
      = (∑ i, star (A k j * (rowWeight A eps k : ℂ)) * (A k i * (rowWeight A eps k : ℂ)) * x i c)
        - star (A k j * (rowWeight A eps k : ℂ)) * (b k c * (rowWeight A eps k : ℂ)) := by
    intro k
    have hr : star ((rowWeight A eps k : ℝ) : ℂ) = ((rowWeight A eps k : ℝ) : ℂ) :=
      Complex.conj_ofReal _
    simp only [mulVec, dotProduct, star_mul', hr, mul_sub, Finset.mul_sum]
    congr 1
    · exact Finset.sum_congr rfl fun i _ => by ring
    · ring
  simp only [e, Finset.sum_sub_distrib]
  rw [← h]
  have : ∑ k, ∑ i, star (A k j * (rowWeight A eps k : ℂ)) * (A k i * (rowWeight A eps k : ℂ)) * x i c
    = ∑ i, (∑ k, star (A k j * (rowWeight A eps k : ℂ)) * (A k i * (rowWeight A eps k : ℂ))) * x i c := by
    rw [Finset.sum_comm]
    exact Finset.sum_congr rfl fun i _ => by rw [Finset.sum_mul]
  rw [this]
  ring

end Torchiva
