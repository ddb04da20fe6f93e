import Verif.Model.Stored
import Verif.Proofs.Eig2
import Verif.Spec.Linalg

/-!
# C144: what rounding the stored eigenvalues does to the result of `eigh_2x2`
-/

namespace Torchiva.Props

open Matrix _root_.Spec

/-- **C144**: when storing changes nothing (the default dtype is at least as precise as the matrices) the function is the
one modelled elsewhere, so its eigenpairs are exact. -/
theorem eigh_2x2_stored_exact (store : ℝ → ℝ) (hs : ∀ x, store x = x) (A B : Matrix (Fin 2) (Fin 2) ℂ) (eps : ℝ) :
    eigh2x2GenStored store A B eps = eigh2x2Gen A B eps := by
  unfold eigh2x2GenStored eigh2x2Gen
  simp only [hs]

example (A B : Matrix (Fin 2) (Fin 2) ℂ) : eigh2x2GenStored id A B 0 = eigh2x2Gen A B 0 :=
  eigh_2x2_stored_exact id (fun _ => rfl) A B 0

/-- **C144** (violated): for every conversion that changes some positive number to another positive number (such as
rounding to single precision) there are matrices for which `eigh_2x2` returns a pair that is not an eigenpair, although
it would be with exact storage. -/
theorem eigh_2x2_stored_violated (store : ℝ → ℝ) (x : ℝ) (hx : 0 < x) (h1 : store x ≠ x) (h2 : store x ≠ 0) :
    ∃ (A B : Matrix (Fin 2) (Fin 2) ℂ) (r : EigRes (Fin 2)), A.IsHermitian ∧ B = 1 ∧
      eigh2x2GenStored store A B 0 = .ok r ∧ ¬ IsEigenpair A B (r.val 1) (fun i => r.vec i 1) ∧
      ∃ r', eigh2x2Gen A B 0 = .ok r' ∧ IsEigenpair A B (r'.val 1) (fun i => r'.vec i 1) := by
  have hx2 : (x / 2 : ℂ) ≠ 0 := by
    have : (x : ℂ) ≠ 0 := by exact_mod_cast hx.ne'
    simpa using this
  have hdet : clampMin ((1 : ℝ) * 1 - magSq (0 : ℂ)) 0 = 1 := by simp [clampMin, magSq_eq]
  have gen : ∀ st : ℝ → ℝ, ∃ r, eigh2x2GenStored st !![(x / 2 : ℂ), x / 2; x / 2, x / 2] 1 0 = .ok r ∧
      r.val 1 = st x ∧ ∃ s : ℝ, s ≠ 0 ∧ r.vec 0 1 = -(x / 2) / s ∧ r.vec 1 1 = (x / 2 - st x) / s := by
    intro st
    have hb : (x / 2 : ℂ).re = x / 2 := by
      rw [show (x / 2 : ℂ) = ((x / 2 : ℝ) : ℂ) by push_cast; rfl, Complex.ofReal_re]
    have hi : (x / 2 : ℂ).im = 0 := by
      rw [show (x / 2 : ℂ) = ((x / 2 : ℝ) : ℂ) by push_cast; rfl, Complex.ofReal_im]
    have hm : magSq (x / 2 : ℂ) = (x / 2) ^ 2 := by
      rw [magSq_eq, show (x / 2 : ℂ) = ((x / 2 : ℝ) : ℂ) by push_cast; rfl, Complex.norm_real, Real.norm_eq_abs, sq_abs]
    have hsq : √(max ((x / 2 * 1 + x / 2 * 1 - 2 * (x / 2 * 0 + 0 * 0)) ^ 2 -
        4 * ((x / 2 * (x / 2) - (x / 2) ^ 2) * (1 * 1 - magSq 0))) 0) = x := by
      have e : (x / 2 * 1 + x / 2 * 1 - 2 * (x / 2 * 0 + 0 * 0)) ^ 2 -
        4 * ((x / 2 * (x / 2) - (x / 2) ^ 2) * (1 * 1 - magSq 0)) = x ^ 2 := by ring
      rw [e, max_eq_left (by positivity), Real.sqrt_sq hx.le]
    have hun : eigh2x2GenStored st !![(x / 2 : ℂ), x / 2; x / 2, x / 2] 1 0 =
        normalizeCols ![st 0, st x] !![-(x / 2 : ℂ), -(x / 2); x / 2 - st 0, x / 2 - st x] 0 := by
      have e1 : (0.5 : ℝ) * ((x / 2 * 1 + x / 2 * 1 - 2 * (x / 2 * 0 + 0 * 0)) - x) = 0 := by ring
      have e2 : (0.5 : ℝ) * ((x / 2 * 1 + x / 2 * 1 - 2 * (x / 2 * 0 + 0 * 0)) + x) = x := by ring
      unfold eigh2x2GenStored
      simp only [of_apply, cons_val', cons_val_zero, cons_val_one, one_apply_eq, Complex.one_re,
        show (1 : Matrix (Fin 2) (Fin 2) ℂ) 0 1 = 0 from rfl, Complex.zero_re, Complex.zero_im, hb, hi, hm, clampMin,
        cons_val_fin_one]
      simp only [clampMin] at hdet
      rw [hsq, e1, e2, hdet, if_neg one_ne_zero]
      simp
    obtain ⟨r, hr⟩ := normalizeCols_total ![st 0, st x]
      !![-(x / 2 : ℂ), -(x / 2); x / 2 - st 0, x / 2 - st x] 0
      (.inr fun j => ⟨0, by fin_cases j <;> simpa using hx.ne'⟩)
    obtain ⟨hv, hcol⟩ := normalizeCols_ok hr
    refine ⟨r, hun.trans hr, by rw [hv]; rfl, _, (hcol 1).1, ?_, ?_⟩
    · rw [(hcol 1).2 0]; rfl
    · rw [(hcol 1).2 1]; rfl
  have crit : ∀ (l s : ℝ) (v : Fin 2 → ℂ), s ≠ 0 → v 0 = -(x / 2) / s → v 1 = (x / 2 - l) / s →
      (IsEigenpair !![(x / 2 : ℂ), x / 2; x / 2, x / 2] 1 l v ↔ l * (l - x) = 0) := by
    intro l s v hs h0 h1
    have hs' : (s : ℂ) ≠ 0 := by exact_mod_cast hs
    unfold IsEigenpair
    rw [one_mulVec]
    constructor
    · intro h
      have h := congrFun h 1
      simp only [mulVec, dotProduct, Fin.sum_univ_two, of_apply, cons_val', cons_val_zero, cons_val_one,
        cons_val_fin_one, Pi.smul_apply, smul_eq_mul, h0, h1] at h
      field_simp at h
      have h' : (l : ℂ) * (l - x) = 0 := by linear_combination (1 / 4 : ℂ) * h
      exact_mod_cast h'
    · intro h
      have h' : (l : ℂ) * (l - x) = 0 := by exact_mod_cast h
      funext i
      fin_cases i
      · simp only [mulVec, dotProduct, Fin.sum_univ_two, of_apply, cons_val', cons_val_zero, cons_val_one,
          cons_val_fin_one, Pi.smul_apply, smul_eq_mul, h0, h1, Fin.zero_eta, Fin.isValue]
        field_simp
        ring
      · simp only [mulVec, dotProduct, Fin.sum_univ_two, of_apply, cons_val', cons_val_zero, cons_val_one,
          cons_val_fin_one, Pi.smul_apply, smul_eq_mul, h0, h1, Fin.mk_one, Fin.isValue]
        field_simp
        linear_combination 4 * h'
  obtain ⟨r, hr, hv, s, hs, k0, k1⟩ := gen store
  obtain ⟨r', hr', hv', s', hs', k0', k1'⟩ := gen fun y => y
  refine ⟨_, _, r, ?_, rfl, hr, ?_, r', ?_, ?_⟩
  · ext i j
    fin_cases i <;> fin_cases j <;> simp
  · rw [crit _ s _ hs k0 (by rw [hv]; exact k1), hv]
    exact mul_ne_zero h2 (sub_ne_zero.2 h1)
  · rw [← eigh_2x2_stored_exact (fun y => y) (fun _ => rfl)]
    exact hr'
  · rw [crit _ s' _ hs' k0' (by rw [hv']; exact k1'), hv']
    ring

/-- Rounding to multiples of 1/8 above one is such a conversion. -/
example : ∃ store : ℝ → ℝ, store (1 + 1 / 3) ≠ 1 + 1 / 3 ∧ store (1 + 1 / 3) ≠ 0 :=
  ⟨fun y => (⌊8 * y⌋ : ℝ) / 8, by
    have : ⌊8 * (1 + 1 / 3 : ℝ)⌋ = 10 := by rw [Int.floor_eq_iff]; norm_num
    simp only [this]; norm_num⟩

/-- **C144** (partial): how wrong the eigenvalues can be: if storing changes numbers by a relative error of at most `u`
(single precision: `2⁻²⁴`), so does `eigh_2x2` to the eigenvalues it returns.  Missing: no error at all. -/
theorem eigh_2x2_stored_error_partial (store : ℝ → ℝ) (u : ℝ) (hu : ∀ y, |store y - y| ≤ u * |y|)
    (A B : Matrix (Fin 2) (Fin 2) ℂ) (eps : ℝ) (r r' : EigRes (Fin 2)) (h : eigh2x2GenStored store A B eps = .ok r)
    (h' : eigh2x2Gen A B eps = .ok r') (k : Fin 2) : |r.val k - r'.val k| ≤ u * |r'.val k| := by
  unfold eigh2x2GenStored at h
  unfold eigh2x2Gen at h'
  simp only at h h'
  split_ifs at h h' with hd
  have e := (normalizeCols_ok h).1
  have e' := (normalizeCols_ok h').1
  have key : ∀ y d : ℝ, |store y / d - y / d| ≤ u * |y / d| := by
    intro y d
    rw [← sub_div, abs_div, abs_div, ← mul_div_assoc]
    exact div_le_div_of_nonneg_right (hu y) (abs_nonneg d)
  rw [e, e']
  fin_cases k
  · exact key _ _
  · exact key _ _

/-- The bound holds for storage without error and for storage in a tenth more. -/
example : (∀ y : ℝ, |id y - y| ≤ 0 * |y|) ∧ ∀ y : ℝ, |(1.1 * y) - y| ≤ 0.1 * |y| := by
  constructor
  · intro y; simp
  · intro y
    rw [show 1.1 * y - y = 0.1 * y by ring, abs_mul]
    norm_num

end Torchiva.Props
