import Verif.Model.GlobalScale
import Verif.Spec.GlobalScale
import Mathlib.Tactic.LinearCombination

/-!
# `adjust_global_scale` (C151)
-/

namespace Torchiva.Props

open Torchiva _root_.Spec

variable {F N : ℕ}

private lemma expand (Y ref : Fin F → Fin N → ℂ) (c : ℂ) : sqDist (fun f n => Y f n * c) ref =
    (∑ f, ∑ n, ‖ref f n‖ ^ 2) - 2 * (star c * ∑ f, ∑ n, star (Y f n) * ref f n).re + ‖c‖ ^ 2 * ∑ f, ∑ n, ‖Y f n‖ ^ 2 := by
  simp only [sqDist, Finset.mul_sum, Complex.re_sum, ← Finset.sum_sub_distrib, ← Finset.sum_add_distrib]
  refine Finset.sum_congr rfl fun f _ => Finset.sum_congr rfl fun n _ => ?_
  simp only [Complex.sq_norm, Complex.normSq_apply, Complex.sub_re, Complex.sub_im, Complex.mul_re, Complex.mul_im, Complex.star_def,
    Complex.conj_re, Complex.conj_im]
  ring

private lemma value (Y ref : Fin F → Fin N → ℂ) (h : 1e-7 ≤ spectrogramPower Y) :
    adjustGlobalScale Y ref = fun f n => Y f n * ((∑ f, ∑ n, star (Y f n) * ref f n) / ((∑ f, ∑ n, ‖Y f n‖ ^ 2 : ℝ) : ℂ)) := by
  have h0 : 0 < spectrogramPower Y := lt_of_lt_of_le (by norm_num) h
  have hM : (((F * N : ℕ) : ℝ)) ≠ 0 := fun h1 => by simp [spectrogramPower, h1] at h0
  have hMc : (((F * N : ℕ) : ℂ)) ≠ 0 := by exact_mod_cast hM
  have hS : ((∑ f, ∑ n, ‖Y f n‖ ^ 2 : ℝ) : ℂ) ≠ 0 := by
    have : (∑ f, ∑ n, ‖Y f n‖ ^ 2 : ℝ) ≠ 0 := fun h1 => by simp [spectrogramPower, h1] at h0
    exact_mod_cast this
  funext f n
  unfold adjustGlobalScale
  simp only [clampMin]
  rw [max_eq_left (show 1e-7 ≤ (∑ f, ∑ n, ‖Y f n‖ ^ 2) / ((F * N : ℕ) : ℝ) from h), Complex.ofReal_div, Complex.ofReal_natCast,
    div_div_div_cancel_right₀ hMc]

private lemma energy_pos (Y : Fin F → Fin N → ℂ) (h : 1e-7 ≤ spectrogramPower Y) : 0 < ∑ f, ∑ n, ‖Y f n‖ ^ 2 := by
  have h0 : 0 < spectrogramPower Y := lt_of_lt_of_le (by norm_num) h
  refine lt_of_le_of_ne (Finset.sum_nonneg fun _ _ => Finset.sum_nonneg fun _ _ => by positivity) fun h1 => ?_
  simp [spectrogramPower, ← h1] at h0

/-- **C151.**  For a signal of mean power at least `1e-7` the result is the multiple of the signal closest to the reference, and the
only one. -/
theorem global_scale_closest_partial (Y ref : Fin F → Fin N → ℂ) (h : 1e-7 ≤ spectrogramPower Y) :
    (∃ c : ℂ, adjustGlobalScale Y ref = fun f n => Y f n * c) ∧
    ∀ c : ℂ, sqDist (adjustGlobalScale Y ref) ref ≤ sqDist (fun f n => Y f n * c) ref ∧
      (sqDist (adjustGlobalScale Y ref) ref = sqDist (fun f n => Y f n * c) ref → (fun f n => Y f n * c) = adjustGlobalScale Y ref) := by
  rw [value Y ref h]
  have hS := energy_pos Y h
  set S : ℝ := ∑ f, ∑ n, ‖Y f n‖ ^ 2 with hSd
  set z : ℂ := ∑ f, ∑ n, star (Y f n) * ref f n with hz
  refine ⟨⟨_, rfl⟩, fun c => ?_⟩
  have key : sqDist (fun f n => Y f n * c) ref = sqDist (fun f n => Y f n * (z / (S : ℂ))) ref + S * ‖c - z / (S : ℂ)‖ ^ 2 := by
    rw [expand, expand, ← hz, ← hSd]
    have hzS : z = (S : ℂ) * (z / (S : ℂ)) := by
      have : (S : ℂ) ≠ 0 := by exact_mod_cast hS.ne'
      field_simp
    set d := z / (S : ℂ) with hd
    rw [hzS]
    simp only [Complex.sq_norm, Complex.normSq_apply, Complex.sub_re, Complex.sub_im, Complex.mul_re, Complex.mul_im, Complex.star_def,
      Complex.conj_re, Complex.conj_im, Complex.ofReal_re, Complex.ofReal_im]
    ring
  rw [key]
  refine ⟨by have := mul_nonneg hS.le (sq_nonneg ‖c - z / (S : ℂ)‖); linarith, fun he => ?_⟩
  have h1 : S * ‖c - z / (S : ℂ)‖ ^ 2 = 0 := by linarith
  have h2 : ‖c - z / (S : ℂ)‖ ^ 2 = 0 := (mul_eq_zero.1 h1).resolve_left hS.ne'
  rw [sub_eq_zero.1 (norm_eq_zero.1 (pow_eq_zero_iff (two_ne_zero)|>.1 h2))]

example : 1e-7 ≤ spectrogramPower (fun (f : Fin 2) (n : Fin 3) => (f.1 + n.1 : ℂ)) := by
  have : ∀ (f : Fin 2) (n : Fin 3), ‖((f.1 : ℂ) + n.1)‖ = f.1 + n.1 := fun f n => by
    rw [show ((f.1 : ℂ) + n.1) = ((f.1 + n.1 : ℕ) : ℂ) by push_cast; rfl, Complex.norm_natCast]; push_cast; rfl
  simp only [spectrogramPower, this]
  simp [Fin.sum_univ_two, Fin.sum_univ_three]
  norm_num

/-- **C151 violated.**  Below that power the result is not the closest multiple: no signal that is not silent, however faint, is returned
unchanged when it is its own reference. -/
theorem global_scale_closest_violated (Y : Fin F → Fin N → ℂ) (hne : Y ≠ 0) (h : spectrogramPower Y < 1e-7) :
    sqDist Y Y = 0 ∧ 0 < sqDist (adjustGlobalScale Y Y) Y := by
  refine ⟨by simp [sqDist], ?_⟩
  obtain ⟨f, hf⟩ := Function.ne_iff.1 hne
  obtain ⟨n, hn⟩ := Function.ne_iff.1 hf
  have hM : (((F * N : ℕ) : ℝ)) ≠ 0 := by
    have := f.pos; have := n.pos
    positivity
  set lam : ℝ := spectrogramPower Y / 1e-7 with hlam
  have hl : lam < 1 := by rw [hlam, div_lt_one (by norm_num)]; exact h
  have hv : adjustGlobalScale Y Y = fun f n => Y f n * (lam : ℂ) := by
    funext f n
    unfold adjustGlobalScale
    simp only [clampMin]
    rw [max_eq_right (show (∑ f, ∑ n, ‖Y f n‖ ^ 2) / ((F * N : ℕ) : ℝ) ≤ 1e-7 from h.le), hlam, spectrogramPower]
    have : ∀ f n, star (Y f n) * Y f n = ((‖Y f n‖ ^ 2 : ℝ) : ℂ) := fun f n => by
      rw [Complex.star_def, ← Complex.normSq_eq_conj_mul_self, Complex.sq_norm]
    simp only [this]
    push_cast
    rfl
  rw [hv]
  refine Finset.sum_pos' (fun _ _ => Finset.sum_nonneg fun _ _ => by positivity) ⟨f, Finset.mem_univ _, ?_⟩
  refine Finset.sum_pos' (fun _ _ => by positivity) ⟨n, Finset.mem_univ _, ?_⟩
  have : Y f n * (lam : ℂ) - Y f n ≠ 0 := by
    rw [show Y f n * (lam : ℂ) - Y f n = Y f n * ((lam : ℂ) - 1) by ring]
    refine mul_ne_zero hn (sub_ne_zero.2 ?_)
    exact_mod_cast hl.ne
  positivity

example : (fun (_ : Fin 1) (_ : Fin 1) => (1e-4 : ℂ)) ≠ 0 ∧ spectrogramPower (fun (_ : Fin 1) (_ : Fin 1) => (1e-4 : ℂ)) < 1e-7 := by
  refine ⟨fun h => ?_, ?_⟩
  · have := congrFun (congrFun h 0) 0
    norm_num at this
  · norm_num [spectrogramPower]

/-- **C151.**  Whatever the power, the result is a multiple of the signal at least as close to the reference as silence. -/
theorem global_scale_not_worse_than_silence (Y ref : Fin F → Fin N → ℂ) :
    (∃ c : ℂ, adjustGlobalScale Y ref = fun f n => Y f n * c) ∧ sqDist (adjustGlobalScale Y ref) ref ≤ sqDist 0 ref := by
  refine ⟨⟨_, rfl⟩, ?_⟩
  have h0 : sqDist 0 ref = ∑ f, ∑ n, ‖ref f n‖ ^ 2 := by simp [sqDist]
  rw [h0]
  unfold adjustGlobalScale
  simp only []
  rw [expand]
  set S : ℝ := ∑ f, ∑ n, ‖Y f n‖ ^ 2 with hSd
  set z : ℂ := ∑ f, ∑ n, star (Y f n) * ref f n with hz
  rcases Nat.eq_zero_or_pos (F * N) with hM | hM
  · simp [hM]
  have hMr : (0 : ℝ) < ((F * N : ℕ) : ℝ) := by exact_mod_cast hM
  set D : ℝ := clampMin (S / ((F * N : ℕ) : ℝ)) 1e-7 with hD
  have hD0 : 0 < D := lt_of_lt_of_le (by norm_num) (le_max_right _ _)
  have hDS : S ≤ D * ((F * N : ℕ) : ℝ) := (div_le_iff₀ hMr).1 (le_max_left _ _)
  have hc : z / ((F * N : ℕ) : ℂ) / (D : ℂ) = (((D * ((F * N : ℕ) : ℝ))⁻¹ : ℝ) : ℂ) * z := by
    push_cast
    rw [mul_inv]
    ring
  rw [hc]
  set t : ℝ := (D * ((F * N : ℕ) : ℝ))⁻¹ with ht
  have ht0 : 0 < t := by positivity
  have htS : t * S ≤ 1 := by
    rw [ht, inv_mul_le_iff₀ (by positivity), mul_one]; exact hDS
  have e1 : (star ((t : ℂ) * z) * z).re = t * ‖z‖ ^ 2 := by
    simp only [Complex.sq_norm, Complex.normSq_apply, Complex.mul_re, Complex.mul_im, Complex.star_def,
      Complex.conj_re, Complex.conj_im, Complex.ofReal_re, Complex.ofReal_im]
    ring
  have e2 : ‖(t : ℂ) * z‖ ^ 2 = t ^ 2 * ‖z‖ ^ 2 := by
    rw [norm_mul, mul_pow, Complex.norm_real, Real.norm_eq_abs, sq_abs]
  rw [e1, e2]
  nlinarith [mul_nonneg (mul_nonneg ht0.le (sq_nonneg ‖z‖)) (sub_nonneg.2 htS), mul_nonneg ht0.le (sq_nonneg ‖z‖)]

/-- **C151.**  The scale of the signal does not matter, and a signal that is a multiple of the reference becomes the reference. -/
theorem global_scale_invariant (Y ref : Fin F → Fin N → ℂ) (a : ℂ) (ha : a ≠ 0) (h : 1e-7 ≤ spectrogramPower Y)
    (h' : 1e-7 ≤ spectrogramPower (fun f n => a * Y f n)) :
    adjustGlobalScale (fun f n => a * Y f n) ref = adjustGlobalScale Y ref ∧
    adjustGlobalScale (fun f n => a * Y f n) Y = Y := by
  have hS := energy_pos Y h
  have hSc : ((∑ f, ∑ n, ‖Y f n‖ ^ 2 : ℝ) : ℂ) ≠ 0 := by exact_mod_cast hS.ne'
  have hn : ((‖a‖ ^ 2 : ℝ) : ℂ) = star a * a := by
    rw [Complex.star_def, ← Complex.normSq_eq_conj_mul_self, Complex.sq_norm]
  have ha' : star a ≠ 0 := star_ne_zero.2 ha
  have main : ∀ r : Fin F → Fin N → ℂ, adjustGlobalScale (fun f n => a * Y f n) r = adjustGlobalScale Y r := fun r => by
    rw [value _ r h', value Y r h]
    funext f n
    have e1 : (∑ f, ∑ n, star (a * Y f n) * r f n) = star a * ∑ f, ∑ n, star (Y f n) * r f n := by
      simp only [Finset.mul_sum, star_mul']
      exact Finset.sum_congr rfl fun f _ => Finset.sum_congr rfl fun n _ => by ring
    have e2 : (∑ f, ∑ n, ‖a * Y f n‖ ^ 2 : ℝ) = ‖a‖ ^ 2 * ∑ f, ∑ n, ‖Y f n‖ ^ 2 := by
      simp only [Finset.mul_sum, norm_mul, mul_pow]
    rw [e1, e2, Complex.ofReal_mul, hn]
    set S : ℂ := ((∑ f, ∑ n, ‖Y f n‖ ^ 2 : ℝ) : ℂ)
    field_simp
  refine ⟨main ref, ?_⟩
  rw [main Y, value Y Y h]
  funext f n
  have : (∑ f, ∑ n, star (Y f n) * Y f n) = ((∑ f, ∑ n, ‖Y f n‖ ^ 2 : ℝ) : ℂ) := by
    push_cast
    refine Finset.sum_congr rfl fun f _ => Finset.sum_congr rfl fun n _ => ?_
    rw [Complex.star_def, ← Complex.normSq_eq_conj_mul_self, Complex.normSq_eq_norm_sq]
    push_cast; rfl
  rw [this, div_self hSc, mul_one]

example : adjustGlobalScale (fun (_ : Fin 1) (_ : Fin 1) => (2 : ℂ) * 3) (fun _ _ => 3) = fun _ _ => 3 :=
  (global_scale_invariant (fun _ _ => 3) (fun _ _ => 3) 2 (by norm_num) (by norm_num [spectrogramPower]) (by norm_num [spectrogramPower])).2

end Torchiva.Props
