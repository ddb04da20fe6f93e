import Verif.Proofs.Models
import Verif.Proofs.TensorNmf
import Verif.Proofs.Contrast
import Verif.Spec.Ilrma
import Mathlib.Analysis.SpecialFunctions.Log.Basic

/-!
# Lemmas for C146: the update of the factors does not increase the scale-free likelihood
-/

namespace Torchiva

open Spec

lemma exists_lower {ι : Type} [Finite ι] (x : ι → ℝ) (hx : ∀ i, 0 < x i) : ∃ e, 0 < e ∧ ∀ i, e ≤ x i := by
  rcases isEmpty_or_nonempty ι with h | h
  · exact ⟨1, one_pos, fun i => (h.false i).elim⟩
  · obtain ⟨i, hi⟩ := Finite.exists_min x
    exact ⟨x i, hx i, hi⟩

/-- The multiplicative update of one factor (without floors), and the functional
`M log ∑ P / R + ∑ log R` with `M` the number of entries. -/
theorem nmf_free {φ ν κ : Type} [Fintype φ] [Fintype ν] [Fintype κ] [Nonempty φ] [Nonempty ν]
    (P : φ → ν → ℝ) (a : φ → κ → ℝ) (v : ν → κ → ℝ) (t : φ → κ → ℝ) (hP : ∀ f n, 0 ≤ P f n) (ha : ∀ f k, 0 < a f k)
    (hv : ∀ n k, 0 < v n k) (ht : ∀ f k, 0 < t f k) (hR : ∀ f n, 0 < ∑ k, a f k * v n k)
    (hR' : ∀ f n, 0 < ∑ k, t f k * v n k)
    (htd : ∀ f k, t f k = a f k * √((∑ n, P f n * (∑ k, a f k * v n k)⁻¹ ^ 2 * v n k) / ∑ n, (∑ k, a f k * v n k)⁻¹ * v n k))
    (hE : 0 < ∑ f, ∑ n, P f n / ∑ k, a f k * v n k) :
    (Fintype.card φ * Fintype.card ν : ℝ) * Real.log (∑ f, ∑ n, P f n / ∑ k, t f k * v n k)
        + ∑ f, ∑ n, Real.log (∑ k, t f k * v n k)
      ≤ (Fintype.card φ * Fintype.card ν : ℝ) * Real.log (∑ f, ∑ n, P f n / ∑ k, a f k * v n k)
        + ∑ f, ∑ n, Real.log (∑ k, a f k * v n k) := by
  set M : ℝ := (Fintype.card φ * Fintype.card ν : ℝ) with hM
  have hM0 : 0 < M := by
    have h1 : (0 : ℝ) < Fintype.card φ := by exact_mod_cast Fintype.card_pos
    have h2 : (0 : ℝ) < Fintype.card ν := by exact_mod_cast Fintype.card_pos
    exact mul_pos h1 h2
  set R := fun f n => ∑ k, a f k * v n k with hRd
  set R' := fun f n => ∑ k, t f k * v n k with hRd'
  set E := ∑ f, ∑ n, P f n / R f n with hEd
  set E' := ∑ f, ∑ n, P f n / R' f n with hEd'
  have hE' : 0 < E' := by
    have h0 : ∀ f n, 0 ≤ P f n / R' f n := fun f n => div_nonneg (hP f n) (hR' f n).le
    refine lt_of_le_of_ne (Finset.sum_nonneg fun f _ => Finset.sum_nonneg fun n _ => h0 f n) fun hz => ?_
    have : ∀ f n, P f n = 0 := by
      intro f n
      have h1 := (Finset.sum_eq_zero_iff_of_nonneg (fun f _ => Finset.sum_nonneg fun n _ => h0 f n)).1 hz.symm f (Finset.mem_univ f)
      have h2 := (Finset.sum_eq_zero_iff_of_nonneg (fun n _ => h0 f n)).1 h1 n (Finset.mem_univ n)
      exact (div_eq_zero_iff.1 h2).resolve_right (hR' f n).ne'
    rw [hEd] at hE
    simp [this] at hE
  set s := M / E with hs
  have hs0 : 0 < s := div_pos hM0 hE
  have hq0 : 0 < √s := Real.sqrt_pos.2 hs0
  have hqq : √s * √s = s := Real.mul_self_sqrt hs0.le
  obtain ⟨e1, he1, h1⟩ := exists_lower (fun i : φ × κ => a i.1 i.2) fun i => ha _ _
  obtain ⟨e2, he2, h2⟩ := exists_lower (fun i : φ × ν => R i.1 i.2) fun i => hR _ _
  obtain ⟨e3, he3, h3⟩ := exists_lower (fun i : φ × κ => √s * t i.1 i.2) fun i => mul_pos hq0 (ht _ _)
  set e0 := min e1 (min e2 e3) with he0
  have he0p : 0 < e0 := lt_min he1 (lt_min he2 he3)
  have g1 : ∀ f k, e0 ≤ a f k := fun f k => (min_le_left _ _).trans (h1 (f, k))
  have g2 : ∀ f n, e0 ≤ R f n := fun f n => ((min_le_right _ _).trans (min_le_left _ _)).trans (h2 (f, n))
  have g3 : ∀ f k, e0 ≤ √s * t f k := fun f k => ((min_le_right _ _).trans (min_le_right _ _)).trans (h3 (f, k))
  have row : ∀ f, ∑ n, (√s * (P f n / R' f n) + (Real.log √s + Real.log (R' f n)))
      ≤ ∑ n, (s * (P f n / R f n) + Real.log (R f n)) := by
    intro f
    have h := nmf_row (fun n => s * P f n) v (a f) e0 he0p (fun n => mul_nonneg hs0.le (hP f n)) hv (g1 f) (g2 f)
    have c1 : ∀ n, clampMin (∑ k, a f k * v n k) e0 = R f n := fun n => max_eq_left (g2 f n)
    have c2 : ∀ k, clampMin (a f k * √((∑ n, s * P f n * (R f n)⁻¹ ^ 2 * v n k) / ∑ n, (R f n)⁻¹ * v n k)) e0
        = √s * t f k := by
      intro k
      have : a f k * √((∑ n, s * P f n * (R f n)⁻¹ ^ 2 * v n k) / ∑ n, (R f n)⁻¹ * v n k) = √s * t f k := by
        have e : ∑ n, s * P f n * (R f n)⁻¹ ^ 2 * v n k = s * ∑ n, P f n * (R f n)⁻¹ ^ 2 * v n k := by
          rw [Finset.mul_sum]; exact Finset.sum_congr rfl fun n _ => by ring
        rw [e, mul_div_assoc, Real.sqrt_mul hs0.le, htd f k]
        ring
      rw [this]; exact max_eq_left (g3 f k)
    simp only [c1, c2] at h
    have c3 : ∀ n, ∑ k, √s * t f k * v n k = √s * R' f n := fun n => by
      rw [Finset.mul_sum]; exact Finset.sum_congr rfl fun k _ => by ring
    simp only [c3] at h
    have c4 : ∀ n, s * P f n / (√s * R' f n) = √s * (P f n / R' f n) := fun n => by
      have := (hR' f n).ne'
      have := hq0.ne'
      field_simp
      rw [sq, hqq]
      ring
    have c5 : ∀ n, Real.log (√s * R' f n) = Real.log √s + Real.log (R' f n) := fun n =>
      Real.log_mul hq0.ne' (hR' f n).ne'
    simp only [c4, c5] at h
    refine h.trans (le_of_eq (Finset.sum_congr rfl fun n _ => ?_))
    rw [mul_div_assoc]
  have tot := Finset.sum_le_sum fun f (_ : f ∈ Finset.univ) => row f
  simp only [Finset.sum_add_distrib, ← Finset.mul_sum, Finset.sum_const, Finset.card_univ, nsmul_eq_mul] at tot
  have hsE : s * E = M := by rw [hs]; field_simp
  have hlog : Real.log (√s * E' / M) ≤ √s * E' / M - 1 := Real.log_le_sub_one_of_pos (by positivity)
  rw [Real.log_div (by positivity) hM0.ne', Real.log_mul hq0.ne' hE'.ne'] at hlog
  have hlog' : M * (Real.log √s + Real.log E' - Real.log M) ≤ √s * E' - M := by
    have := mul_le_mul_of_nonneg_left hlog hM0.le
    have e : M * (√s * E' / M - 1) = √s * E' - M := by field_simp
    linarith
  have hls : Real.log s = Real.log M - Real.log E := by rw [hs, Real.log_div hM0.ne' hE.ne']
  have hl2 : Real.log √s = Real.log s / 2 := Real.log_sqrt hs0.le
  rw [← hEd, ← hEd', hsE, ← mul_assoc, mul_comm (Fintype.card ν : ℝ), ← hM] at tot
  rw [hl2, hls] at tot hlog'
  nlinarith

/-- A call of the model, without the effect of the floors, does not increase the scale-free likelihood. -/
theorem nmf_step_free {C F N K : ℕ} [NeZero F] [NeZero N] {eps : ℝ} (he : 0 < eps) (Y : Sig C F N)
    {a : NmfState C F N K} (ha : NmfGood eps a)
    (hfl : FloorsInactive eps a (nmfHalfV eps (fun c f n => magSq (Y c f n)) (nmfHalfT eps (fun c f n => magSq (Y c f n)) a)))
    (hY : ∀ k, ∃ f n, Y k f n ≠ 0) :
    ilrmaLoss Y (lowRank (nmfHalfV eps (fun c f n => magSq (Y c f n)) (nmfHalfT eps (fun c f n => magSq (Y c f n)) a)).T
        (nmfHalfV eps (fun c f n => magSq (Y c f n)) (nmfHalfT eps (fun c f n => magSq (Y c f n)) a)).V)
      ≤ ilrmaLoss Y (lowRank a.T a.V) := by
  set P : Fin C → Fin F → Fin N → ℝ := fun c f n => magSq (Y c f n) with hP
  set m := nmfHalfT eps P a with hm
  set b := nmfHalfV eps P m with hb
  have hmg : NmfGood eps m := nmfHalfT_good he P ha
  have hbg : NmfGood eps b := nmfHalfV_good he P hmg
  have hbT : b.T = m.T := rfl
  have hmV : m.V = a.V := rfl
  have iRa : ∀ c f n, a.iR c f n = (∑ j, a.T c f j * a.V c n j)⁻¹ := fun c f n => by
    rw [ha.2.2]; exact congrArg _ (max_eq_left (hfl.before c f n))
  have iRm : ∀ c f n, m.iR c f n = (∑ j, m.T c f j * m.V c n j)⁻¹ := fun c f n => by
    rw [hmg.2.2, hmV, ← hbT]; exact congrArg _ (max_eq_left (hfl.between c f n))
  have unclamp : ∀ {x : ℝ}, eps < clampMin x eps → clampMin x eps = x := fun {x} h => by
    rcases le_total x eps with h' | h'
    · rw [clampMin, max_eq_right h'] at h; exact absurd h (lt_irrefl _)
    · exact max_eq_left h'
  have mT : ∀ c f k, m.T c f k = a.T c f k * √((∑ n, P c f n * a.iR c f n ^ 2 * a.V c n k) / ∑ n, a.iR c f n * a.V c n k) :=
    fun c f k => unclamp (hfl.T c f k)
  have bV : ∀ c n k, b.V c n k = m.V c n k * √((∑ f, P c f n * m.iR c f n ^ 2 * m.T c f k) / ∑ f, m.iR c f n * m.T c f k) :=
    fun c n k => unclamp (hfl.V c n k)
  have hNR : (0 : ℝ) < N := by exact_mod_cast Nat.pos_of_ne_zero (NeZero.ne N)
  have hFR : (0 : ℝ) < F := by exact_mod_cast Nat.pos_of_ne_zero (NeZero.ne F)
  have pos : ∀ k (R : Fin F → Fin N → ℝ), (∀ f n, 0 < R f n) → 0 < ∑ f, ∑ n, P k f n / R f n := by
    intro k R hR
    obtain ⟨f, n, h⟩ := hY k
    have h0 : ∀ f n, 0 ≤ P k f n / R f n := fun f n => div_nonneg (by simp only [hP, magSq_eq]; positivity) (hR f n).le
    refine Finset.sum_pos' (fun f _ => Finset.sum_nonneg fun n _ => h0 f n) ⟨f, Finset.mem_univ _, ?_⟩
    refine Finset.sum_pos' (fun n _ => h0 f n) ⟨n, Finset.mem_univ _, div_pos ?_ (hR f n)⟩
    simp only [hP, magSq_eq]
    have := norm_pos_iff.2 h
    positivity
  have ra : ∀ k f n, 0 < ∑ j, a.T k f j * a.V k n j := fun k f n => lt_of_lt_of_le he (hfl.before k f n)
  have rm : ∀ k f n, 0 < ∑ j, m.T k f j * a.V k n j := fun k f n => lt_of_lt_of_le he (hfl.between k f n)
  have rb : ∀ k f n, 0 < ∑ j, b.T k f j * b.V k n j := fun k f n => lt_of_lt_of_le he (hfl.after k f n)
  unfold ilrmaLoss
  refine Finset.sum_le_sum fun k _ => ?_
  have s1 := nmf_free (P k) (a.T k) (a.V k) (m.T k) (fun f n => by simp only [hP, magSq_eq]; positivity) (ha.1 k) (ha.2.1 k)
    (hmg.1 k) (ra k) (rm k) (fun f j => by simp only [mT k f j, iRa]) (pos k _ (ra k))
  have s2 := nmf_free (fun n f => P k f n) (a.V k) (m.T k) (b.V k) (fun n f => by simp only [hP, magSq_eq]; positivity)
    (ha.2.1 k) (hmg.1 k) (hbg.2.1 k) (fun n f => by simpa only [mul_comm] using rm k f n)
    (fun n f => by simpa only [mul_comm, hbT] using rb k f n)
    (fun n j => by
      rw [bV k n j]
      simp only [iRm, hmV]
      have e : ∀ f, ∑ j, a.V k n j * m.T k f j = ∑ j, m.T k f j * a.V k n j := fun f =>
        Finset.sum_congr rfl fun j _ => mul_comm _ _
      simp only [e])
    (by
      rw [Finset.sum_comm]
      simpa only [mul_comm] using pos k _ (rm k))
  have e1 : ∀ (x : Fin F → Fin K → ℝ) (z : Fin N → Fin K → ℝ) n f, ∑ j, z n j * x f j = ∑ j, x f j * z n j := fun x z n f =>
    Finset.sum_congr rfl fun j _ => mul_comm _ _
  simp only [e1 (m.T k)] at s2
  rw [Finset.sum_comm (f := fun n f => P k f n / ∑ j, m.T k f j * b.V k n j),
    Finset.sum_comm (f := fun n f => P k f n / ∑ j, m.T k f j * a.V k n j),
    Finset.sum_comm (f := fun n f => Real.log (∑ j, m.T k f j * b.V k n j)),
    Finset.sum_comm (f := fun n f => Real.log (∑ j, m.T k f j * a.V k n j))] at s2
  simp only [Fintype.card_fin] at s1 s2
  have wp : ∀ R : Fin F → Fin N → ℝ, whitePower (Y k) R = (∑ f, ∑ n, P k f n / R f n) / N := fun R => by
    simp only [whitePower, hP, magSq_eq]
  rw [wp, wp]
  simp only [lowRank]
  rw [Real.log_div (pos k _ (rb k)).ne' hNR.ne', Real.log_div (pos k _ (ra k)).ne' hNR.ne']
  have fin : ∀ {x y p q : ℝ}, (F : ℝ) * N * x + p ≤ F * N * y + q →
      F * (x - Real.log N) + p / N ≤ F * (y - Real.log N) + q / N := by
    intro x y p q h
    have := div_le_div_of_nonneg_right h hNR.le
    have e : ∀ z r : ℝ, (F * N * z + r) / N = F * z + r / N := fun z r => by field_simp
    rw [e, e] at this
    linarith
  refine fin (le_trans ?_ s1)
  rw [mul_comm (N : ℝ)] at s2
  exact s2

end Torchiva
