import Verif.Proofs.Ridge
import Mathlib.Analysis.Complex.Norm
import Mathlib.Algebra.BigOperators.Field

/-! # Helper lemmas for the 2x2 eigendecomposition -/

namespace Torchiva

open Matrix Spec

lemma herm2_form (A : Matrix (Fin 2) (Fin 2) ℂ) (h : A.IsHermitian) :
    A 0 0 = ((A 0 0).re : ℂ) ∧ A 1 1 = ((A 1 1).re : ℂ) ∧ A 1 0 = star (A 0 1) := by
  have h0 := h.apply 0 0
  have h1 := h.apply 1 1
  have h2 := h.apply 1 0
  refine ⟨?_, ?_, ?_⟩
  · exact (Complex.conj_eq_iff_re.1 h0).symm
  · exact (Complex.conj_eq_iff_re.1 h1).symm
  · exact h2.symm

/-- `magSq` is the squared modulus. -/
lemma magSq_eq (z : ℂ) : magSq z = ‖z‖ ^ 2 := by
  simp [magSq, magSqE, Complex.sq_norm, Complex.normSq_apply]; ring

lemma normalizeCols_ok {vals : Fin 2 → ℝ} {V : Matrix (Fin 2) (Fin 2) ℂ} {eps : ℝ}
    {r : EigRes (Fin 2)} (h : normalizeCols vals V eps = .ok r) :
    r.val = vals ∧ ∀ j, clampMin (√(∑ i, ‖V i j‖ ^ 2)) eps ≠ 0 ∧
      ∀ i, r.vec i j = V i j / ((clampMin (√(∑ i, ‖V i j‖ ^ 2)) eps : ℝ) : ℂ) := by
  unfold normalizeCols at h
  simp only [magSq_eq] at h
  split_ifs at h with hc
  push Not at hc
  simp only [Except.ok.injEq] at h
  subst h
  refine ⟨rfl, fun j => ⟨?_, fun i => rfl⟩⟩
  fin_cases j
  · exact hc.1
  · exact hc.2

lemma eigenpair_smul {A B : Matrix (Fin 2) (Fin 2) ℂ} {l : ℝ} {v : Fin 2 → ℂ} (c : ℂ)
    (h : IsEigenpair A B l v) : IsEigenpair A B l (c • v) := by
  unfold IsEigenpair at *
  rw [mulVec_smul, mulVec_smul, h, smul_comm]

lemma l2_scaled (v : Fin 2 → ℂ) (eps : ℝ) (h0 : 0 ≤ eps) (h : clampMin (l2 v) eps ≠ 0) :
    l2 (fun i => v i / ((clampMin (l2 v) eps : ℝ) : ℂ)) ≤ 1 ∧
    (eps ≤ l2 v → l2 (fun i => v i / ((clampMin (l2 v) eps : ℝ) : ℂ)) = 1) := by
  have hl : 0 ≤ l2 v := Real.sqrt_nonneg _
  have hc0 : 0 ≤ clampMin (l2 v) eps := le_trans h0 (le_max_right _ _)
  have hc : 0 < clampMin (l2 v) eps := lt_of_le_of_ne hc0 (Ne.symm h)
  have e : l2 (fun i => v i / ((clampMin (l2 v) eps : ℝ) : ℂ)) = l2 v / clampMin (l2 v) eps := by
    unfold l2 at *
    have : ∀ i, ‖v i / ((clampMin (√(∑ j, ‖v j‖ ^ 2)) eps : ℝ) : ℂ)‖ ^ 2
        = ‖v i‖ ^ 2 / (clampMin (√(∑ j, ‖v j‖ ^ 2)) eps) ^ 2 := by
      intro i
      rw [norm_div, div_pow, Complex.norm_real, Real.norm_eq_abs, sq_abs]
    simp only [this]
    rw [← Finset.sum_div, Real.sqrt_div (Finset.sum_nonneg fun _ _ => by positivity),
      Real.sqrt_sq hc0]
  rw [e]
  refine ⟨(div_le_one hc).2 (le_max_left _ _), fun hh => ?_⟩
  have : clampMin (l2 v) eps = l2 v := max_eq_left hh
  rw [this] at hc ⊢
  exact div_self hc.ne'

/-- Roots of the secular equation. -/
lemma secular_root {b dA dB s : ℝ} (hdB : dB ≠ 0) (hs : s ^ 2 = b ^ 2 - 4 * (dA * dB)) :
    dB * ((0.5 * (b + s)) / dB) ^ 2 - b * ((0.5 * (b + s)) / dB) + dA = 0 := by
  field_simp
  nlinarith

/-- The raw vector of the generalised branch is an eigenvector at every root of the secular
equation. -/
lemma gen_eigvec {a d e g l : ℝ} {z w : ℂ}
    (hroot : (e * g - ‖w‖ ^ 2) * l ^ 2
      - (a * g + d * e - 2 * (z.re * w.re + z.im * w.im)) * l + (a * d - ‖z‖ ^ 2) = 0) :
    IsEigenpair !![(a : ℂ), z; star z, (d : ℂ)] !![(e : ℂ), w; star w, (g : ℂ)] l
      ![(l : ℂ) * w - z, (a : ℂ) - (l : ℂ) * e] := by
  unfold IsEigenpair
  funext i
  fin_cases i
  · simp [mulVec, dotProduct, Fin.sum_univ_two]; ring
  · simp only [Complex.sq_norm, Complex.normSq_apply] at hroot
    simp [mulVec, dotProduct, Fin.sum_univ_two]
    apply Complex.ext
    · simp; nlinarith [hroot]
    · simp; ring

/-- The conjugates of the raw vectors of the plain branch are eigenvectors. -/
lemma plain_eigvec1 {a d l : ℝ} {z : ℂ} (hroot : l ^ 2 - (a + d) * l + (a * d - ‖z‖ ^ 2) = 0) :
    IsEigenpair !![(a : ℂ), z; star z, (d : ℂ)] 1 l (star ![(l : ℂ) - d, z]) := by
  unfold IsEigenpair
  rw [one_mulVec]
  simp only [Complex.sq_norm, Complex.normSq_apply] at hroot
  funext i
  fin_cases i
  · simp [mulVec, dotProduct, Fin.sum_univ_two]
    apply Complex.ext
    · simp; nlinarith [hroot]
    · simp; ring
  · simp [mulVec, dotProduct, Fin.sum_univ_two]; ring

lemma plain_eigvec2 {a d l : ℝ} {z : ℂ} (hroot : l ^ 2 - (a + d) * l + (a * d - ‖z‖ ^ 2) = 0) :
    IsEigenpair !![(a : ℂ), z; star z, (d : ℂ)] 1 l (star ![star z, (l : ℂ) - a]) := by
  unfold IsEigenpair
  rw [one_mulVec]
  simp only [Complex.sq_norm, Complex.normSq_apply] at hroot
  funext i
  fin_cases i
  · simp [mulVec, dotProduct, Fin.sum_univ_two]; ring
  · simp [mulVec, dotProduct, Fin.sum_univ_two]
    apply Complex.ext
    · simp; nlinarith [hroot]
    · simp; ring

lemma herm2_eta (A : Matrix (Fin 2) (Fin 2) ℂ) (h : A.IsHermitian) :
    A = !![((A 0 0).re : ℂ), A 0 1; star (A 0 1), ((A 1 1).re : ℂ)] := by
  obtain ⟨h0, h1, h2⟩ := herm2_form A h
  ext i j
  fin_cases i <;> fin_cases j <;> simp [← h0, ← h1, h2]

lemma herm2_det (A : Matrix (Fin 2) (Fin 2) ℂ) (h : A.IsHermitian) :
    A.det.re = (A 0 0).re * (A 1 1).re - magSq (A 0 1) := by
  rw [herm2_eta A h, magSq_eq]
  simp [Matrix.det_fin_two, Complex.sq_norm, Complex.normSq_apply]

lemma herm2_tr_adj (A B : Matrix (Fin 2) (Fin 2) ℂ) (hA : A.IsHermitian) (hB : B.IsHermitian) :
    (A * B.adjugate).trace.re = (A 0 0).re * (B 1 1).re + (A 1 1).re * (B 0 0).re
      - 2 * ((A 0 1).re * (B 0 1).re + (A 0 1).im * (B 0 1).im) := by
  rw [herm2_eta A hA, herm2_eta B hB]
  simp [Matrix.adjugate_fin_two, Matrix.trace, Matrix.mul_apply, Fin.sum_univ_two]
  ring

/-- Full description of the generalised branch above the clamps. -/
lemma eigh2x2Gen_spec (A B : Matrix (Fin 2) (Fin 2) ℂ) (hA : A.IsHermitian) (hB : B.IsHermitian)
    (eps : ℝ) (h0 : 0 ≤ eps) (hdB : 0 < B.det.re) (hdB' : eps ≤ B.det.re)
    (hdisc0 : 0 ≤ (A * B.adjugate).trace.re ^ 2 - 4 * (A.det.re * B.det.re))
    (hdisc : eps ≤ (A * B.adjugate).trace.re ^ 2 - 4 * (A.det.re * B.det.re))
    (r : EigRes (Fin 2)) (h : eigh2x2Gen A B eps = .ok r) :
    r.val 0 ≤ r.val 1 ∧ (∀ k, IsEigenpair A B (r.val k) (fun i => r.vec i k)) ∧
    (∀ k, l2 (fun i => r.vec i k) ≤ 1) ∧
    (∀ k, eps ≤ l2 ![(r.val k : ℂ) * B 0 1 - A 0 1, A 0 0 - (r.val k : ℂ) * B 0 0] →
      l2 (fun i => r.vec i k) = 1) ∧
    (∀ k, l2 ![(r.val k : ℂ) * B 0 1 - A 0 1, A 0 0 - (r.val k : ℂ) * B 0 0] = 0 →
      0 < eps ∧ (fun i => r.vec i k) = 0) ∧
    (0 < (A * B.adjugate).trace.re ^ 2 - 4 * (A.det.re * B.det.re) → r.val 0 < r.val 1) ∧
    (∀ k, (∀ i, r.vec i k = 0) →
      (r.val k : ℂ) * B 0 1 - A 0 1 = 0 ∧ A 0 0 - (r.val k : ℂ) * B 0 0 = 0) := by
  have hdetB := herm2_det B hB
  have hdetA := herm2_det A hA
  have htr := herm2_tr_adj A B hA hB
  unfold eigh2x2Gen at h
  simp only [← hdetB, ← hdetA, ← htr] at h
  split_ifs at h with hc
  have hclB : clampMin B.det.re eps = B.det.re := max_eq_left hdB'
  have hcld : clampMin ((A * B.adjugate).trace.re ^ 2 - 4 * (A.det.re * B.det.re)) eps
    = (A * B.adjugate).trace.re ^ 2 - 4 * (A.det.re * B.det.re) := max_eq_left hdisc
  rw [hclB, hcld] at h
  set b := (A * B.adjugate).trace.re with hb
  set δ := b ^ 2 - 4 * (A.det.re * B.det.re) with hδ
  obtain ⟨hv, hcol⟩ := normalizeCols_ok h
  have hs : (√δ) ^ 2 = b ^ 2 - 4 * (A.det.re * B.det.re) := by rw [Real.sq_sqrt hdisc0]
  have hroot1 := secular_root hdB.ne' hs
  have hroot0 : B.det.re * ((0.5 * (b - √δ)) / B.det.re) ^ 2
      - b * ((0.5 * (b - √δ)) / B.det.re) + A.det.re = 0 := by
    have := secular_root (s := -√δ) (b := b) (dA := A.det.re) hdB.ne' (by rw [neg_sq, hs])
    simpa [sub_eq_add_neg] using this
  have hroot : ∀ k, B.det.re * (r.val k) ^ 2 - b * r.val k + A.det.re = 0 := by
    intro k; rw [hv]; fin_cases k
    · exact hroot0
    · exact hroot1
  set raw : Fin 2 → Fin 2 → ℂ := fun k =>
    ![(r.val k : ℂ) * B 0 1 - A 0 1, A 0 0 - (r.val k : ℂ) * B 0 0] with hraw
  have hcol' : ∀ k, clampMin (l2 (raw k)) eps ≠ 0 ∧
      (fun i => r.vec i k) = fun i => raw k i / ((clampMin (l2 (raw k)) eps : ℝ) : ℂ) := by
    intro k
    have := hcol k
    fin_cases k
    · refine ⟨?_, ?_⟩
      · simpa [l2, raw, hv, Fin.sum_univ_two] using this.1
      · funext i
        have e := this.2 i
        fin_cases i <;> simpa [l2, raw, hv, Fin.sum_univ_two] using e
    · refine ⟨?_, ?_⟩
      · simpa [l2, raw, hv, Fin.sum_univ_two] using this.1
      · funext i
        have e := this.2 i
        fin_cases i <;> simpa [l2, raw, hv, Fin.sum_univ_two] using e
  have hAe := herm2_form A hA
  have hBe := herm2_form B hB
  refine ⟨?_, fun k => ?_, fun k => ?_, fun k hk => ?_, fun k hk => ?_, fun hpos => ?_, fun k hk => ?_⟩
  · rw [hv]
    simp only [Matrix.cons_val_zero, Matrix.cons_val_one]
    have := Real.sqrt_nonneg δ
    exact div_le_div_of_nonneg_right (by linarith) hdB.le
  · have hr := hroot k
    rw [hdetA, hdetB, htr, magSq_eq, magSq_eq] at hr
    have he := gen_eigvec hr
    have : (fun i => r.vec i k) = ((1 / (clampMin (l2 (raw k)) eps : ℝ) : ℝ) : ℂ) • raw k := by
      rw [(hcol' k).2]; funext i; simp [div_eq_inv_mul]
    rw [this]
    apply eigenpair_smul
    rw [herm2_eta A hA, herm2_eta B hB]
    have e2 : raw k = ![(r.val k : ℂ) * B 0 1 - A 0 1, ((A 0 0).re : ℂ) - (r.val k : ℂ) * (B 0 0).re] := by
      rw [hraw, ← hAe.1, ← hBe.1]
    rw [e2]
    exact he
  · rw [(hcol' k).2]
    exact (l2_scaled (raw k) eps h0 (hcol' k).1).1
  · rw [(hcol' k).2]
    exact (l2_scaled (raw k) eps h0 (hcol' k).1).2 hk
  · have hne := (hcol' k).1
    rw [show l2 (raw k) = 0 from hk] at hne
    have hp : 0 < eps := by
      rcases h0.lt_or_eq with h | h
      · exact h
      · exact absurd (by simp [clampMin, ← h]) hne
    refine ⟨hp, ?_⟩
    rw [(hcol' k).2]
    have hz : ∀ i, raw k i = 0 := by
      intro i
      have h1 : ∑ j, ‖raw k j‖ ^ 2 = 0 := by
        have := (Real.sqrt_eq_zero (Finset.sum_nonneg fun j _ => by positivity)).1 hk
        exact this
      have := (Finset.sum_eq_zero_iff_of_nonneg (fun _ _ => by positivity)).1 h1 i (Finset.mem_univ _)
      simpa using this
    funext i; simp [hz i]
  · rw [hv]
    simp only [Matrix.cons_val_zero, Matrix.cons_val_one]
    have := Real.sqrt_pos.2 hpos
    exact div_lt_div_of_pos_right (by linarith) hdB
  · have hz : ∀ i, raw k i = 0 := by
      intro i
      have h1 := congrFun (hcol' k).2 i
      rw [hk i, eq_comm, div_eq_zero_iff] at h1
      exact h1.resolve_right (by exact_mod_cast (hcol' k).1)
    exact ⟨hz 0, hz 1⟩

/-- Full description of the plain branch above the clamp: the *conjugates* of the returned
columns are the eigenvectors. -/
lemma eigh2x2Plain_spec (A : Matrix (Fin 2) (Fin 2) ℂ) (hA : A.IsHermitian)
    (eps : ℝ) (h0 : 0 ≤ eps) (hdisc : eps ≤ A.trace.re ^ 2 - 4 * A.det.re)
    (hdisc0 : 0 ≤ A.trace.re ^ 2 - 4 * A.det.re)
    (r : EigRes (Fin 2)) (h : eigh2x2Plain A eps = .ok r) :
    r.val 0 ≤ r.val 1 ∧ (∀ k, IsEigenpair A 1 (r.val k) (star fun i => r.vec i k)) ∧
    (∀ k, l2 (fun i => r.vec i k) ≤ 1) ∧
    (eps ≤ l2 ![(r.val 0 : ℂ) - A 1 1, A 0 1] → l2 (fun i => r.vec i 0) = 1) ∧
    (eps ≤ l2 ![A 1 0, (r.val 1 : ℂ) - A 0 0] → l2 (fun i => r.vec i 1) = 1) := by
  have hdetA := herm2_det A hA
  have htr : A.trace.re = (A 0 0).re + (A 1 1).re := by simp [Matrix.trace, Fin.sum_univ_two]
  unfold eigh2x2Plain at h
  simp only [← hdetA, ← htr] at h
  have hcld : clampMin (A.trace.re ^ 2 - 4 * A.det.re) eps = A.trace.re ^ 2 - 4 * A.det.re :=
    max_eq_left hdisc
  rw [hcld] at h
  set b := A.trace.re with hb
  set δ := b ^ 2 - 4 * A.det.re with hδ
  obtain ⟨hv, hcol⟩ := normalizeCols_ok h
  have hs : (√δ) ^ 2 = b ^ 2 - 4 * (A.det.re * 1) := by rw [Real.sq_sqrt hdisc0, hδ, mul_one]
  have hroot1 := secular_root one_ne_zero hs
  have hroot0 := secular_root (s := -√δ) (b := b) (dA := A.det.re) one_ne_zero (by rw [neg_sq]; exact hs)
  have hroot : ∀ k, (r.val k) ^ 2 - ((A 0 0).re + (A 1 1).re) * r.val k
      + ((A 0 0).re * (A 1 1).re - ‖A 0 1‖ ^ 2) = 0 := by
    intro k; rw [hv, ← htr, ← magSq_eq, ← hdetA]; fin_cases k
    · simpa [sub_eq_add_neg] using hroot0
    · simpa using hroot1
  obtain ⟨hA0, hA1, hA2⟩ := herm2_form A hA
  set raw : Fin 2 → Fin 2 → ℂ :=
    ![![(r.val 0 : ℂ) - A 1 1, A 0 1], ![A 1 0, (r.val 1 : ℂ) - A 0 0]] with hraw
  have hcol' : ∀ k, clampMin (l2 (raw k)) eps ≠ 0 ∧
      (fun i => r.vec i k) = fun i => raw k i / ((clampMin (l2 (raw k)) eps : ℝ) : ℂ) := by
    intro k
    have := hcol k
    fin_cases k
    · refine ⟨?_, ?_⟩
      · simpa [l2, raw, hv, Fin.sum_univ_two] using this.1
      · funext i
        have e := this.2 i
        fin_cases i <;> simpa [l2, raw, hv, Fin.sum_univ_two] using e
    · refine ⟨?_, ?_⟩
      · simpa [l2, raw, hv, Fin.sum_univ_two] using this.1
      · funext i
        have e := this.2 i
        fin_cases i <;> simpa [l2, raw, hv, Fin.sum_univ_two] using e
  have hstar : ∀ k, (star fun i => r.vec i k)
      = ((1 / (clampMin (l2 (raw k)) eps : ℝ) : ℝ) : ℂ) • star (raw k) := by
    intro k
    rw [(hcol' k).2]; funext i
    simp only [Pi.star_apply, star_div₀, Complex.star_def, Complex.conj_ofReal, Pi.smul_apply,
      smul_eq_mul]
    push_cast
    rw [div_eq_inv_mul, one_div]
  have heig : ∀ k, IsEigenpair A 1 (r.val k) (star (raw k)) := by
    intro k
    have hr := hroot k
    fin_cases k
    · have := plain_eigvec1 hr
      rw [herm2_eta A hA]
      have e : raw 0 = ![(r.val 0 : ℂ) - ((A 1 1).re : ℂ), A 0 1] := by
        rw [hraw, ← hA1]; rfl
      change IsEigenpair _ _ (r.val 0) (star (raw 0))
      rw [e]; exact this
    · have := plain_eigvec2 hr
      rw [herm2_eta A hA]
      have e : raw 1 = ![star (A 0 1), (r.val 1 : ℂ) - ((A 0 0).re : ℂ)] := by
        rw [hraw, ← hA0, ← hA2]; rfl
      change IsEigenpair _ _ (r.val 1) (star (raw 1))
      rw [e]; exact this
  refine ⟨?_, fun k => ?_, fun k => ?_, fun hk => ?_, fun hk => ?_⟩
  · rw [hv]
    simp only [Matrix.cons_val_zero, Matrix.cons_val_one]
    have := Real.sqrt_nonneg δ
    linarith
  · rw [hstar]; exact eigenpair_smul _ (heig k)
  · rw [(hcol' k).2]
    exact (l2_scaled (raw k) eps h0 (hcol' k).1).1
  · rw [(hcol' 0).2]
    exact (l2_scaled (raw 0) eps h0 (hcol' 0).1).2 hk
  · rw [(hcol' 1).2]
    exact (l2_scaled (raw 1) eps h0 (hcol' 1).1).2 hk

lemma eigh2x2_some (A B : Matrix (Fin 2) (Fin 2) ℂ) (eps : ℝ) :
    eigh2x2 ⟨2, 2, A⟩ (some ⟨2, 2, B⟩) eps = eigh2x2Gen A B eps := by simp [eigh2x2]

lemma eigh2x2_none (A : Matrix (Fin 2) (Fin 2) ℂ) (eps : ℝ) :
    eigh2x2 ⟨2, 2, A⟩ none eps = eigh2x2Plain A eps := by simp [eigh2x2]

lemma colNorm_pos {V : Matrix (Fin 2) (Fin 2) ℂ} {j : Fin 2} (h : ∃ i, V i j ≠ 0) :
    0 < √(∑ i, ‖V i j‖ ^ 2) := by
  obtain ⟨i, hi⟩ := h
  apply Real.sqrt_pos.2
  exact Finset.sum_pos' (fun _ _ => by positivity) ⟨i, Finset.mem_univ _, by positivity⟩

lemma normalizeCols_total (vals : Fin 2 → ℝ) (V : Matrix (Fin 2) (Fin 2) ℂ) (eps : ℝ)
    (h : 0 < eps ∨ ∀ j, ∃ i, V i j ≠ 0) : ∃ r, normalizeCols vals V eps = .ok r := by
  unfold normalizeCols
  simp only [magSq_eq]
  rw [if_neg]
  · exact ⟨_, rfl⟩
  · have : ∀ j, clampMin (√(∑ i, ‖V i j‖ ^ 2)) eps ≠ 0 := by
      intro j
      rcases h with h | h
      · exact (lt_of_lt_of_le h (le_max_right _ _)).ne'
      · exact (lt_of_lt_of_le (colNorm_pos (h j)) (le_max_left _ _)).ne'
    push Not
    exact ⟨this 0, this 1⟩

lemma normalizeCols_fails (vals : Fin 2 → ℝ) (V : Matrix (Fin 2) (Fin 2) ℂ)
    (h : ∃ j, ∀ i, V i j = 0) : normalizeCols vals V 0 = .error .nonFinite := by
  unfold normalizeCols
  simp only [magSq_eq]
  rw [if_pos]
  obtain ⟨j, hj⟩ := h
  fin_cases j
  · left
    have : ∀ i, V i 0 = 0 := hj
    simp [clampMin, this]
  · right
    have : ∀ i, V i 1 = 0 := hj
    simp [clampMin, this]

end Torchiva
