import Verif.Model.AuxIva
import Verif.Proofs.Eig2
import Mathlib.Analysis.SpecialFunctions.Log.Basic
import Mathlib.Analysis.Matrix.PosDef

/-! # Helper lemmas for the two-channel update -/

namespace Torchiva

open Matrix Spec
open scoped ComplexOrder

lemma eigh2x2Gen_gap (A B : Matrix (Fin 2) (Fin 2) ℂ) (hA : A.IsHermitian) (hB : B.IsHermitian)
    (eps : ℝ) (hdB : 0 < B.det.re)
    (hdisc : 0 < (A * B.adjugate).trace.re ^ 2 - 4 * (A.det.re * B.det.re))
    (r : EigRes (Fin 2)) (h : eigh2x2Gen A B eps = .ok r) : r.val 0 < r.val 1 := by
  unfold eigh2x2Gen at h
  simp only [← herm2_det B hB, ← herm2_det A hA, ← herm2_tr_adj A B hA hB] at h
  split_ifs at h with hc
  obtain ⟨hv, -⟩ := normalizeCols_ok h
  rw [hv]
  simp only [Matrix.cons_val_zero, Matrix.cons_val_one]
  have h1 : 0 < clampMin B.det.re eps := lt_of_lt_of_le hdB (le_max_left _ _)
  have h2 : 0 < √(clampMin ((A * B.adjugate).trace.re ^ 2 - 4 * (A.det.re * B.det.re)) eps) :=
    Real.sqrt_pos.2 (lt_of_lt_of_le hdisc (le_max_left _ _))
  exact div_lt_div_of_pos_right (by linarith) h1

lemma eigh2x2Gen_pos_total (A B : Matrix (Fin 2) (Fin 2) ℂ) (eps : ℝ) (he : 0 < eps) :
    ∃ r, eigh2x2Gen A B eps = .ok r := by
  unfold eigh2x2Gen
  simp only
  rw [if_neg (show clampMin ((B 0 0).re * (B 1 1).re - magSq (B 0 1)) eps ≠ 0 from
    ne_of_gt (lt_of_lt_of_le he (le_max_right _ _)))]
  exact normalizeCols_total _ _ _ (Or.inl he)

/-- `uᴴ V v`. -/
noncomputable def form (V : Matrix (Fin 2) (Fin 2) ℂ) (u v : Fin 2 → ℂ) : ℂ := star u ⬝ᵥ V *ᵥ v

lemma form_conj (V : Matrix (Fin 2) (Fin 2) ℂ) (hV : V.IsHermitian) (u v : Fin 2 → ℂ) :
    star (form V u v) = form V v u := by
  have h0 := hV.apply 0 0; have h1 := hV.apply 1 1; have h2 := hV.apply 0 1; have h3 := hV.apply 1 0
  simp only [form, dotProduct, mulVec, Fin.sum_univ_two, Pi.star_apply, star_add, star_mul', star_star,
    h0, h1, h2, h3]
  ring

lemma form_self_real (V : Matrix (Fin 2) (Fin 2) ℂ) (hV : V.IsHermitian) (u : Fin 2 → ℂ) :
    form V u u = ((power V u : ℝ) : ℂ) := by
  have := form_conj V hV u u
  exact (Complex.conj_eq_iff_re.1 this).symm

lemma form_eig {A B : Matrix (Fin 2) (Fin 2) ℂ} {l : ℝ} {v : Fin 2 → ℂ} (h : IsEigenpair A B l v)
    (u : Fin 2 → ℂ) : form A u v = l * form B u v := by
  unfold form
  rw [h, dotProduct_smul, smul_eq_mul]

lemma eig_orth {A B : Matrix (Fin 2) (Fin 2) ℂ} (hA : A.IsHermitian) (hB : B.IsHermitian) {l m : ℝ}
    {u v : Fin 2 → ℂ} (hu : IsEigenpair A B l u) (hv : IsEigenpair A B m v) (hlm : l ≠ m) :
    form B u v = 0 ∧ form A u v = 0 := by
  have h1 := form_eig hv u
  have h2 := form_eig hu v
  have h3 : form A u v = l * form B u v := by
    rw [← form_conj A hA, h2, star_mul', form_conj B hB]
    simp
  have h4 : ((l - m : ℝ) : ℂ) * form B u v = 0 := by
    push_cast; linear_combination h1 - h3
  have h5 : form B u v = 0 := by
    rcases mul_eq_zero.1 h4 with h | h
    · exact absurd (by exact_mod_cast h : l - m = 0) (sub_ne_zero.2 hlm)
    · exact h
  exact ⟨h5, by rw [h1, h5, mul_zero]⟩

/-- Power of a combination of two vectors that are orthogonal for `V`. -/
lemma power_comb (V : Matrix (Fin 2) (Fin 2) ℂ) (hV : V.IsHermitian) (e0 e1 : Fin 2 → ℂ)
    (h01 : form V e0 e1 = 0) (a b : ℂ) :
    power V (fun i => e0 i * a + e1 i * b) = power V e0 * ‖a‖ ^ 2 + power V e1 * ‖b‖ ^ 2 := by
  have h10 : form V e1 e0 = 0 := by rw [← form_conj V hV, h01, star_zero]
  have h : form V (fun i => e0 i * a + e1 i * b) (fun i => e0 i * a + e1 i * b)
      = (star a * a) * form V e0 e0 + (star a * b) * form V e0 e1 + (star b * a) * form V e1 e0
        + (star b * b) * form V e1 e1 := by
    simp only [form, dotProduct, mulVec, Fin.sum_univ_two, Pi.star_apply, star_add, star_mul']
    ring
  rw [h01, h10, form_self_real V hV, form_self_real V hV, form_self_real V hV] at h
  have ha : star a * a = ((‖a‖ ^ 2 : ℝ) : ℂ) := by
    rw [mul_comm, Complex.star_def, Complex.mul_conj']; push_cast; rfl
  have hb : star b * b = ((‖b‖ ^ 2 : ℝ) : ℂ) := by
    rw [mul_comm, Complex.star_def, Complex.mul_conj']; push_cast; rfl
  rw [ha, hb] at h
  have : ((power V (fun i => e0 i * a + e1 i * b) : ℝ) : ℂ)
      = ((power V e0 * ‖a‖ ^ 2 + power V e1 * ‖b‖ ^ 2 : ℝ) : ℂ) := by
    push_cast at h ⊢; rw [h]; ring
  exact_mod_cast this

lemma power_nonneg_of_posDef {V : Matrix (Fin 2) (Fin 2) ℂ} (hV : V.PosDef) (u : Fin 2 → ℂ) :
    0 ≤ power V u := by
  have := hV.posSemidef.dotProduct_mulVec_nonneg u
  exact (Complex.le_def.1 this).1

lemma power_smul (V : Matrix (Fin 2) (Fin 2) ℂ) (u : Fin 2 → ℂ) (c : ℝ) :
    power V (fun i => u i / (c : ℂ)) = power V u / c ^ 2 := by
  have : star (fun i => u i / (c : ℂ)) ⬝ᵥ V *ᵥ (fun i => u i / (c : ℂ))
      = ((1 / c ^ 2 : ℝ) : ℂ) * (star u ⬝ᵥ V *ᵥ u) := by
    simp only [dotProduct, mulVec, Fin.sum_univ_two, Pi.star_apply, star_div₀, Complex.star_def,
      Complex.conj_ofReal]
    push_cast
    ring
  unfold power
  rw [this, Complex.re_ofReal_mul]
  ring

/-- Core inequality. -/
lemma two_by_two_ineq {p L : ℝ} (hp : 0 ≤ p) (hL : 0 ≤ L) (hpL : 1 ≤ p * L) (a b c d : ℂ) :
    ‖a * d - b * c‖ ^ 2 ≤ (‖a‖ ^ 2 + p * ‖c‖ ^ 2) * (L * ‖b‖ ^ 2 + ‖d‖ ^ 2) := by
  have h1 : ‖a * d - b * c‖ ≤ ‖a‖ * ‖d‖ + ‖b‖ * ‖c‖ := by
    calc ‖a * d - b * c‖ ≤ ‖a * d‖ + ‖b * c‖ := norm_sub_le _ _
      _ = _ := by rw [norm_mul, norm_mul]
  have h2 : ‖a * d - b * c‖ ^ 2 ≤ (‖a‖ * ‖d‖ + ‖b‖ * ‖c‖) ^ 2 :=
    pow_le_pow_left₀ (norm_nonneg _) h1 2
  refine h2.trans ?_
  set α := ‖a‖; set β := ‖b‖; set γ := ‖c‖; set δ := ‖d‖
  -- 2 αδβγ ≤ L α²β² + p γ²δ²  and  β²γ² ≤ pL β²γ²
  have h3 : β ^ 2 * γ ^ 2 ≤ p * L * (β ^ 2 * γ ^ 2) := le_mul_of_one_le_left (by positivity) hpL
  have hsq : 1 ≤ √p * √L := by
    rw [← Real.sqrt_mul hp]; exact Real.one_le_sqrt.2 hpL
  have hpos : 0 ≤ α * β * (γ * δ) := by positivity
  have h4 : 2 * (α * β * (γ * δ)) ≤ L * (α * β) ^ 2 + p * (γ * δ) ^ 2 := by
    have h5 : 0 ≤ (√L * (α * β) - √p * (γ * δ)) ^ 2 := sq_nonneg _
    have eL := Real.sq_sqrt hL
    have ep := Real.sq_sqrt hp
    have h6 : α * β * (γ * δ) ≤ √p * √L * (α * β * (γ * δ)) := le_mul_of_one_le_left hpos hsq
    nlinarith
  nlinarith

/-- `W` rows are `star` of the columns of `E`: determinants agree in modulus. -/
lemma norm_det_conjTranspose (E : Matrix (Fin 2) (Fin 2) ℂ) : ‖Eᴴ.det‖ = ‖E.det‖ := by
  rw [Matrix.det_conjTranspose, norm_star]

/-- Global optimality of jointly diagonalising, unit-power columns with the larger eigenvalue first. -/
lemma joint_diag_optimal (V : Fin 2 → Matrix (Fin 2) (Fin 2) ℂ) (hV : ∀ k, (V k).PosDef)
    (e : Fin 2 → Fin 2 → ℂ) (l L : ℝ) (hlL : l < L)
    (h0 : IsEigenpair (V 1) (V 0) L (e 0)) (h1 : IsEigenpair (V 1) (V 0) l (e 1))
    (hu : ∀ k, power (V k) (e k) = 1) (e' : Fin 2 → Fin 2 → ℂ)
    (hdet : (Matrix.of e').det ≠ 0) :
    (Matrix.of e).det ≠ 0 ∧
    ∑ k, power (V k) (e k) - 2 * Real.log ‖(Matrix.of e).det‖
      ≤ ∑ k, power (V k) (e' k) - 2 * Real.log ‖(Matrix.of e').det‖ := by
  have hH := fun k => (hV k).isHermitian
  obtain ⟨o0, o1⟩ := eig_orth (hH 1) (hH 0) h0 h1 hlL.ne'
  -- cross powers
  have c1 : power (V 1) (e 0) = L := by
    have := form_eig h0 (e 0)
    rw [form_self_real _ (hH 1), form_self_real _ (hH 0), hu 0] at this
    have h : ((power (V 1) (e 0) : ℝ) : ℂ) = ((L * 1 : ℝ) : ℂ) := by push_cast; simpa using this
    rw [mul_one] at h
    exact_mod_cast h
  have c0 : l * power (V 0) (e 1) = 1 := by
    have := form_eig h1 (e 1)
    rw [form_self_real _ (hH 1), form_self_real _ (hH 0), hu 1] at this
    have h : ((l * power (V 0) (e 1) : ℝ) : ℂ) = ((1 : ℝ) : ℂ) := by push_cast; simpa using this.symm
    exact_mod_cast h
  set p := power (V 0) (e 1) with hp
  have hp0 : 0 ≤ p := power_nonneg_of_posDef (hV 0) _
  have hL0 : 0 ≤ L := by rw [← c1]; exact power_nonneg_of_posDef (hV 1) _
  have hppos : 0 < p := by
    rcases hp0.lt_or_eq with h | h
    · exact h
    · rw [← h, mul_zero] at c0; norm_num at c0
  have hpL : 1 ≤ p * L := by nlinarith
  -- the determinant is nonzero
  have hdet0 : (Matrix.of e).det ≠ 0 := by
    intro hz
    rw [Matrix.det_fin_two] at hz
    simp only [Matrix.of_apply] at hz
    -- a nontrivial combination vanishes: e0 * a + e1 * b = 0
    have hne : e 1 ≠ 0 := by
      intro h; rw [hp, h] at hppos; simp [power] at hppos
    have key : ∀ i, power (V 0) (fun j => e 0 j * (e 1 i) + e 1 j * (-(e 0 i))) = 0 := by
      intro i
      have : (fun j => e 0 j * (e 1 i) + e 1 j * (-(e 0 i))) = 0 := by
        funext j
        fin_cases i <;> fin_cases j <;> simp <;> first | ring1 | linear_combination hz | linear_combination -hz
      rw [this]; simp [power]
    apply hne
    funext i
    have h := key i
    rw [power_comb (V 0) (hH 0) (e 0) (e 1) o0, hu 0, ← hp] at h
    have h2 : 0 ≤ p * ‖-(e 0 i)‖ ^ 2 := by positivity
    have h3 : ‖e 1 i‖ ^ 2 = 0 := by nlinarith [sq_nonneg ‖e 1 i‖]
    simpa using h3
  refine ⟨hdet0, ?_⟩
  -- coordinates
  set D := (Matrix.of e).det with hD
  have hDe : D = e 0 0 * e 1 1 - e 0 1 * e 1 0 := by rw [hD, Matrix.det_fin_two]; rfl
  have coords : ∀ v : Fin 2 → ℂ, v = fun i => e 0 i * ((v 0 * e 1 1 - v 1 * e 1 0) / D)
      + e 1 i * ((v 1 * e 0 0 - v 0 * e 0 1) / D) := by
    intro v
    funext i
    have hDne : e 0 0 * e 1 1 - e 0 1 * e 1 0 ≠ 0 := by rw [← hDe]; exact hdet0
    rw [hDe]
    fin_cases i
    · show v 0 = e 0 0 * ((v 0 * e 1 1 - v 1 * e 1 0) / (e 0 0 * e 1 1 - e 0 1 * e 1 0))
        + e 1 0 * ((v 1 * e 0 0 - v 0 * e 0 1) / (e 0 0 * e 1 1 - e 0 1 * e 1 0))
      rw [mul_div_assoc', mul_div_assoc', ← add_div, eq_div_iff hDne]
      ring
    · show v 1 = e 0 1 * ((v 0 * e 1 1 - v 1 * e 1 0) / (e 0 0 * e 1 1 - e 0 1 * e 1 0))
        + e 1 1 * ((v 1 * e 0 0 - v 0 * e 0 1) / (e 0 0 * e 1 1 - e 0 1 * e 1 0))
      rw [mul_div_assoc', mul_div_assoc', ← add_div, eq_div_iff hDne]
      ring
  set a := (e' 0 0 * e 1 1 - e' 0 1 * e 1 0) / D with ha
  set c := (e' 0 1 * e 0 0 - e' 0 0 * e 0 1) / D with hc
  set b := (e' 1 0 * e 1 1 - e' 1 1 * e 1 0) / D with hb
  set d := (e' 1 1 * e 0 0 - e' 1 0 * e 0 1) / D with hd
  have q0 : power (V 0) (e' 0) = ‖a‖ ^ 2 + p * ‖c‖ ^ 2 := by
    rw [coords (e' 0), power_comb (V 0) (hH 0) (e 0) (e 1) o0, hu 0, one_mul]
  have q1 : power (V 1) (e' 1) = L * ‖b‖ ^ 2 + ‖d‖ ^ 2 := by
    rw [coords (e' 1), power_comb (V 1) (hH 1) (e 0) (e 1) o1, hu 1, one_mul, c1]
  have hdet' : (Matrix.of e').det = D * (a * d - b * c) := by
    rw [Matrix.det_fin_two, ha, hb, hc, hd]
    have hDne : e 0 0 * e 1 1 - e 0 1 * e 1 0 ≠ 0 := by rw [← hDe]; exact hdet0
    simp only [Matrix.of_apply]
    rw [hDe]
    field_simp
    ring
  have hineq := two_by_two_ineq hp0 hL0 hpL a b c d
  rw [← q0, ← q1] at hineq
  have hM : a * d - b * c ≠ 0 := by
    intro h; rw [hdet', h, mul_zero] at hdet; exact hdet rfl
  have hMpos : 0 < ‖a * d - b * c‖ := norm_pos_iff.2 hM
  set P := power (V 0) (e' 0) with hP
  set Q := power (V 1) (e' 1) with hQ
  have hP0 : 0 ≤ P := power_nonneg_of_posDef (hV 0) _
  have hQ0 : 0 ≤ Q := power_nonneg_of_posDef (hV 1) _
  have hPQ : 0 < P * Q := lt_of_lt_of_le (by positivity) hineq
  have hPpos : 0 < P := by
    rcases hP0.lt_or_eq with h | h
    · exact h
    · rw [← h, zero_mul] at hPQ; exact absurd hPQ (lt_irrefl _)
  have hQpos : 0 < Q := by
    rcases hQ0.lt_or_eq with h | h
    · exact h
    · rw [← h, mul_zero] at hPQ; exact absurd hPQ (lt_irrefl _)
  have hlog : 2 * Real.log ‖a * d - b * c‖ ≤ Real.log P + Real.log Q := by
    rw [← Real.log_mul hPpos.ne' hQpos.ne']
    have := Real.log_le_log (by positivity) hineq
    rwa [Real.log_pow] at this
  have l1 := Real.log_le_sub_one_of_pos hPpos
  have l2 := Real.log_le_sub_one_of_pos hQpos
  have hDpos : 0 < ‖D‖ := norm_pos_iff.2 hdet0
  rw [Fin.sum_univ_two, Fin.sum_univ_two, hu 0, hu 1, hdet', norm_mul,
    Real.log_mul hDpos.ne' hMpos.ne', ← hP, ← hQ]
  linarith

end Torchiva
