import Verif.Proofs.TIss
import Verif.Proofs.Eig2
import Verif.Spec.TIss
import Mathlib.LinearAlgebra.Matrix.SchurComplement

/-! # Descent of the auxiliary cost under ISS steps -/

namespace Torchiva

open Matrix Spec

section scalar
variable {N : ℕ}

/-- Expansion of the weighted energy of `y - v z`. -/
lemma energy_expand (w : Fin N → ℝ) (y z : Fin N → ℂ) (v : ℂ) :
    ∑ n, w n * ‖y n - v * z n‖ ^ 2 = (∑ n, w n * ‖y n‖ ^ 2)
      - 2 * (star v * ∑ n, (w n : ℂ) * y n * star (z n)).re
      + ‖v‖ ^ 2 * ∑ n, w n * ‖z n‖ ^ 2 := by
  have e : ∀ n, w n * ‖y n - v * z n‖ ^ 2 = w n * ‖y n‖ ^ 2
      - 2 * (star v * ((w n : ℂ) * y n * star (z n))).re + ‖v‖ ^ 2 * (w n * ‖z n‖ ^ 2) := by
    intro n
    rw [sub_eq_add_neg, norm_sq_add, norm_neg, norm_mul, mul_pow]
    have : (star (-(v * z n)) * y n).re * w n = - (star v * ((w n : ℂ) * y n * star (z n))).re := by
      have h : star v * ((w n : ℂ) * y n * star (z n)) = (w n : ℂ) * (star v * star (z n) * y n) := by ring
      rw [h, Complex.re_ofReal_mul]
      simp only [star_neg, star_mul', neg_mul, Complex.neg_re]
      ring
    have h2 : (star (y n) * -(v * z n)).re = (star (-(v * z n)) * y n).re := by
      have := Complex.conj_re (star (-(v * z n)) * y n)
      rw [← this]
      congr 1
      change _ = star (star (-(v * z n)) * y n)
      rw [star_mul', star_star]; ring
    first
      | nlinarith [this]
      | (rw [h2]; nlinarith [this])
  simp only [e, Finset.sum_add_distrib, Finset.sum_sub_distrib, ← Finset.mul_sum]
  rw [Finset.mul_sum Finset.univ _ (star v), Complex.re_sum]

/-- Subtracting the (clamped) projection on `z` does not increase the weighted energy. -/
lemma energy_projection_le (w : Fin N → ℝ) (y z : Fin N → ℂ) (c eps : ℝ)
    (hc : 0 < c) (he : 0 < eps) :
    ∑ n, w n * ‖y n - divide ((∑ n, (w n : ℂ) * y n * star (z n)) * (c : ℂ))
        ((∑ n, w n * magSq (z n)) * c) eps * z n‖ ^ 2 ≤ ∑ n, w n * ‖y n‖ ^ 2 := by
  simp only [magSq_eq]
  set p := ∑ n, (w n : ℂ) * y n * star (z n) with hp
  set D := ∑ n, w n * ‖z n‖ ^ 2 with hD
  rw [energy_expand, ← hp, ← hD]
  unfold divide clampMin
  set m := max (D * c) eps with hm
  have hm0 : 0 < m := lt_of_lt_of_le he (le_max_right _ _)
  have hDm : D * c ≤ m := le_max_left _ _
  have e1 : (star (p * (c : ℂ) / (m : ℂ)) * p).re = c / m * ‖p‖ ^ 2 := by
    have : star (p * (c : ℂ) / (m : ℂ)) * p = ((c / m : ℝ) : ℂ) * (star p * p) := by
      simp only [star_div₀, star_mul', Complex.star_def, Complex.conj_ofReal]
      push_cast; ring
    rw [this, Complex.re_ofReal_mul, Complex.star_def, ← Complex.normSq_eq_conj_mul_self,
      Complex.ofReal_re, Complex.normSq_eq_norm_sq]
  have e2 : ‖p * (c : ℂ) / (m : ℂ)‖ ^ 2 = c ^ 2 / m ^ 2 * ‖p‖ ^ 2 := by
    rw [norm_div, norm_mul, Complex.norm_of_nonneg hm0.le, Complex.norm_of_nonneg hc.le]
    field_simp
  rw [e1, e2]
  have h3 : c ^ 2 / m ^ 2 * ‖p‖ ^ 2 * D ≤ c / m * ‖p‖ ^ 2 := by
    have : c ^ 2 / m ^ 2 * ‖p‖ ^ 2 * D = (c / m * ‖p‖ ^ 2) * (D * c / m) := by field_simp
    rw [this]
    have h4 : D * c / m ≤ 1 := (div_le_one hm0).2 hDm
    have h5 : 0 ≤ c / m * ‖p‖ ^ 2 := by positivity
    nlinarith
  have h5 : 0 ≤ c / m * ‖p‖ ^ 2 := by positivity
  linarith

/-- The normalisation step: `Q / m - Q + log m ≤ 0` for `m = max Q eps`, `eps ≤ 1`. -/
lemma normalise_le {Q eps : ℝ} (he : 0 < eps) (he1 : eps ≤ 1) :
    Q / max Q eps + Real.log (max Q eps) ≤ Q := by
  set m := max Q eps with hm
  have hm0 : 0 < m := lt_of_lt_of_le he (le_max_right _ _)
  have h1 := Real.log_le_sub_one_of_pos hm0
  have h2 : Q / m - Q + (m - 1) = (m - Q) * (1 - 1 / m) := by field_simp; ring
  have h3 : (m - Q) * (1 - 1 / m) ≤ 0 := by
    rcases le_total Q eps with h | h
    · have : m = eps := max_eq_right h
      have h4 : 1 ≤ 1 / m := by rw [this]; exact (one_le_div he).2 he1
      nlinarith [sub_nonneg.2 (le_max_left Q eps)]
    · have : m = Q := max_eq_left h
      rw [this]; simp
  linarith

end scalar

section rowop
variable {C : ℕ}

/-- Determinant after subtracting multiples of row `i₀` from every row. -/
lemma det_rowop (M : Matrix (Fin C) (Fin C) ℂ) (v : Fin C → ℂ) (i₀ : Fin C) :
    (Matrix.of fun i d => M i d - v i * M i₀ d).det = (1 - v i₀) * M.det := by
  have h : (Matrix.of fun i d => M i d - v i * M i₀ d)
      = (1 + replicateCol Unit (-v) * replicateRow Unit (Pi.single i₀ (1 : ℂ))) * M := by
    ext i d
    rw [Matrix.add_mul, Matrix.one_mul, Matrix.add_apply, Matrix.mul_assoc]
    simp [Matrix.mul_apply, Pi.single_apply, sub_eq_add_neg]
  rw [h, Matrix.det_mul, det_one_add_replicateCol_mul_replicateRow]
  simp [sub_eq_add_neg]

end rowop

section dims
variable {s C F N T : ℕ}

lemma demixDerev_eq_demixed (X : Sig C F N) (Xbar : Taps C F T N) (W : DemixW s F C)
    (H : DemixH s F C T) : demixDerev X Xbar W H = demixed X Xbar W H := rfl

/-- `fullDemix` after a source step. -/
lemma fullDemix_src (hs : s ≤ C) (W : DemixW s F C) (J : BackJ (C - s) F s) (v : Fin s → Fin F → ℂ)
    (src : Fin s) (f : Fin F) :
    (fullDemix (fun c f d => W c f d - v c f * W src f d) J f).det
      = (1 - v src f) * (fullDemix W J f).det := by
  have := det_rowop (fullDemix W J f) (fun i => if h : i.1 < s then v ⟨i, h⟩ f else 0) (Fin.castLE hs src)
  simp only [Fin.val_castLE, Fin.is_lt, dif_pos] at this
  rw [← this]
  congr 1
  ext i d
  simp only [fullDemix, Matrix.of_apply, Fin.val_castLE, Fin.is_lt, dif_pos]
  by_cases h : i.1 < s <;> simp [h]

/-- `fullDemix` after a background step. -/
lemma fullDemix_bak (hs : s ≤ C) (W : DemixW s F C) (J : BackJ (C - s) F s) (v : Fin s → Fin F → ℂ)
    (bak : Fin (C - s)) (f : Fin F) :
    (fullDemix (fun c f d =>
      if d.1 = s + bak then
        (if h : d.1 < s then W c f d - v c f * J bak f ⟨d, h⟩ else W c f d) + v c f
      else (if h : d.1 < s then W c f d - v c f * J bak f ⟨d, h⟩ else W c f d)) J f).det
      = (fullDemix W J f).det := by
  have hb : s + bak.1 < C := by omega
  have := det_rowop (fullDemix W J f) (fun i => if h : i.1 < s then v ⟨i, h⟩ f else 0) ⟨s + bak, hb⟩
  have h0 : ¬ (s + bak.1 < s) := by omega
  simp only [h0, dif_neg, not_false_eq_true, sub_zero, one_mul] at this
  rw [← this]
  congr 1
  ext i d
  simp only [fullDemix, Matrix.of_apply, h0, dif_neg, not_false_eq_true]
  by_cases h : i.1 < s
  · simp only [h, dif_pos]
    have e : (⟨s + bak.1 - s, by omega⟩ : Fin (C - s)) = bak := by ext; simp
    by_cases h1 : d.1 < s
    · have h2 : d.1 ≠ s + bak := by omega
      simp only [h1, dif_pos, h2, if_neg, not_false_eq_true, e]
    · by_cases h2 : d.1 = s + bak
      · have h3 : d = ⟨s + bak, hb⟩ := Fin.ext h2
        subst h3
        simp
      · have h3 : d ≠ ⟨s + bak, hb⟩ := fun hh => h2 (congrArg Fin.val hh)
        simp [h1, h2, h3]
  · simp [h]

/-- One step decreases the cost, keeps the invariant and keeps the demixing matrix invertible. -/
structure StepOk (w : Weights s F N) (X : Sig C F N) (Xbar : Taps C F T N) (J : BackJ (C - s) F s)
    (st st' : IssState s C F N T) : Prop where
  inv : Inv X Xbar st'.Y st'.W st'.H
  det : ∀ f, (fullDemix st.W J f).det ≠ 0 → (fullDemix st'.W J f).det ≠ 0
  cost : ∀ f, (fullDemix st.W J f).det ≠ 0 →
    auxCost w X Xbar J f st'.W st'.H ≤ auxCost w X Xbar J f st.W st.H

lemma StepOk.refl {w : Weights s F N} {X : Sig C F N} {Xbar : Taps C F T N} {J : BackJ (C - s) F s}
    {st : IssState s C F N T} (h : Inv X Xbar st.Y st.W st.H) : StepOk w X Xbar J st st :=
  ⟨h, fun _ => id, fun _ _ => le_rfl⟩

lemma StepOk.trans {w : Weights s F N} {X : Sig C F N} {Xbar : Taps C F T N} {J : BackJ (C - s) F s}
    {a b c : IssState s C F N T} (h₁ : StepOk w X Xbar J a b) (h₂ : StepOk w X Xbar J b c) :
    StepOk w X Xbar J a c :=
  ⟨h₂.inv, fun f h => h₂.det f (h₁.det f h),
    fun f h => (h₂.cost f (h₁.det f h)).trans (h₁.cost f h)⟩

lemma step_src (hs : s ≤ C) {w : Weights s F N} {X : Sig C F N} {Xbar : Taps C F T N}
    (J : BackJ (C - s) F s) {eps : ℝ} (he : 0 < eps) (he1 : eps ≤ 1) (hN : 0 < N)
    (st : IssState s C F N T) (src : Fin s)
    (h : Inv X Xbar st.Y st.W st.H) : StepOk w X Xbar J st (issSrcStep w eps st src) := by
  have hi := inv_srcStep w eps st src h
  have hN' : (0 : ℝ) < N := by exact_mod_cast hN
  have hdet : ∀ f, (fullDemix (issSrcStep w eps st src).W J f).det
      = ((1 / √(max ((∑ n, w src f n * ‖st.Y src f n‖ ^ 2) / N) eps) : ℝ) : ℂ) * (fullDemix st.W J f).det := by
    intro f
    have := fullDemix_src hs st.W J (issType1 src st.Y w eps) src f
    simp only [issSrcStep]
    rw [this]
    congr 1
    simp only [issType1, if_true, clampMin, magSq_eq]
    push_cast
    rw [mul_one_div]
    ring
  refine ⟨hi, fun f hf => ?_, fun f hf => ?_⟩
  · rw [hdet]
    refine mul_ne_zero ?_ hf
    have : 0 < √(max ((∑ n, w src f n * ‖st.Y src f n‖ ^ 2) / N) eps) :=
      Real.sqrt_pos.2 (lt_of_lt_of_le he (le_max_right _ _))
    exact_mod_cast (by positivity : (1 / √(max ((∑ n, w src f n * ‖st.Y src f n‖ ^ 2) / N) eps) : ℝ) ≠ 0)
  · unfold Inv at hi h
    unfold auxCost
    rw [hdet f]
    rw [← demixDerev_eq_demixed, ← demixDerev_eq_demixed, ← hi, ← h]
    set Q := (∑ n, w src f n * ‖st.Y src f n‖ ^ 2) / N with hQ
    set m := max Q eps with hm
    have hm0 : 0 < m := lt_of_lt_of_le he (le_max_right _ _)
    have hsm : 0 < √m := Real.sqrt_pos.2 hm0
    have hlog : Real.log ‖((1 / √m : ℝ) : ℂ) * (fullDemix st.W J f).det‖
        = - (Real.log m) / 2 + Real.log ‖(fullDemix st.W J f).det‖ := by
      rw [norm_mul, Complex.norm_of_nonneg (by positivity),
        Real.log_mul (by positivity) (norm_ne_zero_iff.2 hf), one_div, Real.log_inv,
        Real.log_sqrt hm0.le]
      ring
    rw [hlog]
    have hnorm := normalise_le (Q := Q) he he1
    rw [← hm] at hnorm
    have hsum : ∑ k, (∑ n, w k f n * ‖(issSrcStep w eps st src).Y k f n‖ ^ 2) / N
        ≤ (∑ k, (∑ n, w k f n * ‖st.Y k f n‖ ^ 2) / N) - Q + Q / m := by
      rw [← Finset.add_sum_erase _ _ (Finset.mem_univ src),
        ← Finset.add_sum_erase _ (fun k => (∑ n, w k f n * ‖st.Y k f n‖ ^ 2) / N) (Finset.mem_univ src)]
      have h1 : (∑ n, w src f n * ‖(issSrcStep w eps st src).Y src f n‖ ^ 2) / N = Q / m := by
        have : ∀ n, w src f n * ‖(issSrcStep w eps st src).Y src f n‖ ^ 2
            = w src f n * ‖st.Y src f n‖ ^ 2 / m := by
          intro n
          have e : (issSrcStep w eps st src).Y src f n = ((1 / √m : ℝ) : ℂ) * st.Y src f n := by
            simp only [issSrcStep, issType1, if_true, clampMin, magSq_eq]
            rw [mul_one_div, ← hQ, ← hm]
            push_cast; ring
          rw [e, norm_mul, Complex.norm_of_nonneg (by positivity), mul_pow, div_pow, one_pow,
            Real.sq_sqrt hm0.le]
          ring
        simp only [this, ← Finset.sum_div]
        rw [hQ]; ring
      have h2 : ∑ k ∈ Finset.univ.erase src, (∑ n, w k f n * ‖(issSrcStep w eps st src).Y k f n‖ ^ 2) / N
          ≤ ∑ k ∈ Finset.univ.erase src, (∑ n, w k f n * ‖st.Y k f n‖ ^ 2) / N := by
        refine Finset.sum_le_sum fun k hk => ?_
        have hk' : k ≠ src := (Finset.mem_erase.1 hk).1
        refine div_le_div_of_nonneg_right ?_ hN'.le
        have := energy_projection_le (w k f) (st.Y k f) (st.Y src f) (1 / N) eps (by positivity) he
        refine le_trans (le_of_eq ?_) this
        refine Finset.sum_congr rfl fun n _ => ?_
        simp only [issSrcStep, issType1, if_neg hk']
      rw [h1]
      linarith
    linarith

lemma cost_le_of_energy {w : Weights s F N} {X : Sig C F N} {Xbar : Taps C F T N}
    {J : BackJ (C - s) F s} {st st' : IssState s C F N T} (h : Inv X Xbar st.Y st.W st.H)
    (h' : Inv X Xbar st'.Y st'.W st'.H)
    (hdet : ∀ f, (fullDemix st'.W J f).det = (fullDemix st.W J f).det)
    (hY : ∀ k f, ∑ n, w k f n * ‖st'.Y k f n‖ ^ 2 ≤ ∑ n, w k f n * ‖st.Y k f n‖ ^ 2) :
    StepOk w X Xbar J st st' := by
  refine ⟨h', fun f hf => by rw [hdet]; exact hf, fun f _ => ?_⟩
  unfold Inv at h h'
  unfold auxCost
  rw [hdet f, ← demixDerev_eq_demixed, ← demixDerev_eq_demixed, ← h, ← h']
  refine sub_le_sub_right (Finset.sum_le_sum fun k _ => ?_) _
  exact div_le_div_of_nonneg_right (hY k f) (Nat.cast_nonneg _)

lemma step_bak (hs : s ≤ C) {w : Weights s F N} {X : Sig C F N} {Xbar : Taps C F T N}
    (J : BackJ (C - s) F s) {eps : ℝ} (he : 0 < eps) (st : IssState s C F N T) (bak : Fin (C - s))
    (h : Inv X Xbar st.Y st.W st.H) :
    StepOk w X Xbar J st (issBakStep w eps (demixBackground hs X J) J st bak) := by
  refine cost_le_of_energy h (inv_bakStep hs w eps J st bak h) (fun f => ?_) (fun k f => ?_)
  · exact fullDemix_bak hs st.W J _ bak f
  · have := energy_projection_le (w k f) (st.Y k f) (demixBackground hs X J bak f) 1 eps one_pos he
    refine le_trans (le_of_eq ?_) this
    refine Finset.sum_congr rfl fun n _ => ?_
    simp only [issBakStep, issType2, Complex.ofReal_one, mul_one]

lemma step_tap {w : Weights s F N} {X : Sig C F N} {Xbar : Taps C F T N}
    (J : BackJ (C - s) F s) {eps : ℝ} (he : 0 < eps) (st : IssState s C F N T) (src : Fin C)
    (tap : Fin T) (h : Inv X Xbar st.Y st.W st.H) :
    StepOk w X Xbar J st (issTapStep w eps Xbar st src tap) := by
  refine cost_le_of_energy h (inv_tapStep w eps st src tap h) (fun f => rfl) (fun k f => ?_)
  have := energy_projection_le (w k f) (st.Y k f) (Xbar src f tap) 1 eps one_pos he
  refine le_trans (le_of_eq ?_) this
  refine Finset.sum_congr rfl fun n _ => ?_
  simp only [issTapStep, issType3, Complex.ofReal_one, mul_one]

lemma foldl_step {β : Type} {w : Weights s F N} {X : Sig C F N} {Xbar : Taps C F T N}
    {J : BackJ (C - s) F s} (f : IssState s C F N T → β → IssState s C F N T)
    (hf : ∀ a b, Inv X Xbar a.Y a.W a.H → StepOk w X Xbar J a (f a b)) (l : List β)
    (a : IssState s C F N T) (h : Inv X Xbar a.Y a.W a.H) : StepOk w X Xbar J a (l.foldl f a) := by
  induction l generalizing a with
  | nil => exact StepOk.refl h
  | cons b l ih => exact (hf a b h).trans (ih _ (hf a b h).inv)

lemma step_updates (hs : s ≤ C) {w : Weights s F N} {X : Sig C F N} {Xbar : Taps C F T N}
    (J : BackJ (C - s) F s) {eps : ℝ} (he : 0 < eps) (he1 : eps ≤ 1) (hN : 0 < N)
    (oJ : Option (BackJ (C - s) F s)) (hoJ : ∀ J', oJ = some J' → J' = J)
    (st : IssState s C F N T) (h : Inv X Xbar st.Y st.W st.H) :
    StepOk w X Xbar J st (issUpdates Xbar w eps (oJ.map fun J => (demixBackground hs X J, J)) st) := by
  unfold issUpdates
  simp only
  have h1 := foldl_step (J := J) (issSrcStep w eps) (fun a b ha => step_src hs J he he1 hN a b ha)
    (List.finRange s) st h
  have h2 : StepOk w X Xbar J st (match oJ.map (fun J => (demixBackground hs X J, J)) with
      | some (Z, J) => (List.finRange (C - s)).foldl (issBakStep w eps Z J)
          ((List.finRange s).foldl (issSrcStep w eps) st)
      | none => (List.finRange s).foldl (issSrcStep w eps) st) := by
    cases oJ with
    | none => exact h1
    | some J' =>
      obtain rfl := hoJ J' rfl
      exact h1.trans (foldl_step _ (fun a b ha => step_bak hs J' he a b ha) _ _ h1.inv)
  refine h2.trans (foldl_step _ (fun a b ha => ?_) _ _ h2.inv)
  exact foldl_step _ (fun a' b' h' => step_tap J he a' b b' h') _ _ ha

end dims

end Torchiva
