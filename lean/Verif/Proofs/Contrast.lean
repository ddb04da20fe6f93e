import Verif.Proofs.TIssCost
import Verif.Spec.Contrast
import Mathlib.Algebra.Order.Chebyshev
import Mathlib.Analysis.MeanInequalities

/-! # Descent of the scale-free objective under ISS steps -/

namespace Torchiva

open Matrix Spec

/-- Arithmetic and geometric mean. -/
lemma prod_le_mean_pow {n : ℕ} (m : Fin n → ℝ) (hm : ∀ i, 0 ≤ m i) :
    ∏ i, m i ≤ ((∑ i, m i) / n) ^ n := by
  rcases Nat.eq_zero_or_pos n with rfl | hn
  · simp
  have hn' : (0 : ℝ) < n := by exact_mod_cast hn
  have h := Real.geom_mean_le_arith_mean_weighted Finset.univ (fun _ : Fin n => (1 : ℝ) / n) m
    (fun _ _ => by positivity) (by simp; field_simp) (fun i _ => hm i)
  have h0 : 0 ≤ ∏ i, m i ^ ((1 : ℝ) / n) := Finset.prod_nonneg fun i _ => Real.rpow_nonneg (hm i) _
  have h1 := pow_le_pow_left₀ h0 h n
  rw [← Finset.prod_pow] at h1
  refine le_trans (le_of_eq ?_) (h1.trans (le_of_eq ?_))
  · refine Finset.prod_congr rfl fun i _ => ?_
    rw [← Real.rpow_natCast, ← Real.rpow_mul (hm i), one_div_mul_cancel hn'.ne', Real.rpow_one]
  · rw [← Finset.mul_sum]; congr 1; ring

/-- The normalisation of one source at all frequencies. -/
lemma normalise_prod {F : ℕ} (D : Fin F → ℝ) (hD : ∀ f, 0 ≤ D f) {eps : ℝ} (he : 0 < eps) :
    (∑ f, D f / max (D f) eps) ^ F * ∏ f, max (D f) eps ≤ (∑ f, D f) ^ F := by
  rcases Nat.eq_zero_or_pos F with rfl | hF
  · simp
  have hF' : (0 : ℝ) < F := by exact_mod_cast hF
  have hm : ∀ f, 0 < max (D f) eps := fun f => lt_of_lt_of_le he (le_max_right _ _)
  have hmono : Monovary (fun f => D f / max (D f) eps) (fun f => max (D f) eps) := by
    intro i j hij
    have hi := hm i
    have hj := hm j
    simp only at hij ⊢
    have hlt : D i < D j := by
      by_contra hc
      exact absurd (max_le_max (not_lt.1 hc) le_rfl : max (D j) eps ≤ max (D i) eps) (not_le.2 hij)
    have hje : max (D j) eps = D j := by
      rcases le_total (D j) eps with h | h
      · rw [max_eq_right h, max_eq_right (hlt.le.trans h)] at hij
        exact absurd hij (lt_irrefl _)
      · exact max_eq_left h
    rw [hje, div_self (by rw [hje] at hj; exact hj.ne')]
    exact (div_le_one hi).2 (le_max_left _ _)
  have hch := hmono.sum_mul_sum_le_card_mul_sum
  have e : ∀ f, D f / max (D f) eps * max (D f) eps = D f := fun f => div_mul_cancel₀ _ (hm f).ne'
  simp only [e, Fintype.card_fin] at hch
  have ham := prod_le_mean_pow (fun f => max (D f) eps) (fun f => (hm f).le)
  have hs0 : 0 ≤ ∑ f, D f / max (D f) eps := Finset.sum_nonneg fun f _ => div_nonneg (hD f) (hm f).le
  calc _ ≤ (∑ f, D f / max (D f) eps) ^ F * ((∑ f, max (D f) eps) / F) ^ F :=
        mul_le_mul_of_nonneg_left ham (pow_nonneg hs0 _)
    _ = ((∑ f, D f / max (D f) eps) * (∑ f, max (D f) eps) / F) ^ F := by rw [← mul_pow, mul_div_assoc]
    _ ≤ _ := by
      refine pow_le_pow_left₀ (div_nonneg (mul_nonneg hs0 (Finset.sum_nonneg fun f _ => (hm f).le)) hF'.le) ?_ _
      rw [div_le_iff₀ hF']
      linarith

section dims
variable {s C F N T : ℕ}

/-- Weighted energy of source `k` over all frequencies and frames. -/
noncomputable def srcEnergy (w : Weights s F N) (Y : Sig s F N) (k : Fin s) : ℝ :=
  ∑ f, (∑ n, w k f n * ‖Y k f n‖ ^ 2) / N

lemma srcEnergy_nonneg {w : Weights s F N} (hw : ∀ k f n, 0 ≤ w k f n) (Y : Sig s F N) (k : Fin s) :
    0 ≤ srcEnergy w Y k :=
  Finset.sum_nonneg fun f _ => div_nonneg
    (Finset.sum_nonneg fun n _ => mul_nonneg (hw k f n) (by positivity)) (by positivity)

/-- The scale-free objective in product form. -/
noncomputable def freeObj (w : Weights s F N) (J : BackJ (C - s) F s) (st : IssState s C F N T) : ℝ :=
  (∏ k, srcEnergy w st.Y k ^ F) / ∏ f, ‖(fullDemix st.W J f).det‖ ^ 2

/-- A step does not increase the scale-free objective and keeps the demixing matrices invertible. -/
structure FreeOk (w : Weights s F N) (J : BackJ (C - s) F s) (st st' : IssState s C F N T) : Prop where
  det : (∀ f, (fullDemix st.W J f).det ≠ 0) → ∀ f, (fullDemix st'.W J f).det ≠ 0
  obj : (∀ f, (fullDemix st.W J f).det ≠ 0) → freeObj w J st' ≤ freeObj w J st

lemma FreeOk.refl {w : Weights s F N} {J : BackJ (C - s) F s} {st : IssState s C F N T} :
    FreeOk w J st st := ⟨id, fun _ => le_rfl⟩

lemma FreeOk.trans {w : Weights s F N} {J : BackJ (C - s) F s} {a b c : IssState s C F N T}
    (h₁ : FreeOk w J a b) (h₂ : FreeOk w J b c) : FreeOk w J a c :=
  ⟨fun h => h₂.det (h₁.det h), fun h => (h₂.obj (h₁.det h)).trans (h₁.obj h)⟩

lemma free_of_energy {w : Weights s F N} (hw : ∀ k f n, 0 ≤ w k f n) {J : BackJ (C - s) F s}
    {st st' : IssState s C F N T}
    (hdet : ∀ f, (fullDemix st'.W J f).det = (fullDemix st.W J f).det)
    (hY : ∀ k f, ∑ n, w k f n * ‖st'.Y k f n‖ ^ 2 ≤ ∑ n, w k f n * ‖st.Y k f n‖ ^ 2) :
    FreeOk w J st st' := by
  refine ⟨fun h f => by rw [hdet]; exact h f, fun _ => ?_⟩
  unfold freeObj
  simp only [hdet]
  refine div_le_div_of_nonneg_right ?_ (Finset.prod_nonneg fun f _ => by positivity)
  refine Finset.prod_le_prod (fun k _ => pow_nonneg (srcEnergy_nonneg hw _ _) _) fun k _ => ?_
  refine pow_le_pow_left₀ (srcEnergy_nonneg hw _ _) ?_ _
  exact Finset.sum_le_sum fun f _ => div_le_div_of_nonneg_right (hY k f) (Nat.cast_nonneg _)

lemma free_src (hs : s ≤ C) {w : Weights s F N} (hw : ∀ k f n, 0 ≤ w k f n)
    (J : BackJ (C - s) F s) {eps : ℝ} (he : 0 < eps) (hN : 0 < N)
    (st : IssState s C F N T) (src : Fin s) : FreeOk w J st (issSrcStep w eps st src) := by
  have hN' : (0 : ℝ) < N := by exact_mod_cast hN
  set D : Fin F → ℝ := fun f => (∑ n, w src f n * ‖st.Y src f n‖ ^ 2) / N with hDdef
  have hD : ∀ f, 0 ≤ D f := fun f => div_nonneg
    (Finset.sum_nonneg fun n _ => mul_nonneg (hw src f n) (by positivity)) hN'.le
  have hm : ∀ f, 0 < max (D f) eps := fun f => lt_of_lt_of_le he (le_max_right _ _)
  have hdet : ∀ f, (fullDemix (issSrcStep w eps st src).W J f).det
      = ((1 / √(max (D f) eps) : ℝ) : ℂ) * (fullDemix st.W J f).det := by
    intro f
    have := fullDemix_src hs st.W J (issType1 src st.Y w eps) src f
    simp only [issSrcStep]
    rw [this]
    congr 1
    simp only [issType1, if_true, clampMin, magSq_eq, hDdef]
    push_cast
    rw [mul_one_div]
    ring
  refine ⟨fun h f => ?_, fun h => ?_⟩
  · rw [hdet]
    refine mul_ne_zero ?_ (h f)
    have := Real.sqrt_pos.2 (hm f)
    exact_mod_cast (by positivity : (1 / √(max (D f) eps) : ℝ) ≠ 0)
  · unfold freeObj
    have hn : ∀ f, ‖(fullDemix (issSrcStep w eps st src).W J f).det‖ ^ 2
        = ‖(fullDemix st.W J f).det‖ ^ 2 / max (D f) eps := by
      intro f
      rw [hdet, norm_mul, Complex.norm_of_nonneg (by positivity), mul_pow, div_pow, one_pow,
        Real.sq_sqrt (hm f).le]
      ring
    simp only [hn, Finset.prod_div_distrib]
    have hP : 0 < ∏ f, ‖(fullDemix st.W J f).det‖ ^ 2 :=
      Finset.prod_pos fun f _ => by have := norm_pos_iff.2 (h f); positivity
    rw [div_div_eq_mul_div]
    refine div_le_div_of_nonneg_right ?_ hP.le
    rw [← Finset.mul_prod_erase _ _ (Finset.mem_univ src),
      ← Finset.mul_prod_erase _ (fun k => srcEnergy w st.Y k ^ F) (Finset.mem_univ src)]
    have h1 : srcEnergy w (issSrcStep w eps st src).Y src = ∑ f, D f / max (D f) eps := by
      refine Finset.sum_congr rfl fun f _ => ?_
      have : ∀ n, w src f n * ‖(issSrcStep w eps st src).Y src f n‖ ^ 2
          = w src f n * ‖st.Y src f n‖ ^ 2 / max (D f) eps := by
        intro n
        have e : (issSrcStep w eps st src).Y src f n = ((1 / √(max (D f) eps) : ℝ) : ℂ) * st.Y src f n := by
          simp only [issSrcStep, issType1, if_true, clampMin, magSq_eq, hDdef]
          rw [mul_one_div]
          push_cast; ring
        rw [e, norm_mul, Complex.norm_of_nonneg (by positivity), mul_pow, div_pow, one_pow,
          Real.sq_sqrt (hm f).le]
        ring
      simp only [this, ← Finset.sum_div]
      simp only [hDdef]; ring
    have h2 : ∏ k ∈ Finset.univ.erase src, srcEnergy w (issSrcStep w eps st src).Y k ^ F
        ≤ ∏ k ∈ Finset.univ.erase src, srcEnergy w st.Y k ^ F := by
      refine Finset.prod_le_prod (fun k _ => pow_nonneg (srcEnergy_nonneg hw _ _) _) fun k hk => ?_
      have hk' : k ≠ src := (Finset.mem_erase.1 hk).1
      refine pow_le_pow_left₀ (srcEnergy_nonneg hw _ _) (Finset.sum_le_sum fun f _ => ?_) _
      refine div_le_div_of_nonneg_right ?_ hN'.le
      have := energy_projection_le (w k f) (st.Y k f) (st.Y src f) (1 / N) eps (by positivity) he
      refine le_trans (le_of_eq ?_) this
      refine Finset.sum_congr rfl fun n _ => ?_
      simp only [issSrcStep, issType1, if_neg hk']
    have h3 := normalise_prod D hD he
    rw [h1]
    have h4 : 0 ≤ ∏ k ∈ Finset.univ.erase src, srcEnergy w (issSrcStep w eps st src).Y k ^ F :=
      Finset.prod_nonneg fun k _ => pow_nonneg (srcEnergy_nonneg hw _ _) _
    calc _ = ((∑ f, D f / max (D f) eps) ^ F * ∏ f, max (D f) eps)
          * ∏ k ∈ Finset.univ.erase src, srcEnergy w (issSrcStep w eps st src).Y k ^ F := by ring
      _ ≤ (∑ f, D f) ^ F * ∏ k ∈ Finset.univ.erase src, srcEnergy w st.Y k ^ F :=
        mul_le_mul h3 h2 h4 (pow_nonneg (Finset.sum_nonneg fun f _ => hD f) _)
      _ = _ := rfl

lemma free_bak (hs : s ≤ C) {w : Weights s F N} (hw : ∀ k f n, 0 ≤ w k f n) (Z : Sig (C - s) F N)
    (J : BackJ (C - s) F s) {eps : ℝ} (he : 0 < eps) (st : IssState s C F N T) (bak : Fin (C - s)) :
    FreeOk w J st (issBakStep w eps Z J st bak) := by
  refine free_of_energy hw (fun f => fullDemix_bak hs st.W J _ bak f) (fun k f => ?_)
  have := energy_projection_le (w k f) (st.Y k f) (Z bak f) 1 eps one_pos he
  refine le_trans (le_of_eq ?_) this
  refine Finset.sum_congr rfl fun n _ => ?_
  simp only [issBakStep, issType2, Complex.ofReal_one, mul_one]

lemma free_tap {w : Weights s F N} (hw : ∀ k f n, 0 ≤ w k f n) {Xbar : Taps C F T N}
    (J : BackJ (C - s) F s) {eps : ℝ} (he : 0 < eps) (st : IssState s C F N T) (src : Fin C)
    (tap : Fin T) : FreeOk w J st (issTapStep w eps Xbar st src tap) := by
  refine free_of_energy hw (fun f => rfl) (fun k f => ?_)
  have := energy_projection_le (w k f) (st.Y k f) (Xbar src f tap) 1 eps one_pos he
  refine le_trans (le_of_eq ?_) this
  refine Finset.sum_congr rfl fun n _ => ?_
  simp only [issTapStep, issType3, Complex.ofReal_one, mul_one]

lemma foldl_free {β : Type} {w : Weights s F N} {J : BackJ (C - s) F s}
    (f : IssState s C F N T → β → IssState s C F N T) (hf : ∀ a b, FreeOk w J a (f a b)) (l : List β)
    (a : IssState s C F N T) : FreeOk w J a (l.foldl f a) := by
  induction l generalizing a with
  | nil => exact FreeOk.refl
  | cons b l ih => exact (hf a b).trans (ih _)

lemma free_updates (hs : s ≤ C) {w : Weights s F N} (hw : ∀ k f n, 0 ≤ w k f n) {Xbar : Taps C F T N}
    (J : BackJ (C - s) F s) {eps : ℝ} (he : 0 < eps) (hN : 0 < N)
    (ZJ : Option (Sig (C - s) F N × BackJ (C - s) F s)) (hZJ : ∀ Z J', ZJ = some (Z, J') → J' = J)
    (st : IssState s C F N T) : FreeOk w J st (issUpdates Xbar w eps ZJ st) := by
  have h1 := foldl_free (J := J) (issSrcStep w eps) (fun a b => free_src hs hw J he hN a b)
    (List.finRange s) st
  rcases ZJ with _ | ⟨Z, J'⟩
  · refine h1.trans (foldl_free _ (fun a b => ?_) _ _)
    exact foldl_free _ (fun a' b' => free_tap hw J he a' b b') _ _
  · obtain rfl := hZJ Z J' rfl
    refine (h1.trans (foldl_free _ (fun a b => free_bak hs hw Z J' he a b) _ _)).trans
      (foldl_free _ (fun a b => ?_) _ _)
    exact foldl_free _ (fun a' b' => free_tap hw J' he a' b b') _ _

lemma fullDemix_scale (hs : s ≤ C) (W : DemixW s F C) (J : BackJ (C - s) F s) (c : Fin s → ℝ) (f : Fin F) :
    (fullDemix (fun k f d => W k f d / (c k : ℂ)) J f).det = (∏ k, ((c k : ℂ))⁻¹) * (fullDemix W J f).det := by
  have e : fullDemix (fun k f d => W k f d / (c k : ℂ)) J f
      = Matrix.diagonal (fun i : Fin C => if h : i.1 < s then ((c ⟨i, h⟩ : ℂ))⁻¹ else 1) * fullDemix W J f := by
    ext i d
    rw [Matrix.diagonal_mul]
    simp only [fullDemix, Matrix.of_apply]
    by_cases h : i.1 < s
    · simp [h, div_eq_inv_mul]
    · simp [h]
  rw [e, Matrix.det_mul, Matrix.det_diagonal]
  congr 1
  obtain ⟨b, rfl⟩ := Nat.exists_eq_add_of_le hs
  rw [Fin.prod_univ_add]
  simp

/-- **One T-ISS iteration does not increase the scale-free objective for the weights it uses.** -/
lemma free_oneIter {σ : Type} (hs : s ≤ C) (X : Sig C F N) (Xbar : Taps C F T N) (cXX cXbarX)
    (model : SourceModel σ F N) {eps : ℝ} (he : 0 < eps) (hN : 0 < N) (st st' : TissState σ s C F N T)
    (hr : tissOneIter hs X Xbar cXX cXbarX model eps st = .ok st')
    (hw : ∀ k f n, 0 ≤ (model s st.ms st.Y).1 k f n) (J : BackJ (C - s) F s)
    (hJ : ∀ J', st'.J = some J' → J' = J)
    (hdet : ∀ f, (fullDemix st.W J f).det ≠ 0) :
    (∀ f, (fullDemix st'.W J f).det ≠ 0) ∧
    (∏ k, srcEnergy (model s st.ms st.Y).1 st'.Y k ^ F) / ∏ f, ‖(fullDemix st'.W J f).det‖ ^ 2
      ≤ (∏ k, srcEnergy (model s st.ms st.Y).1 st.Y k ^ F) / ∏ f, ‖(fullDemix st.W J f).det‖ ^ 2 := by
  set w := (model s st.ms st.Y).1 with hwdef
  set g := sourceGain st.Y eps with hg
  have hg0 : ∀ k, 0 < g k := fun k => lt_of_lt_of_le he (le_max_right _ _)
  set c : Fin s → ℝ := fun k => clampMin (√(g k)) eps with hc
  have hc0 : ∀ k, 0 < c k := fun k => lt_of_lt_of_le he (le_max_right _ _)
  -- the rescaled state
  set a : IssState s C F N T := ⟨fun k f n => st.Y k f n / (c k : ℂ), fun k f d => st.W k f d / (c k : ℂ),
    fun k f d t => st.H k f d t / (c k : ℂ)⟩ with ha
  set w' : Weights s F N := fun k f n => w k f n * g k with hw'
  have hw'0 : ∀ k f n, 0 ≤ w' k f n := fun k f n => mul_nonneg (hw k f n) (hg0 k).le
  have hstep : ∃ ZJ : Option (Sig (C - s) F N × BackJ (C - s) F s),
      (∀ Z J', ZJ = some (Z, J') → J' = J) ∧
      st'.Y = (issUpdates Xbar w' eps ZJ a).Y ∧ st'.W = (issUpdates Xbar w' eps ZJ a).W := by
    unfold tissOneIter at hr
    simp only at hr
    cases hJ0 : st.J with
    | none =>
      rw [hJ0] at hr
      simp only [pure, Except.pure, Except.ok.injEq] at hr
      subst hr
      exact ⟨none, fun _ _ h => (by cases h), rfl, rfl⟩
    | some J0 =>
      rw [hJ0] at hr
      simp only at hr
      cases hb : backgroundUpdate hs (fun k f c => divide (st.W k f c) (√(sourceGain st.Y eps k)) eps)
          (fun k f c t => divide (st.H k f c t) (√(sourceGain st.Y eps k)) eps) cXX cXbarX 1e-3 with
      | error e => rw [hb] at hr; cases hr
      | ok J1 =>
        rw [hb] at hr
        simp only [bind, Except.bind, pure, Except.pure, Except.ok.injEq] at hr
        subst hr
        have := hJ J1 rfl
        subst this
        exact ⟨some (demixBackground hs X J1, J1), fun Z J' h => (by cases h; rfl), rfl, rfl⟩
  obtain ⟨ZJ, hZJ, hY', hW'⟩ := hstep
  have hda : ∀ f, (fullDemix a.W J f).det = (∏ k, ((c k : ℂ))⁻¹) * (fullDemix st.W J f).det :=
    fun f => fullDemix_scale hs st.W J c f
  have hpc : (∏ k, ((c k : ℂ))⁻¹) ≠ 0 := Finset.prod_ne_zero_iff.2 fun k _ =>
    inv_ne_zero (by exact_mod_cast (hc0 k).ne')
  have hda0 : ∀ f, (fullDemix a.W J f).det ≠ 0 := fun f => by
    rw [hda]; exact mul_ne_zero hpc (hdet f)
  have hfree := free_updates (Xbar := Xbar) hs hw'0 J he hN ZJ hZJ a
  refine ⟨fun f => by rw [hW']; exact hfree.det hda0 f, ?_⟩
  have hobj := hfree.obj hda0
  unfold freeObj at hobj
  rw [← hY', ← hW'] at hobj
  have e1 : ∀ k, srcEnergy w' st'.Y k = g k * srcEnergy w st'.Y k := by
    intro k
    simp only [srcEnergy, hw', Finset.mul_sum, Finset.sum_div]
    exact Finset.sum_congr rfl fun f _ => Finset.sum_congr rfl fun n _ => by ring
  have e2 : ∀ k, srcEnergy w' a.Y k = g k * srcEnergy w st.Y k / c k ^ 2 := by
    intro k
    simp only [srcEnergy, hw', Finset.mul_sum, Finset.sum_div, ha]
    refine Finset.sum_congr rfl fun f _ => Finset.sum_congr rfl fun n _ => ?_
    rw [norm_div, Complex.norm_of_nonneg (hc0 k).le, div_pow]
    ring
  have e3 : ∏ f, ‖(fullDemix a.W J f).det‖ ^ 2
      = (∏ k, (c k ^ 2) ^ F)⁻¹ * ∏ f, ‖(fullDemix st.W J f).det‖ ^ 2 := by
    simp only [hda, norm_mul, mul_pow, Finset.prod_mul_distrib, Finset.prod_const, Finset.card_univ,
      Fintype.card_fin]
    congr 1
    rw [norm_prod, ← Finset.prod_pow, ← Finset.prod_pow, ← Finset.prod_inv_distrib]
    refine Finset.prod_congr rfl fun k _ => ?_
    rw [norm_inv, Complex.norm_of_nonneg (hc0 k).le, inv_pow, inv_pow]
  simp only [e1, e2, mul_pow, div_pow, Finset.prod_mul_distrib, Finset.prod_div_distrib] at hobj
  rw [e3] at hobj
  have hG : 0 < ∏ k, g k ^ F := Finset.prod_pos fun k _ => pow_pos (hg0 k) _
  have hCp : 0 < ∏ k, (c k ^ 2) ^ F := Finset.prod_pos fun k _ => pow_pos (pow_pos (hc0 k) _) _
  have e4 : (∏ k, g k ^ F) * (∏ k, srcEnergy w st.Y k ^ F) / (∏ k, (c k ^ 2) ^ F)
        / ((∏ k, (c k ^ 2) ^ F)⁻¹ * ∏ f, ‖(fullDemix st.W J f).det‖ ^ 2)
      = (∏ k, g k ^ F) * ((∏ k, srcEnergy w st.Y k ^ F) / ∏ f, ‖(fullDemix st.W J f).det‖ ^ 2) := by
    field_simp
  rw [e4, mul_div_assoc] at hobj
  exact le_of_mul_le_mul_left hobj hG

/-! ## Weighted power after a sweep -/

/-- A separation step with `src` normalises the weighted power of `src` and does not increase the others. -/
lemma power_src {w : Weights s F N} (hw : ∀ k f n, 0 ≤ w k f n) {eps : ℝ} (he : 0 < eps) (hN : 0 < N)
    (st : IssState s C F N T) (src k : Fin s) (f : Fin F)
    (h : k = src ∨ (∑ n, w k f n * ‖st.Y k f n‖ ^ 2) / N ≤ 1) :
    (∑ n, w k f n * ‖(issSrcStep w eps st src).Y k f n‖ ^ 2) / N ≤ 1 := by
  have hN' : (0 : ℝ) < N := by exact_mod_cast hN
  by_cases hk : k = src
  · subst hk
    set D : ℝ := (∑ n, w k f n * ‖st.Y k f n‖ ^ 2) / N with hD
    have hm : 0 < max D eps := lt_of_lt_of_le he (le_max_right _ _)
    have e : ∀ n, (issSrcStep w eps st k).Y k f n = ((1 / √(max D eps) : ℝ) : ℂ) * st.Y k f n := by
      intro n
      simp only [issSrcStep, issType1, if_true, clampMin, magSq_eq, hD]
      rw [mul_one_div]
      push_cast; ring
    have : (∑ n, w k f n * ‖(issSrcStep w eps st k).Y k f n‖ ^ 2) / N = D / max D eps := by
      have e0 : ∀ n, w k f n * ‖(issSrcStep w eps st k).Y k f n‖ ^ 2
          = w k f n * ‖st.Y k f n‖ ^ 2 / max D eps := by
        intro n
        rw [e, norm_mul, mul_pow, Complex.norm_of_nonneg (by positivity), div_pow, one_pow, Real.sq_sqrt hm.le]
        ring
      simp only [e0]
      rw [← Finset.sum_div, div_right_comm]
    rw [this]
    exact (div_le_one hm).2 (le_max_left _ _)
  · refine le_trans (div_le_div_of_nonneg_right ?_ hN'.le) (h.resolve_left hk)
    have := energy_projection_le (w k f) (st.Y k f) (st.Y src f) (1 / N) eps (by positivity) he
    refine le_trans (le_of_eq ?_) this
    refine Finset.sum_congr rfl fun n _ => ?_
    simp only [issSrcStep, issType1, if_neg hk]

lemma power_srcs {w : Weights s F N} (hw : ∀ k f n, 0 ≤ w k f n) {eps : ℝ} (he : 0 < eps) (hN : 0 < N)
    (k : Fin s) (f : Fin F) (l : List (Fin s)) (st : IssState s C F N T)
    (h : k ∈ l ∨ (∑ n, w k f n * ‖st.Y k f n‖ ^ 2) / N ≤ 1) :
    (∑ n, w k f n * ‖(l.foldl (issSrcStep w eps) st).Y k f n‖ ^ 2) / N ≤ 1 := by
  induction l generalizing st with
  | nil => simpa using h
  | cons b l ih =>
    rw [List.foldl_cons]
    refine ih _ ?_
    by_cases hl : k ∈ l
    · exact Or.inl hl
    · refine Or.inr (power_src hw he hN st b k f ?_)
      rcases h with h | h
      · exact Or.inl ((List.mem_cons.1 h).resolve_right hl)
      · exact Or.inr h

lemma power_foldl {β : Type} (w : Weights s F N) (k : Fin s) (f : Fin F)
    (g : IssState s C F N T → β → IssState s C F N T)
    (hg : ∀ a b, ∑ n, w k f n * ‖(g a b).Y k f n‖ ^ 2 ≤ ∑ n, w k f n * ‖a.Y k f n‖ ^ 2) (l : List β)
    (a : IssState s C F N T) :
    ∑ n, w k f n * ‖(l.foldl g a).Y k f n‖ ^ 2 ≤ ∑ n, w k f n * ‖a.Y k f n‖ ^ 2 := by
  induction l generalizing a with
  | nil => exact le_rfl
  | cons b l ih => exact (ih _).trans (hg a b)

/-- After a sweep every source has weighted power at most one at every frequency. -/
lemma power_updates {w : Weights s F N} (hw : ∀ k f n, 0 ≤ w k f n) {Xbar : Taps C F T N}
    {eps : ℝ} (he : 0 < eps) (hN : 0 < N) (ZJ : Option (Sig (C - s) F N × BackJ (C - s) F s))
    (st : IssState s C F N T) (k : Fin s) (f : Fin F) :
    (∑ n, w k f n * ‖(issUpdates Xbar w eps ZJ st).Y k f n‖ ^ 2) / N ≤ 1 := by
  have hN' : (0 : ℝ) < N := by exact_mod_cast hN
  have h1 := power_srcs hw he hN k f (List.finRange s) st (Or.inl (List.mem_finRange k))
  have htap : ∀ a : IssState s C F N T, ∑ n, w k f n * ‖((List.finRange C).foldl (fun st src => (List.finRange T).foldl
      (fun st tap => issTapStep w eps Xbar st src tap) st) a).Y k f n‖ ^ 2
      ≤ ∑ n, w k f n * ‖a.Y k f n‖ ^ 2 := fun a =>
    power_foldl w k f _ (fun a b => power_foldl w k f _ (fun a' b' => by
      have := energy_projection_le (w k f) (a'.Y k f) (Xbar b f b') 1 eps one_pos he
      refine le_trans (le_of_eq ?_) this
      refine Finset.sum_congr rfl fun n _ => ?_
      simp only [issTapStep, issType3, Complex.ofReal_one, mul_one]) _ _) _ _
  refine le_trans (div_le_div_of_nonneg_right (htap _) hN'.le) ?_
  rcases ZJ with _ | ⟨Z, J⟩
  · exact h1
  · refine le_trans (div_le_div_of_nonneg_right (power_foldl w k f _ (fun a b => ?_) _ _) hN'.le) h1
    have := energy_projection_le (w k f) (a.Y k f) (Z b f) 1 eps one_pos he
    refine le_trans (le_of_eq ?_) this
    refine Finset.sum_congr rfl fun n _ => ?_
    simp only [issBakStep, issType2, Complex.ofReal_one, mul_one]

/-- A T-ISS iteration runs the updates on the rescaled signals. -/
lemma oneIter_updates {σ : Type} (hs : s ≤ C) (X : Sig C F N) (Xbar : Taps C F T N) (cXX cXbarX)
    (model : SourceModel σ F N) {eps : ℝ} (st st' : TissState σ s C F N T)
    (hr : tissOneIter hs X Xbar cXX cXbarX model eps st = .ok st') :
    ∃ (ZJ : Option (Sig (C - s) F N × BackJ (C - s) F s)) (a : IssState s C F N T),
      (st.J = none → ZJ = none) ∧
      (∀ k f n, a.Y k f n = st.Y k f n
        / ((max (√(max ((∑ f, ∑ n, ‖st.Y k f n‖ ^ 2) / (F * N)) eps)) eps : ℝ) : ℂ)) ∧
      st'.Y = (issUpdates Xbar (fun k f n => (model s st.ms st.Y).1 k f n
        * max ((∑ f, ∑ n, ‖st.Y k f n‖ ^ 2) / (F * N)) eps) eps ZJ a).Y := by
  have hg : ∀ k, sourceGain st.Y eps k = max ((∑ f, ∑ n, ‖st.Y k f n‖ ^ 2) / (F * N)) eps := fun k => by
    simp only [sourceGain, clampMin, magSq_eq]
  simp only [← hg]
  unfold tissOneIter at hr
  simp only at hr
  set a : IssState s C F N T := ⟨fun k f n => divide (st.Y k f n) (√(sourceGain st.Y eps k)) eps,
    fun k f c => divide (st.W k f c) (√(sourceGain st.Y eps k)) eps,
    fun k f c t => divide (st.H k f c t) (√(sourceGain st.Y eps k)) eps⟩ with ha
  cases hJ0 : st.J with
  | none =>
    rw [hJ0] at hr
    simp only [pure, Except.pure, Except.ok.injEq] at hr
    subst hr
    exact ⟨none, a, fun _ => rfl, fun k f n => rfl, rfl⟩
  | some J0 =>
    rw [hJ0] at hr
    simp only at hr
    cases hb : backgroundUpdate hs (fun k f c => divide (st.W k f c) (√(sourceGain st.Y eps k)) eps)
        (fun k f c t => divide (st.H k f c t) (√(sourceGain st.Y eps k)) eps) cXX cXbarX 1e-3 with
    | error e => rw [hb] at hr; cases hr
    | ok J1 =>
      rw [hb] at hr
      simp only [bind, Except.bind, pure, Except.pure, Except.ok.injEq] at hr
      subst hr
      exact ⟨some (demixBackground hs X J1, J1), a, fun h => (by cases h), fun k f n => rfl, rfl⟩

end dims

/-- Product form to logarithmic form. -/
lemma log_of_prod {s F : ℕ} (E E' : Fin s → ℝ) (d d' : Fin F → ℝ) (hd : ∀ f, 0 < d f) (hd' : ∀ f, 0 < d' f)
    (hE : ∀ k, 0 ≤ E k) (hE' : ∀ k, 0 < E' k) (hF : 0 < F)
    (h : (∏ k, E' k ^ F) / ∏ f, d' f ^ 2 ≤ (∏ k, E k ^ F) / ∏ f, d f ^ 2) :
    (∀ k, 0 < E k) ∧ (∑ k, F * Real.log (E' k)) - 2 * ∑ f, Real.log (d' f)
      ≤ (∑ k, F * Real.log (E k)) - 2 * ∑ f, Real.log (d f) := by
  have hpd : 0 < ∏ f, d f ^ 2 := Finset.prod_pos fun f _ => pow_pos (hd f) _
  have hpd' : 0 < ∏ f, d' f ^ 2 := Finset.prod_pos fun f _ => pow_pos (hd' f) _
  have hpE' : 0 < ∏ k, E' k ^ F := Finset.prod_pos fun k _ => pow_pos (hE' k) _
  have hpE : 0 < ∏ k, E k ^ F := by
    have : 0 < (∏ k, E k ^ F) / ∏ f, d f ^ 2 := lt_of_lt_of_le (div_pos hpE' hpd') h
    exact (div_pos_iff_of_pos_right hpd).1 this
  have hEp : ∀ k, 0 < E k := by
    intro k
    refine lt_of_le_of_ne (hE k) fun h0 => ?_
    exact hpE.ne' (Finset.prod_eq_zero (Finset.mem_univ k) (by rw [← h0, zero_pow hF.ne']))
  refine ⟨hEp, ?_⟩
  have hl := Real.log_le_log (div_pos hpE' hpd') h
  rw [Real.log_div hpE'.ne' hpd'.ne', Real.log_div hpE.ne' hpd.ne',
    Real.log_prod (fun k _ => (pow_pos (hE' k) _).ne'), Real.log_prod (fun k _ => (pow_pos (hEp k) _).ne'),
    Real.log_prod (fun k _ => (pow_pos (hd' k) _).ne'), Real.log_prod (fun k _ => (pow_pos (hd k) _).ne')] at hl
  simp only [Real.log_pow] at hl
  simp only [Finset.mul_sum]
  exact_mod_cast hl

end Torchiva
