import Verif.Props.Contrast
import Verif.Props.Ip2

/-!
# Descent of the objective for AuxIVA-IP2 (C94)
-/

namespace Torchiva.Props

open Torchiva Matrix Spec
open scoped ComplexOrder

variable {F N : ℕ}

private lemma cost_scale (x : Fin 2 → Fin N → ℂ) (w : Fin 2 → Fin N → ℝ) (W : Matrix (Fin 2) (Fin 2) ℂ)
    (hW : W.det ≠ 0) (d : Fin 2 → ℝ) (hd : ∀ k, 0 < d k) :
    (Matrix.diagonal (fun k => (d k : ℂ)) * W).det ≠ 0 ∧
    ivaCost x w (Matrix.diagonal (fun k => (d k : ℂ)) * W)
      = ∑ k, d k ^ 2 * wenergy (w k) (out W x k) - 2 * (∑ k, Real.log (d k)) - 2 * Real.log ‖W.det‖ := by
  have h1 : (Matrix.diagonal (fun k => (d k : ℂ)) * W).det = ((∏ k, d k : ℝ) : ℂ) * W.det := by
    rw [Matrix.det_mul, Matrix.det_diagonal]; push_cast; rfl
  have hp : 0 < ∏ k, d k := Finset.prod_pos fun k _ => hd k
  refine ⟨by rw [h1]; exact mul_ne_zero (by exact_mod_cast hp.ne') hW, ?_⟩
  have h2 : ∀ k n, out (Matrix.diagonal (fun k => (d k : ℂ)) * W) x k n = (d k : ℂ) * out W x k n := by
    intro k n
    simp only [out, Matrix.diagonal_mul, Finset.mul_sum, mul_assoc]
  have h3 : ∀ k, wenergy (w k) (out (Matrix.diagonal (fun k => (d k : ℂ)) * W) x k)
      = d k ^ 2 * wenergy (w k) (out W x k) := by
    intro k
    unfold wenergy
    rw [← mul_div_assoc, Finset.mul_sum]
    congr 1
    refine Finset.sum_congr rfl fun n _ => ?_
    rw [h2, norm_mul, Complex.norm_of_nonneg (hd k).le, mul_pow]
    ring
  unfold ivaCost
  rw [h1, norm_mul, Complex.norm_of_nonneg hp.le, Real.log_mul hp.ne' (norm_ne_zero_iff.2 hW),
    Real.log_prod fun k _ => (hd k).ne']
  simp only [h3]
  ring

/-- Where a global minimum exists, no invertible demixing matrix has a silent output. -/
private lemma energy_pos (x : Fin 2 → Fin N → ℂ) (w : Fin 2 → Fin N → ℝ) (hw : ∀ k n, 0 ≤ w k n)
    (c : ℝ) (hmin : ∀ W' : Matrix (Fin 2) (Fin 2) ℂ, W'.det ≠ 0 → c ≤ ivaCost x w W')
    (W : Matrix (Fin 2) (Fin 2) ℂ) (hW : W.det ≠ 0) (k : Fin 2) : 0 < wenergy (w k) (out W x k) := by
  have h0 : ∀ k, 0 ≤ wenergy (w k) (out W x k) := fun k =>
    div_nonneg (Finset.sum_nonneg fun n _ => mul_nonneg (hw k n) (by positivity)) (Nat.cast_nonneg _)
  by_contra hc
  have hz : wenergy (w k) (out W x k) = 0 := le_antisymm (not_lt.1 hc) (h0 k)
  set B : ℝ := ∑ j, wenergy (w j) (out W x j) - 2 * Real.log ‖W.det‖ with hB
  set M : ℝ := (B - c) / 2 + 1 with hM
  set d : Fin 2 → ℝ := fun j => if j = k then Real.exp M else 1 with hd
  have hd0 : ∀ j, 0 < d j := fun j => by simp only [hd]; split_ifs <;> positivity
  obtain ⟨h1, h2⟩ := cost_scale x w W hW d hd0
  have := hmin _ h1
  rw [h2] at this
  have e1 : ∑ j, d j ^ 2 * wenergy (w j) (out W x j) = ∑ j, wenergy (w j) (out W x j) := by
    refine Finset.sum_congr rfl fun j _ => ?_
    by_cases hj : j = k
    · rw [hj, hz, mul_zero]
    · simp [hd, hj]
  have e2 : ∑ j, Real.log (d j) = M := by
    have : ∀ j, Real.log (d j) = if j = k then M else 0 := fun j => by
      simp only [hd]; split_ifs <;> simp
    simp [this]
  rw [e1, e2] at this
  linarith

/-- The global minimum of the auxiliary cost at every frequency does not increase the scale-free objective. -/
private lemma free_min (X : Sig 2 F N) (w : Weights 2 F N) (hw : ∀ k f n, 0 ≤ w k f n) (hF : 0 < F)
    (W W' : Fin F → Matrix (Fin 2) (Fin 2) ℂ) (hW : ∀ f, (W f).det ≠ 0) (hW' : ∀ f, (W' f).det ≠ 0)
    (hun : ∀ f k, wenergy (w k f) (out (W' f) (fun c => X c f) k) = 1)
    (hmin : ∀ f, ∀ V : Matrix (Fin 2) (Fin 2) ℂ, V.det ≠ 0 →
      ivaCost (fun c => X c f) (fun k => w k f) (W' f) ≤ ivaCost (fun c => X c f) (fun k => w k f) V) :
    (∏ k, srcEnergy w (fun k f n => out (W' f) (fun c => X c f) k n) k ^ F) / ∏ f, ‖(W' f).det‖ ^ 2
      ≤ (∏ k, srcEnergy w (fun k f n => out (W f) (fun c => X c f) k n) k ^ F) / ∏ f, ‖(W f).det‖ ^ 2 := by
  have hF' : (0 : ℝ) < F := by exact_mod_cast hF
  set E : Fin 2 → ℝ := fun k => srcEnergy w (fun k f n => out (W f) (fun c => X c f) k n) k with hE
  have hEe : ∀ k, E k = ∑ f, wenergy (w k f) (out (W f) (fun c => X c f) k) := fun k => rfl
  have hE' : ∀ k, srcEnergy w (fun k f n => out (W' f) (fun c => X c f) k n) k = F := by
    intro k
    change ∑ f, wenergy (w k f) (out (W' f) (fun c => X c f) k) = F
    simp [hun]
  have hpos : ∀ k, 0 < E k := by
    intro k
    rw [hEe]
    refine Finset.sum_pos (fun f _ => ?_) ⟨⟨0, hF⟩, Finset.mem_univ _⟩
    exact energy_pos (fun c => X c f) (fun k => w k f) (fun k n => hw k f n) _ (hmin f) (W f) (hW f) k
  set d : Fin 2 → ℝ := fun k => √(F / E k) with hd
  have hd0 : ∀ k, 0 < d k := fun k => Real.sqrt_pos.2 (div_pos hF' (hpos k))
  have hd2 : ∀ k, d k ^ 2 = F / E k := fun k => Real.sq_sqrt (div_pos hF' (hpos k)).le
  have hf : ∀ f, 2 - 2 * Real.log ‖(W' f).det‖
      ≤ ∑ k, d k ^ 2 * wenergy (w k f) (out (W f) (fun c => X c f) k) - 2 * (∑ k, Real.log (d k))
        - 2 * Real.log ‖(W f).det‖ := by
    intro f
    obtain ⟨h1, h2⟩ := cost_scale (fun c => X c f) (fun k => w k f) (W f) (hW f) d hd0
    have := hmin f _ h1
    rw [h2] at this
    refine le_trans (le_of_eq ?_) this
    unfold ivaCost
    simp [hun, Fin.sum_univ_two]
  have hsum := Finset.sum_le_sum fun f (_ : f ∈ Finset.univ) => hf f
  simp only [Finset.sum_sub_distrib, ← Finset.mul_sum, Finset.sum_const, Finset.card_univ, Fintype.card_fin,
    nsmul_eq_mul] at hsum
  rw [Finset.sum_comm] at hsum
  simp only [← Finset.mul_sum, ← hEe, hd2] at hsum
  have e1 : ∑ k, (F : ℝ) / E k * E k = 2 * F := by
    simp only [div_mul_cancel₀ _ (hpos _).ne']
    simp
  have e2 : ∑ k, Real.log (d k) = ∑ k, (Real.log F - Real.log (E k)) / 2 := by
    refine Finset.sum_congr rfl fun k _ => ?_
    rw [hd, Real.log_sqrt (div_pos hF' (hpos k)).le, Real.log_div hF'.ne' (hpos k).ne']
  rw [e1, e2, ← Finset.sum_div, Finset.sum_sub_distrib] at hsum
  have hP : ∀ V : Fin F → Matrix (Fin 2) (Fin 2) ℂ, (∀ f, (V f).det ≠ 0) → 0 < ∏ f, ‖(V f).det‖ ^ 2 :=
    fun V hV => Finset.prod_pos fun f _ => by have := norm_pos_iff.2 (hV f); positivity
  have hl : ∀ V : Fin F → Matrix (Fin 2) (Fin 2) ℂ, (∀ f, (V f).det ≠ 0) →
      Real.log (∏ f, ‖(V f).det‖ ^ 2) = 2 * ∑ f, Real.log ‖(V f).det‖ := by
    intro V hV
    rw [Real.log_prod fun f _ => pow_ne_zero 2 (norm_ne_zero_iff.2 (hV f)), Finset.mul_sum]
    exact Finset.sum_congr rfl fun f _ => by rw [Real.log_pow]; norm_num
  have hA : 0 < ∏ k : Fin 2, (F : ℝ) ^ F := Finset.prod_pos fun k _ => pow_pos hF' _
  have hB : 0 < ∏ k, E k ^ F := Finset.prod_pos fun k _ => pow_pos (hpos k) _
  simp only [hE']
  change _ ≤ (∏ k, E k ^ F) / _
  rw [← Real.log_le_log_iff (div_pos hA (hP W' hW')) (div_pos hB (hP W hW)),
    Real.log_div hA.ne' (hP W' hW').ne', Real.log_div hB.ne' (hP W hW).ne', hl W hW, hl W' hW',
    Real.log_prod fun k _ => (pow_pos (hpos k) _).ne', Real.log_prod fun k _ => (pow_pos hF' _).ne']
  simp only [Real.log_pow, ← Finset.mul_sum]
  simp only [Finset.sum_const, Finset.card_univ, Fintype.card_fin, nsmul_eq_mul] at hsum ⊢
  push_cast at hsum ⊢
  linarith

/-- Two runs that differ by one iteration. -/
private lemma ip2_two_runs (nIter : ℕ) (eps : ℝ) (X : Sig 2 F N) (model : SourceModel Unit F N) (reset : Unit → Unit)
    (Y Y' : Sig 2 F N) (h : auxiva2Forward nIter none eps X model reset () = .ok Y)
    (h' : auxiva2Forward (nIter + 1) none eps X model reset () = .ok Y') :
    ∃ W' : Fin F → Matrix (Fin 2) (Fin 2) ℂ,
      (∀ f, ip2Update (fun c => X c f) (fun k n => (model 2 () Y).1 k f n
        * max ((∑ f, ∑ n, ‖Y k f n‖ ^ 2) / (F * N)) 1e-5) eps = .ok (W' f)) ∧
      Y' = fun k f n => out (W' f) (fun c => X c f) k n := by
  have hcond : ∀ m ∈ (none : Option ℤ), 0 ≤ m ∧ m < ((2 : ℕ) : ℤ) := fun m hm => by cases hm
  unfold auxiva2Forward at h h'
  rw [dif_pos rfl, if_pos hcond] at h h'
  simp only [Fin.cast_eq_self] at h h'
  rw [iterM_snoc] at h'
  cases hst : iterM (ip2Epoch X model eps) nIter ⟨X, fun _ => 1, fun _ => 1, reset ()⟩ with
  | error e => rw [hst] at h; cases h
  | ok st =>
    rw [hst] at h h'
    simp only [bind, Except.bind, pure, Except.pure, Except.ok.injEq] at h h'
    subst h
    unfold ip2Epoch at h'
    simp only [clampMin, magSq_eq] at h'
    cases hW : seqAll (fun f => ip2Update (fun c => X c f) (fun k n => (model 2 st.ms st.X).1 k f n
        * max ((∑ f, ∑ n, ‖st.X k f n‖ ^ 2) / (F * N)) 1e-5) eps) with
    | error e => rw [hW] at h'; cases h'
    | ok W' =>
      rw [hW] at h'
      simp only [bind, Except.bind, pure, Except.pure, Except.ok.injEq] at h'
      subst h'
      exact ⟨W', fun f => seqAll_ok_iff.1 hW f, rfl⟩

private lemma srcEnergy_gain (w : Weights 2 F N) (g : Fin 2 → ℝ) (Y : Sig 2 F N) (k : Fin 2) :
    srcEnergy (fun k f n => w k f n * g k) Y k = g k * srcEnergy w Y k := by
  simp only [srcEnergy, Finset.mul_sum, Finset.sum_div]
  exact Finset.sum_congr rfl fun f _ => Finset.sum_congr rfl fun n _ => by ring

/-- One update of the two-channel algorithm with weights `w0`, in product form. -/
lemma ip2_step_free (eps : ℝ) (he : 0 < eps) (hF : 0 < F) (X : Sig 2 F N) (w0 : Weights 2 F N) (hw0 : ∀ k f n, 0 ≤ w0 k f n)
    (Y : Sig 2 F N) (W' : Fin F → Matrix (Fin 2) (Fin 2) ℂ)
    (hup : ∀ f, ip2Update (fun c => X c f) (fun k n => w0 k f n * max ((∑ f, ∑ n, ‖Y k f n‖ ^ 2) / (F * N)) 1e-5) eps = .ok (W' f))
    (hreg : ∀ f, Ip2Regular (fun c => X c f) (fun k n => w0 k f n * max ((∑ f, ∑ n, ‖Y k f n‖ ^ 2) / (F * N)) 1e-5) eps)
    (W : Fin F → Matrix (Fin 2) (Fin 2) ℂ) (hW : ∀ f, (W f).det ≠ 0)
    (hY : ∀ k f n, Y k f n = ∑ c, W f k c * X c f n) :
    (∀ f, (W' f).det ≠ 0) ∧ (∀ k f, ∃ n, out (W' f) (fun c => X c f) k n ≠ 0) ∧
      (∏ k, srcEnergy w0 (fun k f n => out (W' f) (fun c => X c f) k n) k ^ F) / ∏ f, ‖(W' f).det‖ ^ 2
        ≤ (∏ k, srcEnergy w0 Y k ^ F) / ∏ f, ‖(W f).det‖ ^ 2 := by
  set g : Fin 2 → ℝ := fun k => max ((∑ f, ∑ n, ‖Y k f n‖ ^ 2) / (F * N)) 1e-5 with hg
  have hg0 : ∀ k, 0 < g k := fun k => lt_of_lt_of_le (by norm_num) (le_max_right _ _)
  have hw : ∀ k f n, 0 ≤ w0 k f n * g k := fun k f n => mul_nonneg (hw0 k f n) (hg0 k).le
  have hm := fun f => ip2_update_global_minimum (fun c => X c f) (fun k n => w0 k f n * g k)
    (fun k n => hw k f n) eps he (hreg f).det (hreg f).disc (hreg f).low (hreg f).raw (W' f) (hup f)
  have hfree := free_min X (fun k f n => w0 k f n * g k) hw hF W W' hW (fun f => (hm f).1)
    (fun f k => (hm f).2.1 k) (fun f => (hm f).2.2)
  have hYe : (fun k f n => out (W f) (fun c => X c f) k n) = Y := by
    funext k f n; exact (hY k f n).symm
  rw [hYe] at hfree
  simp only [srcEnergy_gain, mul_pow, Finset.prod_mul_distrib] at hfree
  have hG : 0 < ∏ k, g k ^ F := Finset.prod_pos fun k _ => pow_pos (hg0 k) _
  rw [mul_div_assoc, mul_div_assoc] at hfree
  refine ⟨fun f => (hm f).1, fun k f => ?_, le_of_mul_le_mul_left hfree hG⟩
  by_contra hc
  have hc : ∀ n, out (W' f) (fun c => X c f) k n = 0 := fun n => by
    by_contra hn; exact hc ⟨n, hn⟩
  have := (hm f).2.1 k
  simp [wenergy, hc] at this

/-- One more iteration of the two-channel algorithm, in product form. -/
private lemma ip2_free (nIter : ℕ) (eps : ℝ) (he : 0 < eps) (hF : 0 < F)
    (X : Sig 2 F N) (model : SourceModel Unit F N) (hmod : ∀ Y k f n, 0 ≤ (model 2 () Y).1 k f n) (reset : Unit → Unit)
    (Y Y' : Sig 2 F N) (h : auxiva2Forward nIter none eps X model reset () = .ok Y)
    (h' : auxiva2Forward (nIter + 1) none eps X model reset () = .ok Y')
    (hreg : ∀ f, Ip2Regular (fun c => X c f) (fun k n => (model 2 () Y).1 k f n
      * max ((∑ f, ∑ n, ‖Y k f n‖ ^ 2) / (F * N)) 1e-5) eps)
    (W : Fin F → Matrix (Fin 2) (Fin 2) ℂ) (hW : ∀ f, (W f).det ≠ 0)
    (hY : ∀ k f n, Y k f n = ∑ c, W f k c * X c f n) :
    ∃ W' : Fin F → Matrix (Fin 2) (Fin 2) ℂ, (∀ f, (W' f).det ≠ 0) ∧
      (∀ k f n, Y' k f n = ∑ c, W' f k c * X c f n) ∧
      (∀ k f, ∃ n, Y' k f n ≠ 0) ∧
      (∏ k, srcEnergy (model 2 () Y).1 Y' k ^ F) / ∏ f, ‖(W' f).det‖ ^ 2
        ≤ (∏ k, srcEnergy (model 2 () Y).1 Y k ^ F) / ∏ f, ‖(W f).det‖ ^ 2 := by
  obtain ⟨W', hup, rfl⟩ := ip2_two_runs nIter eps X model reset Y Y' h h'
  obtain ⟨h1, h2, h3⟩ := ip2_step_free eps he hF X _ (hmod Y) Y W' hup hreg W hW hY
  exact ⟨W', h1, fun k f n => rfl, h2, h3⟩

/-- **C94 (Laplace).**  Two channels, the AuxIVA-IP2 separator with `LaplaceModel` and no projection back.  If the frames of the
current output are above the floor of the model and the weighted covariances of the input are away from the clamps, then one more
iteration gives an output of invertible demixing matrices and the objective does not increase. -/
theorem ip2_laplace_descent (nIter : ℕ) (eps : ℝ) (he : 0 < eps) (hF : 0 < F) (hN : 0 < N) (X : Sig 2 F N)
    (e : ℝ) (hee : 0 < e) (reset : Unit → Unit) (Y Y' : Sig 2 F N)
    (h : auxiva2Forward nIter none eps X (laplaceModel e) reset () = .ok Y)
    (h' : auxiva2Forward (nIter + 1) none eps X (laplaceModel e) reset () = .ok Y')
    (hreg : ∀ f, Ip2Regular (fun c => X c f) (fun k n => 1 / max (2 * √(framePower (Y k) n)) e
      * max ((∑ f, ∑ n, ‖Y k f n‖ ^ 2) / (F * N)) 1e-5) eps)
    (hloud : ∀ k n, e ≤ 2 * √(framePower (Y k) n))
    (W : Fin F → Matrix (Fin 2) (Fin 2) ℂ) (hW : ∀ f, (W f).det ≠ 0)
    (hY : ∀ k f n, Y k f n = ∑ c, W f k c * X c f n) :
    ∃ W' : Fin F → Matrix (Fin 2) (Fin 2) ℂ, (∀ f, (W' f).det ≠ 0) ∧
      (∀ k f n, Y' k f n = ∑ c, W' f k c * X c f n) ∧
      laplaceLoss Y' + logdetTerm W' ≤ laplaceLoss Y + logdetTerm W := by
  have hmod : ∀ (Z : Sig 2 F N) k f n, 0 ≤ (laplaceModel e 2 () Z).1 k f n := fun Z k f n => by
    have : 0 < max (2 * √(∑ f, magSq (Z k f n))) e := lt_of_lt_of_le hee (le_max_right _ _)
    simp only [laplaceModel, laplaceForward, clampMin]
    positivity
  have hwe : ∀ k f n, (laplaceModel e 2 () Y).1 k f n = 1 / max (2 * √(framePower (Y k) n)) e := fun k f n => by
    simp only [laplaceModel, laplaceForward, clampMin, magSq_eq, framePower]
  obtain ⟨W', hW', hY', hns, hfree⟩ := ip2_free nIter eps he hF X (laplaceModel e) hmod reset Y Y' h h'
    (fun f => by simp only [hwe]; exact hreg f) W hW hY
  refine ⟨W', hW', hY', ?_⟩
  have hpos : ∀ k, 0 < meanNorm (Y' k) := by
    intro k
    obtain ⟨n, hn⟩ := hns k ⟨0, hF⟩
    refine div_pos (Finset.sum_pos' (fun n _ => Real.sqrt_nonneg _) ⟨n, Finset.mem_univ n, Real.sqrt_pos.2 ?_⟩)
      (by exact_mod_cast hN)
    refine Finset.sum_pos' (fun f _ => by positivity) ⟨⟨0, hF⟩, Finset.mem_univ _, ?_⟩
    have := norm_pos_iff.2 hn
    positivity
  have := laplace_log e hee hN Y Y' hpos (fun f => ‖(W f).det‖) (fun f => ‖(W' f).det‖)
    (fun f => norm_pos_iff.2 (hW f)) (fun f => norm_pos_iff.2 (hW' f)) hfree
  have hfl : ∀ k, (∑ n, max (√(framePower (Y k) n)) (e / 2)) / N = meanNorm (Y k) := fun k => by
    unfold meanNorm
    congr 1
    exact Finset.sum_congr rfl fun n _ => max_eq_left (by have := hloud k n; linarith)
  simp only [hfl] at this
  unfold logdetTerm
  have e1 : laplaceLoss Y = ∑ k, F * (Real.log (meanNorm (Y k)) + Real.log (meanNorm (Y k))) := by
    unfold laplaceLoss
    exact Finset.sum_congr rfl fun k _ => by ring
  rw [e1]
  linarith

/-- **C94 (Gauss).**  The same with `GaussModel`. -/
theorem ip2_gauss_descent (nIter : ℕ) (eps : ℝ) (he : 0 < eps) (hF : 0 < F) (hN : 0 < N) (X : Sig 2 F N)
    (e : ℝ) (hee : 0 < e) (reset : Unit → Unit) (Y Y' : Sig 2 F N)
    (h : auxiva2Forward nIter none eps X (gaussModel e) reset () = .ok Y)
    (h' : auxiva2Forward (nIter + 1) none eps X (gaussModel e) reset () = .ok Y')
    (hreg : ∀ f, Ip2Regular (fun c => X c f) (fun k n => 1 / max (framePower (Y k) n / F) e
      * max ((∑ f, ∑ n, ‖Y k f n‖ ^ 2) / (F * N)) 1e-5) eps)
    (hloud : ∀ k n, F * e ≤ framePower (Y k) n) (hpos : ∀ k n, 0 < framePower (Y' k) n)
    (W : Fin F → Matrix (Fin 2) (Fin 2) ℂ) (hW : ∀ f, (W f).det ≠ 0)
    (hY : ∀ k f n, Y k f n = ∑ c, W f k c * X c f n) :
    ∃ W' : Fin F → Matrix (Fin 2) (Fin 2) ℂ, (∀ f, (W' f).det ≠ 0) ∧
      (∀ k f n, Y' k f n = ∑ c, W' f k c * X c f n) ∧
      gaussLoss Y' + logdetTerm W' ≤ gaussLoss Y + logdetTerm W := by
  have hmod : ∀ (Z : Sig 2 F N) k f n, 0 ≤ (gaussModel e 2 () Z).1 k f n := fun Z k f n => by
    have : 0 < max ((∑ f, magSq (Z k f n)) / F) e := lt_of_lt_of_le hee (le_max_right _ _)
    simp only [gaussModel, gaussForward, clampMin]
    positivity
  have hwe : ∀ k f n, (gaussModel e 2 () Y).1 k f n = 1 / max (framePower (Y k) n / F) e := fun k f n => by
    simp only [gaussModel, gaussForward, clampMin, magSq_eq, framePower]
  obtain ⟨W', hW', hY', -, hfree⟩ := ip2_free nIter eps he hF X (gaussModel e) hmod reset Y Y' h h'
    (fun f => by simp only [hwe]; exact hreg f) W hW hY
  refine ⟨W', hW', hY', ?_⟩
  have := gauss_log e hee hN Y Y' hpos (fun f => ‖(W f).det‖) (fun f => ‖(W' f).det‖)
    (fun f => norm_pos_iff.2 (hW f)) (fun f => norm_pos_iff.2 (hW' f)) hfree
  simp only [max_eq_left (hloud _ _)] at this
  unfold logdetTerm
  change gaussLoss Y' - _ ≤ gaussLoss Y - _ at this
  linarith

/-- Non-vacuity of `ip2_laplace_descent` (C94): two frames with different levels in the two channels, first iteration. -/
lemma ip2_laplace_demo : ∃ (X Y' : Sig 2 1 2), auxiva2Forward 0 none 1e-5 X (laplaceModel 1e-5) id () = .ok X ∧
    auxiva2Forward 1 none 1e-5 X (laplaceModel 1e-5) id () = .ok Y' ∧
    (∀ f, Ip2Regular (fun c => X c f) (fun k n => 1 / max (2 * √(framePower (X k) n)) 1e-5
      * max ((∑ f, ∑ n, ‖X k f n‖ ^ 2) / ((1 : ℕ) * (2 : ℕ))) 1e-5) 1e-5) ∧
    (∀ k n, (1e-5 : ℝ) ≤ 2 * √(framePower (X k) n)) ∧
    (∀ k f n, X k f n = ∑ c, (1 : Matrix (Fin 2) (Fin 2) ℂ) k c * X c f n) ∧ ∀ f, LinearIndependent ℂ fun c => X c f := by
  set X : Sig 2 1 2 := fun k _ n => if k = n then 1 else 2 with hX
  have hp : ∀ k n, framePower (X k) n = if k = n then 1 else 4 := fun k n => by
    simp only [framePower, hX, Fin.sum_univ_one]
    split_ifs <;> norm_num
  have hsq : ∀ k n, √(framePower (X k) n) = if k = n then 1 else 2 := fun k n => by
    rw [hp]
    split_ifs
    · simp
    · rw [show (4 : ℝ) = 2 ^ 2 by norm_num, Real.sqrt_sq (by norm_num)]
  have hwt : (fun (k n : Fin 2) => 1 / max (2 * √(framePower (X k) n)) 1e-5
      * max ((∑ f, ∑ n, ‖X k f n‖ ^ 2) / ((1 : ℕ) * (2 : ℕ))) 1e-5)
      = fun k n => if k = n then 5 / 4 else 5 / 8 := by
    funext k n
    rw [hsq]
    have : (∑ f, ∑ n, ‖X k f n‖ ^ 2) = 5 := by
      simp only [hX, Fin.sum_univ_one, Fin.sum_univ_two]
      fin_cases k <;> norm_num
    rw [this]
    split_ifs
    · rw [max_eq_left (by norm_num), max_eq_left (by norm_num)]; norm_num
    · rw [max_eq_left (by norm_num), max_eq_left (by norm_num)]; norm_num
  have hV0 : wcov (fun c => X c 0) (fun n => if (0 : Fin 2) = n then 5 / 4 else 5 / 8) = !![15/8, 15/8; 15/8, 45/16] := by
    ext i j
    fin_cases i <;> fin_cases j <;> simp [wcov, hX, Fin.sum_univ_two, Complex.conj_ofNat] <;> norm_num
  have hV1 : wcov (fun c => X c 0) (fun n => if (1 : Fin 2) = n then 5 / 4 else 5 / 8) = !![45/16, 15/8; 15/8, 15/8] := by
    ext i j
    fin_cases i <;> fin_cases j <;> simp [wcov, hX, Fin.sum_univ_two, Complex.conj_ofNat] <;> norm_num
  have hmod : ∀ s ms (Z : Sig s 1 2) k f n, 0 ≤ (laplaceModel 1e-5 s ms Z).1 k f n := fun s ms Z k f n => by
    have : (0 : ℝ) < max (2 * √(∑ f, magSq (Z k f n))) 1e-5 := lt_of_lt_of_le (by norm_num) (le_max_right _ _)
    simp only [laplaceModel, laplaceForward, clampMin]
    positivity
  obtain ⟨Y', hY'⟩ : ∃ Y', auxiva2Forward 1 none 1e-5 X (laplaceModel 1e-5) id () = .ok Y' :=
    ip2_succeeds 1 none 1e-5 (by norm_num) X (laplaceModel 1e-5) hmod id ()
  refine ⟨X, Y', ip2_zero_iterations none 1e-5 X _ id (), hY', fun f => ?_, fun k n => ?_, fun k f n => ?_, fun f => ?_⟩
  · obtain rfl : f = 0 := Subsingleton.elim _ _
    rw [hwt]
    refine ⟨?_, ?_, ?_, ?_⟩
    · rw [hV0]; simp [Matrix.det_fin_two]; norm_num
    · rw [hV0, hV1]
      simp [Matrix.det_fin_two, Matrix.adjugate_fin_two, Matrix.trace, Matrix.mul_apply, Fin.sum_univ_two]
      norm_num
    · intro k u hu
      have hs : ‖u 0‖ ^ 2 + ‖u 1‖ ^ 2 = 1 := by
        have : (l2 u) ^ 2 = 1 := by rw [hu]; norm_num
        unfold l2 at this
        rw [Real.sq_sqrt (by positivity), Fin.sum_univ_two] at this
        exact this
      refine le_trans (by norm_num : max (1e-7 : ℝ) (1e-5 ^ 2) ≤ 1 / 4) ?_
      have hre : ∀ z : ℂ, ‖z‖ ^ 2 = z.re ^ 2 + z.im ^ 2 := fun z => by
        rw [Complex.sq_norm, Complex.normSq_apply]; ring
      rw [hre, hre] at hs
      fin_cases k
      · simp only [Fin.zero_eta]
        rw [hV0]
        simp [power, dotProduct, Matrix.mulVec, Fin.sum_univ_two]
        nlinarith [sq_nonneg (13 * (u 0).re + 15 * (u 1).re), sq_nonneg (13 * (u 0).im + 15 * (u 1).im),
          sq_nonneg (u 1).re, sq_nonneg (u 1).im]
      · simp only [Fin.mk_one]
        rw [hV1]
        simp [power, dotProduct, Matrix.mulVec, Fin.sum_univ_two]
        nlinarith [sq_nonneg (13 * (u 1).re + 15 * (u 0).re), sq_nonneg (13 * (u 1).im + 15 * (u 0).im),
          sq_nonneg (u 0).re, sq_nonneg (u 0).im]
    · intro l
      rw [hV0, hV1]
      unfold l2
      refine Real.le_sqrt_of_sq_le ?_
      rw [Fin.sum_univ_two]
      have hre : ∀ z : ℂ, ‖z‖ ^ 2 = z.re ^ 2 + z.im ^ 2 := fun z => by
        rw [Complex.sq_norm, Complex.normSq_apply]; ring
      rw [hre, hre]
      simp
      nlinarith [sq_nonneg (l - 1), sq_nonneg (l - 5 / 4)]
  · rw [hsq]; split_ifs <;> norm_num
  · simp [Matrix.one_apply]
  · rw [Fintype.linearIndependent_iff]
    intro g hg
    have h0 := congrFun hg 0
    have h1 := congrFun hg 1
    simp [hX, Fin.sum_univ_two] at h0 h1
    have e0 : g 0 = 0 := by linear_combination (2 * h1 - h0) / 3
    have e1 : g 1 = 0 := by linear_combination (2 * h0 - h1) / 3
    intro i
    fin_cases i
    exacts [e0, e1]

end Torchiva.Props
