import Verif.Props.TIss
import Verif.Proofs.Contrast
import Verif.Model.Models
import Verif.Proofs.Demo

/-!
# One more iteration never increases the objective (C92)

The source models `LaplaceModel` and `GaussModel` composed with the separation algorithms: the
negative log-likelihood of the mixture, with the scale of the sources removed
(`Spec/Contrast.lean`), does not increase from `n_iter = n` to `n_iter = n + 1`.
-/

namespace Torchiva.Props

open Torchiva Matrix Spec

variable {σ : Type} {s C F N T : ℕ}

/-- Two runs that differ by one iteration. -/
private lemma two_runs (p : TissParams) (hp : p.projBackMic = none) (nSrc : Option ℕ)
    (X : Sig C F N) (model : SourceModel σ F N) (reset : σ → σ) (ms : σ) (o o' : TissOut σ s C F N)
    (h : tissForward p nSrc X model reset ms = .ok ⟨s, o⟩)
    (h' : tissForward { p with nIter := p.nIter + 1 } nSrc X model reset ms = .ok ⟨s, o'⟩) :
    ∃ (hs : s ≤ C) (st st' : TissState σ s C F N p.nTaps), tissOneIter hs X (delayedTaps X p.nTaps p.nDelay) (covXX X)
        (covXbarX X (delayedTaps X p.nTaps p.nDelay)) model p.eps st = .ok st' ∧
      o.Y = st.Y ∧ o.W = st.W ∧ o.J = st.J ∧ o'.Y = st'.Y ∧ o'.W = st'.W ∧ o'.J = st'.J := by
  obtain ⟨hs, hc, -⟩ := tiss_forward_ok p nSrc X model reset ms s o h
  obtain ⟨_, hc', -⟩ := tiss_forward_ok { p with nIter := p.nIter + 1 } nSrc X model reset ms s o' h'
  obtain ⟨st0, st, a, h0, h1, -, hW, hJ, hY, ha, -⟩ := tiss_core_ok hs p X model (reset ms) o hc
  obtain ⟨st0', st', a', h0', h1', -, hW', hJ', hY', ha', -⟩ :=
    tiss_core_ok hs { p with nIter := p.nIter + 1 } X model (reset ms) o' hc'
  simp only at h0' h1'
  rw [h0] at h0'
  cases h0'
  unfold tissLoop at h1 h1'
  simp only [Bool.false_eq_true, if_false] at h1 h1'
  rw [iterM_snoc, h1] at h1'
  refine ⟨hs, st, st', h1', ?_, hW, hJ, ?_, hW', hJ'⟩
  · funext k f n
    rw [hY, ha (Or.inl hp) k f, one_mul]
  · funext k f n
    rw [hY', ha' (Or.inl hp) k f, one_mul]

/-- Frame norms above the floor of the Laplace model. -/
private lemma laplace_energy_le (e : ℝ) (he : 0 < e) (Y : Sig s F N) (k : Fin s) :
    srcEnergy (laplaceForward e Y) Y k ≤ meanNorm (Y k) / 2 := by
  unfold srcEnergy meanNorm
  have : ∀ f, (∑ n, laplaceForward e Y k f n * ‖Y k f n‖ ^ 2) / (N : ℝ)
      = ∑ n, (‖Y k f n‖ ^ 2 / max (2 * √(framePower (Y k) n)) e) / N := by
    intro f
    rw [Finset.sum_div]
    refine Finset.sum_congr rfl fun n _ => ?_
    simp only [laplaceForward, clampMin, magSq_eq, framePower]
    ring
  simp only [this]
  rw [Finset.sum_comm, Finset.sum_div, Finset.sum_div]
  refine Finset.sum_le_sum fun n _ => ?_
  simp only [← Finset.sum_div]
  rw [div_right_comm (√(framePower (Y k) n))]
  refine div_le_div_of_nonneg_right ?_ (by positivity)
  have h0 : 0 ≤ framePower (Y k) n := Finset.sum_nonneg fun f _ => by positivity
  change framePower (Y k) n / max (2 * √(framePower (Y k) n)) e ≤ √(framePower (Y k) n) / 2
  rw [div_le_div_iff₀ (lt_of_lt_of_le he (le_max_right _ _)) two_pos]
  have hr := Real.sqrt_nonneg (framePower (Y k) n)
  have hq := Real.sq_sqrt h0
  have := le_max_left (2 * √(framePower (Y k) n)) e
  nlinarith

private lemma laplace_energy_ge (e : ℝ) (he : 0 < e) (Y Y' : Sig s F N) (k : Fin s) (hN : 0 < N) :
    meanNorm (Y' k) ^ 2 ≤ srcEnergy (laplaceForward e Y) Y' k
      * (2 * ((∑ n, max (√(framePower (Y k) n)) (e / 2)) / N)) := by
  have hN' : (0 : ℝ) < N := by exact_mod_cast hN
  have hm : ∀ n, 0 < max (2 * √(framePower (Y k) n)) e := fun n => lt_of_lt_of_le he (le_max_right _ _)
  have e1 : srcEnergy (laplaceForward e Y) Y' k
      = (∑ n, framePower (Y' k) n / max (2 * √(framePower (Y k) n)) e) / N := by
    unfold srcEnergy
    rw [← Finset.sum_div, Finset.sum_comm]
    congr 1
    refine Finset.sum_congr rfl fun n _ => ?_
    simp only [laplaceForward, clampMin, magSq_eq, framePower]
    rw [Finset.sum_div]
    exact Finset.sum_congr rfl fun f _ => by ring
  have e2 : 2 * ((∑ n, max (√(framePower (Y k) n)) (e / 2)) / N)
      = (∑ n, max (2 * √(framePower (Y k) n)) e) / N := by
    rw [← mul_div_assoc, Finset.mul_sum]
    congr 1
    refine Finset.sum_congr rfl fun n _ => ?_
    rw [mul_max_of_nonneg _ _ two_pos.le]
    congr 1
    ring
  rw [e1, e2]
  unfold meanNorm
  have := Finset.sum_sq_le_sum_mul_sum_of_sq_eq_mul Finset.univ
    (r := fun n => √(framePower (Y' k) n)) (f := fun n => framePower (Y' k) n / max (2 * √(framePower (Y k) n)) e)
    (g := fun n => max (2 * √(framePower (Y k) n)) e)
    (fun n _ => div_nonneg (Finset.sum_nonneg fun f _ => by positivity) (hm n).le) (fun n _ => (hm n).le)
    (fun n _ => by
      rw [div_mul_cancel₀ _ (hm n).ne', Real.sq_sqrt (show 0 ≤ framePower (Y' k) n from Finset.sum_nonneg fun f _ => by positivity)])
  rw [div_pow, div_mul_div_comm, sq (N : ℝ)]
  exact div_le_div_of_nonneg_right this (by positivity)

lemma laplace_log (e : ℝ) (he : 0 < e) (hN : 0 < N) (Y Y' : Sig s F N)
    (hpos : ∀ k, 0 < meanNorm (Y' k)) (d d' : Fin F → ℝ) (hd : ∀ f, 0 < d f) (hd' : ∀ f, 0 < d' f)
    (h : (∏ k, srcEnergy (laplaceForward e Y) Y' k ^ F) / ∏ f, d' f ^ 2
      ≤ (∏ k, srcEnergy (laplaceForward e Y) Y k ^ F) / ∏ f, d f ^ 2) :
    laplaceLoss Y' - 2 * ∑ f, Real.log (d' f)
      ≤ (∑ k, F * (Real.log (meanNorm (Y k))
          + Real.log ((∑ n, max (√(framePower (Y k) n)) (e / 2)) / N))) - 2 * ∑ f, Real.log (d f) := by
  rcases Nat.eq_zero_or_pos F with rfl | hF
  · simp [laplaceLoss]
  have hN' : (0 : ℝ) < N := by exact_mod_cast hN
  have hw : ∀ k f n, 0 ≤ laplaceForward e Y k f n := fun k f n => by
    have : 0 < max (2 * √(∑ f, magSq (Y k f n))) e := lt_of_lt_of_le he (le_max_right _ _)
    simp only [laplaceForward, clampMin]
    positivity
  set m : Fin s → ℝ := fun k => (∑ n, max (√(framePower (Y k) n)) (e / 2)) / N with hm
  have hm0 : ∀ k, 0 < m k := fun k => by
    refine div_pos (Finset.sum_pos (fun n _ => lt_of_lt_of_le (half_pos he) (le_max_right _ _)) ?_) hN'
    exact ⟨⟨0, hN⟩, Finset.mem_univ _⟩
  have hge : ∀ k, meanNorm (Y' k) ^ 2 ≤ srcEnergy (laplaceForward e Y) Y' k * (2 * m k) :=
    fun k => laplace_energy_ge e he Y Y' k hN
  have hE' : ∀ k, 0 < srcEnergy (laplaceForward e Y) Y' k := fun k => by
    by_contra hc
    have h1 := hge k
    have h2 := pow_pos (hpos k) 2
    have h3 := hm0 k
    nlinarith
  obtain ⟨hE, hl⟩ := log_of_prod _ _ d d' hd hd' (fun k => srcEnergy_nonneg hw Y k) hE' hF h
  have h1 : laplaceLoss Y' ≤ ∑ k, F * (Real.log (srcEnergy (laplaceForward e Y) Y' k)
      + Real.log 2 + Real.log (m k)) := by
    refine Finset.sum_le_sum fun k _ => ?_
    have := Real.log_le_log (pow_pos (hpos k) 2) (hge k)
    rw [Real.log_pow, Real.log_mul (hE' k).ne' (mul_pos two_pos (hm0 k)).ne',
      Real.log_mul two_ne_zero (hm0 k).ne'] at this
    push_cast at this
    have hF' : (0 : ℝ) ≤ F := Nat.cast_nonneg F
    nlinarith
  have h2 : ∑ k, F * (Real.log (srcEnergy (laplaceForward e Y) Y k) + Real.log 2 + Real.log (m k))
      ≤ ∑ k, F * (Real.log (meanNorm (Y k)) + Real.log (m k)) := by
    refine Finset.sum_le_sum fun k _ => mul_le_mul_of_nonneg_left ?_ (Nat.cast_nonneg F)
    have hle := laplace_energy_le e he Y k
    have hA : 0 < meanNorm (Y k) := by linarith [hE k]
    have := Real.log_le_log (hE k) hle
    rw [Real.log_div hA.ne' two_ne_zero] at this
    linarith
  simp only [mul_add, Finset.sum_add_distrib] at h1 h2 ⊢
  linarith

private lemma loss_clear (e : ℝ) (Y : Sig s F N) (hloud : ∀ k n, e ≤ 2 * √(framePower (Y k) n)) :
    (∑ k, F * (Real.log (meanNorm (Y k)) + Real.log ((∑ n, max (√(framePower (Y k) n)) (e / 2)) / N)))
      = laplaceLoss Y := by
  refine Finset.sum_congr rfl fun k _ => ?_
  have : ∀ n, max (√(framePower (Y k) n)) (e / 2) = √(framePower (Y k) n) := fun n =>
    max_eq_left (by linarith [hloud k n])
  simp only [this]
  change F * (Real.log (meanNorm (Y k)) + Real.log (meanNorm (Y k))) = _
  ring

private lemma logdet_eq (W : Fin F → Matrix (Fin C) (Fin C) ℂ) :
    logdetTerm W = - (2 * ∑ f, Real.log ‖(W f).det‖) := by
  unfold logdetTerm; ring

private lemma fullDemix_determined (W : DemixW C F C) (J : BackJ (C - C) F C) :
    fullDemix W J = fun f => Matrix.of fun k c => W k f c := by
  funext f
  ext i d
  simp [fullDemix]

private lemma determined_runs (p : TissParams) (he : 0 < p.eps) (hN : 0 < N) (hp : p.projBackMic = none)
    (X : Sig C F N) (model : SourceModel σ F N) (reset : σ → σ) (ms : σ) (o o' : TissOut σ C C F N)
    (h : tissForward p none X model reset ms = .ok ⟨C, o⟩)
    (h' : tissForward { p with nIter := p.nIter + 1 } none X model reset ms = .ok ⟨C, o'⟩)
    (w : Sig C F N → Weights C F N) (hmw : ∀ m Y, (model C m Y).1 = w Y) (hw : ∀ Y k f n, 0 ≤ w Y k f n) :
    (∀ f, 0 < ‖(Matrix.of fun k c => o.W k f c).det‖) ∧ (∀ f, 0 < ‖(Matrix.of fun k c => o'.W k f c).det‖) ∧
    (∏ k, srcEnergy (w o.Y) o'.Y k ^ F) / ∏ f, ‖(Matrix.of fun k c => o'.W k f c).det‖ ^ 2
      ≤ (∏ k, srcEnergy (w o.Y) o.Y k ^ F) / ∏ f, ‖(Matrix.of fun k c => o.W k f c).det‖ ^ 2 := by
  have hd := fun f => (tiss_demixing_invertible p he X model reset ms o h f).ne_zero
  have hd' := fun f => (tiss_demixing_invertible { p with nIter := p.nIter + 1 } he X model reset ms o' h' f).ne_zero
  obtain ⟨hs, st, st', hst, hY, hW, -, hY', hW', -⟩ := two_runs p hp none X model reset ms o o' h h'
  have := free_oneIter hs X _ _ _ model he hN st st' hst (by rw [hmw]; exact hw _)
    (fun c _ _ => absurd c.2 (by omega)) (fun J' _ => by funext c; exact absurd c.2 (by omega))
    (by rw [fullDemix_determined]; rw [← hW]; exact hd)
  rw [fullDemix_determined, fullDemix_determined, hmw, ← hY, ← hW, ← hY', ← hW'] at this
  exact ⟨fun f => norm_pos_iff.2 (hd f), fun f => norm_pos_iff.2 (hd' f), this.2⟩

/-- **C92 (T-ISS, Laplace, with silent frames).**  Whatever the input, one more iteration increases
the objective by at most the effect of the floor `e` of the source model on nearly silent frames: one
of the two means of the frame norms is replaced by the mean of the floored norms. -/
theorem tiss_laplace_bound (p : TissParams) (he : 0 < p.eps) (hN : 0 < N) (hp : p.projBackMic = none)
    (X : Sig C F N) (e : ℝ) (hee : 0 < e) (reset : Unit → Unit) (o o' : TissOut Unit C C F N)
    (h : tissForward p none X (laplaceModel e) reset () = .ok ⟨C, o⟩)
    (h' : tissForward { p with nIter := p.nIter + 1 } none X (laplaceModel e) reset () = .ok ⟨C, o'⟩)
    (hpos : ∀ k, 0 < meanNorm (o'.Y k)) :
    laplaceLoss o'.Y + logdetTerm (fun f => Matrix.of fun k c => o'.W k f c)
      ≤ (∑ k, F * (Real.log (meanNorm (o.Y k))
          + Real.log ((∑ n, max (√(framePower (o.Y k) n)) (e / 2)) / N)))
        + logdetTerm (fun f => Matrix.of fun k c => o.W k f c) := by
  obtain ⟨hd, hd', hr⟩ := determined_runs p he hN hp X (laplaceModel e) reset () o o' h h'
    (laplaceForward e) (fun _ _ => rfl) (fun Y k f n => by
      have : 0 < max (2 * √(∑ f, magSq (Y k f n))) e := lt_of_lt_of_le hee (le_max_right _ _)
      simp only [laplaceForward, clampMin]
      positivity)
  have := laplace_log e hee hN o.Y o'.Y hpos _ _ hd hd' hr
  rw [logdet_eq, logdet_eq]
  linarith

/-- **C92 (T-ISS, Laplace).**  Determined T-ISS with `LaplaceModel(eps=e)` and no projection back: if
no frame of the current separated signals is below the floor of the source model, one more iteration
never increases the scale-free Laplace objective.  No condition on the input, the number of taps, the
delay, or the floor `eps` of the separator. -/
theorem tiss_laplace_descent (p : TissParams) (he : 0 < p.eps) (hN : 0 < N) (hp : p.projBackMic = none)
    (X : Sig C F N) (e : ℝ) (hee : 0 < e) (reset : Unit → Unit) (o o' : TissOut Unit C C F N)
    (h : tissForward p none X (laplaceModel e) reset () = .ok ⟨C, o⟩)
    (h' : tissForward { p with nIter := p.nIter + 1 } none X (laplaceModel e) reset () = .ok ⟨C, o'⟩)
    (hloud : ∀ k n, e ≤ 2 * √(framePower (o.Y k) n)) (hpos : ∀ k, 0 < meanNorm (o'.Y k)) :
    laplaceLoss o'.Y + logdetTerm (fun f => Matrix.of fun k c => o'.W k f c)
      ≤ laplaceLoss o.Y + logdetTerm (fun f => Matrix.of fun k c => o.W k f c) := by
  have := tiss_laplace_bound p he hN hp X e hee reset o o' h h' hpos
  rwa [loss_clear e o.Y hloud] at this

/-- **No output is silent.**  Without dereverberation, if the input channels are linearly independent
at frequency `f`, every output of determined T-ISS is nonzero at that frequency, whatever the source
model and the number of iterations. -/
theorem tiss_outputs_not_silent (p : TissParams) (he : 0 < p.eps) (hp : p.projBackMic = none)
    (ht : p.nTaps = 0) (X : Sig C F N) (model : SourceModel σ F N) (reset : σ → σ) (ms : σ)
    (o : TissOut σ C C F N) (h : tissForward p none X model reset ms = .ok ⟨C, o⟩) (f : Fin F)
    (hX : LinearIndependent ℂ fun c => X c f) (k : Fin C) : ∃ n, o.Y k f n ≠ 0 := by
  by_contra hc
  simp only [not_exists, not_not] at hc
  obtain ⟨a, G, ha, hG, hY⟩ := tiss_output_filters_input p none X model reset ms C o h
  have hz : ∑ c, o.W k f c • X c f = 0 := by
    funext n
    have h1 := hY k f n
    rw [hc n, ha (Or.inl hp), one_mul] at h1
    have h2 : ∑ c, ∑ d ∈ Finset.range (p.nDelay + p.nTaps + 1), G k f c d * past (X c f) n d = 0 :=
      Finset.sum_eq_zero fun c _ => Finset.sum_eq_zero fun d _ => by
        rw [hG k f c d (by omega), zero_mul]
    rw [h2, sub_zero] at h1
    simpa [Finset.sum_apply] using h1.symm
  have hW : ∀ c, o.W k f c = 0 := fun c => (Fintype.linearIndependent_iff.1 hX) _ hz c
  refine (tiss_demixing_invertible p he X model reset ms o h f).ne_zero ?_
  exact Matrix.det_eq_zero_of_row_eq_zero k fun c => hW c

/-- Non-vacuity of `tiss_laplace_bound` and `tiss_laplace_descent`: two channels `(2, 1)` and `(1, 2)` over two frames, one
frequency, from no iteration to one iteration with the default floor of the source model. -/
example : ∃ (p : TissParams) (X : Sig 2 1 2) (o o' : TissOut Unit 2 2 1 2), 0 < p.eps ∧ p.projBackMic = none ∧
    tissForward p none X (laplaceModel 1e-5) id () = .ok ⟨2, o⟩ ∧
    tissForward { p with nIter := p.nIter + 1 } none X (laplaceModel 1e-5) id () = .ok ⟨2, o'⟩ ∧
    (∀ k n, 1e-5 ≤ 2 * √(framePower (o.Y k) n)) ∧ ∀ k, 0 < meanNorm (o'.Y k) := by
  set p : TissParams := ⟨0, 0, 0, none, false, 1e-5⟩ with hp
  set X : Sig 2 1 2 := fun c _ n => if c = n then 2 else 1 with hX
  have he : 0 < p.eps := by norm_num [hp]
  obtain ⟨o, ho, hY⟩ := tiss_zero_iterations p rfl he none le_rfl X (laplaceModel 1e-5) id ()
  obtain ⟨o', ho'⟩ := tiss_succeeds { p with nIter := p.nIter + 1 } he none X (fun k h => by cases h)
    (fun m h => by cases h) (laplaceModel 1e-5) id ()
  refine ⟨p, X, o, o', he, rfl, ho, ho', fun k n => ?_, fun k => ?_⟩
  · have h1 : 1 ≤ framePower (o.Y k) n := by
      have : framePower (o.Y k) n = ‖X k 0 n‖ ^ 2 := by
        unfold framePower
        rw [Fin.sum_univ_one, hY]
        rfl
      rw [this, hX]
      simp only
      split_ifs <;> norm_num
    have := Real.one_le_sqrt.2 h1
    linarith
  · obtain ⟨n, hn⟩ := tiss_outputs_not_silent { p with nIter := p.nIter + 1 } he rfl rfl X (laplaceModel 1e-5)
      id () o' ho' 0 (by
        rw [Fintype.linearIndependent_iff]
        intro g hg
        have h0 := congrFun hg 0
        have h1 := congrFun hg 1
        simp [hX, Fin.sum_univ_two] at h0 h1
        intro i
        have hb : g 1 = 0 := by linear_combination (2 / 3 : ℂ) * h1 - (1 / 3 : ℂ) * h0
        have ha : g 0 = 0 := by linear_combination (2 / 3 : ℂ) * h0 - (1 / 3 : ℂ) * h1
        fin_cases i
        · exact ha
        · exact hb) k
    unfold meanNorm
    refine div_pos (Finset.sum_pos' (fun _ _ => Real.sqrt_nonneg _) ⟨n, Finset.mem_univ _, ?_⟩) (by norm_num)
    refine Real.sqrt_pos.2 (Finset.sum_pos' (fun _ _ => by positivity) ⟨0, Finset.mem_univ _, ?_⟩)
    have := norm_pos_iff.2 hn
    positivity

/-! ## Gauss -/

private lemma mean_log_le (x : Fin N → ℝ) (hx : ∀ n, 0 < x n) (hN : 0 < N) :
    (∑ n, Real.log (x n)) / N ≤ Real.log ((∑ n, x n) / N) := by
  have hN' : (0 : ℝ) < N := by exact_mod_cast hN
  have h := Real.log_le_log (Finset.prod_pos fun n _ => hx n) (prod_le_mean_pow x fun n => (hx n).le)
  rw [Real.log_prod (fun n _ => (hx n).ne'), Real.log_pow] at h
  rw [div_le_iff₀ hN']
  linarith

private lemma gauss_energy (e : ℝ) (Y Y' : Sig s F N) (k : Fin s) :
    srcEnergy (gaussForward e Y) Y' k
      = (∑ n, framePower (Y' k) n / max (framePower (Y k) n / F) e) / N := by
  unfold srcEnergy
  rw [← Finset.sum_div, Finset.sum_comm]
  congr 1
  refine Finset.sum_congr rfl fun n _ => ?_
  simp only [gaussForward, clampMin, magSq_eq, framePower, ← Finset.mul_sum]
  ring

lemma gauss_log (e : ℝ) (he : 0 < e) (hN : 0 < N) (Y Y' : Sig s F N)
    (hpos : ∀ k n, 0 < framePower (Y' k) n) (d d' : Fin F → ℝ) (hd : ∀ f, 0 < d f) (hd' : ∀ f, 0 < d' f)
    (h : (∏ k, srcEnergy (gaussForward e Y) Y' k ^ F) / ∏ f, d' f ^ 2
      ≤ (∏ k, srcEnergy (gaussForward e Y) Y k ^ F) / ∏ f, d f ^ 2) :
    gaussLoss Y' - 2 * ∑ f, Real.log (d' f)
      ≤ (∑ k, F * ((∑ n, Real.log (max (framePower (Y k) n) (F * e))) / N)) - 2 * ∑ f, Real.log (d f) := by
  rcases Nat.eq_zero_or_pos F with rfl | hF
  · simp [gaussLoss]
  have hN' : (0 : ℝ) < N := by exact_mod_cast hN
  have hF' : (0 : ℝ) < F := by exact_mod_cast hF
  have hP : ∀ (Z : Sig s F N) k n, 0 ≤ framePower (Z k) n := fun Z k n =>
    Finset.sum_nonneg fun f _ => by positivity
  have hm : ∀ k n, 0 < max (framePower (Y k) n / F) e := fun k n => lt_of_lt_of_le he (le_max_right _ _)
  have hw : ∀ k f n, 0 ≤ gaussForward e Y k f n := fun k f n => by
    have : 0 < max ((∑ f, magSq (Y k f n)) / F) e := lt_of_lt_of_le he (le_max_right _ _)
    simp only [gaussForward, clampMin]
    positivity
  have hE' : ∀ k, 0 < srcEnergy (gaussForward e Y) Y' k := fun k => by
    rw [gauss_energy]
    exact div_pos (Finset.sum_pos (fun n _ => div_pos (hpos k n) (hm k n)) ⟨⟨0, hN⟩, Finset.mem_univ _⟩) hN'
  obtain ⟨hE, hl⟩ := log_of_prod _ _ d d' hd hd' (fun k => srcEnergy_nonneg hw Y k) hE' hF h
  have h1 : gaussLoss Y' ≤ ∑ k, F * (Real.log (srcEnergy (gaussForward e Y) Y' k)
      + (∑ n, Real.log (max (framePower (Y k) n / F) e)) / N) := by
    refine Finset.sum_le_sum fun k _ => mul_le_mul_of_nonneg_left ?_ hF'.le
    have := mean_log_le (fun n => framePower (Y' k) n / max (framePower (Y k) n / F) e)
      (fun n => div_pos (hpos k n) (hm k n)) hN
    rw [gauss_energy]
    simp only [Real.log_div (hpos k _).ne' (hm k _).ne', Finset.sum_sub_distrib, sub_div] at this
    linarith
  have h2 : ∑ k, F * (Real.log (srcEnergy (gaussForward e Y) Y k)
        + (∑ n, Real.log (max (framePower (Y k) n / F) e)) / N)
      ≤ ∑ k, F * ((∑ n, Real.log (max (framePower (Y k) n) (F * e))) / N) := by
    refine Finset.sum_le_sum fun k _ => mul_le_mul_of_nonneg_left ?_ hF'.le
    have hle : srcEnergy (gaussForward e Y) Y k ≤ F := by
      rw [gauss_energy, div_le_iff₀ hN']
      calc _ ≤ ∑ _n : Fin N, (F : ℝ) := Finset.sum_le_sum fun n _ => by
            rw [div_le_iff₀ (hm k n)]
            have := le_max_left (framePower (Y k) n / F) e
            rw [div_le_iff₀ hF'] at this
            linarith
        _ = _ := by simp; ring
    have h3 := Real.log_le_log (hE k) hle
    have h4 : ∀ n, Real.log (max (framePower (Y k) n) (F * e))
        = Real.log F + Real.log (max (framePower (Y k) n / F) e) := by
      intro n
      rw [← Real.log_mul hF'.ne' (hm k n).ne', mul_max_of_nonneg _ _ hF'.le, mul_div_cancel₀ _ hF'.ne']
    simp only [h4, Finset.sum_add_distrib, Finset.sum_const, Finset.card_univ, Fintype.card_fin,
      nsmul_eq_mul, add_div]
    rw [mul_div_cancel_left₀ _ hN'.ne']
    linarith
  simp only [mul_add, Finset.sum_add_distrib] at h1 h2 ⊢
  linarith

/-- **C92 (T-ISS, Gauss, with silent frames).**  One more iteration brings the objective below the
current objective computed with floored frame powers. -/
theorem tiss_gauss_bound (p : TissParams) (he : 0 < p.eps) (hN : 0 < N) (hp : p.projBackMic = none)
    (X : Sig C F N) (e : ℝ) (hee : 0 < e) (reset : Unit → Unit) (o o' : TissOut Unit C C F N)
    (h : tissForward p none X (gaussModel e) reset () = .ok ⟨C, o⟩)
    (h' : tissForward { p with nIter := p.nIter + 1 } none X (gaussModel e) reset () = .ok ⟨C, o'⟩)
    (hpos : ∀ k n, 0 < framePower (o'.Y k) n) :
    gaussLoss o'.Y + logdetTerm (fun f => Matrix.of fun k c => o'.W k f c)
      ≤ (∑ k, F * ((∑ n, Real.log (max (framePower (o.Y k) n) (F * e))) / N))
        + logdetTerm (fun f => Matrix.of fun k c => o.W k f c) := by
  obtain ⟨hd, hd', hr⟩ := determined_runs p he hN hp X (gaussModel e) reset () o o' h h'
    (gaussForward e) (fun _ _ => rfl) (fun Y k f n => by
      have : 0 < max ((∑ f, magSq (Y k f n)) / F) e := lt_of_lt_of_le hee (le_max_right _ _)
      simp only [gaussForward, clampMin]
      positivity)
  have := gauss_log e hee hN o.Y o'.Y hpos _ _ hd hd' hr
  rw [logdet_eq, logdet_eq]
  linarith

/-- **C92 (T-ISS, Gauss).**  If the mean power over frequencies of every frame of the current
separated signals is at least the floor of the source model, one more iteration never increases the
Gaussian objective. -/
theorem tiss_gauss_descent (p : TissParams) (he : 0 < p.eps) (hN : 0 < N) (hp : p.projBackMic = none)
    (X : Sig C F N) (e : ℝ) (hee : 0 < e) (reset : Unit → Unit) (o o' : TissOut Unit C C F N)
    (h : tissForward p none X (gaussModel e) reset () = .ok ⟨C, o⟩)
    (h' : tissForward { p with nIter := p.nIter + 1 } none X (gaussModel e) reset () = .ok ⟨C, o'⟩)
    (hloud : ∀ k n, F * e ≤ framePower (o.Y k) n) (hpos : ∀ k n, 0 < framePower (o'.Y k) n) :
    gaussLoss o'.Y + logdetTerm (fun f => Matrix.of fun k c => o'.W k f c)
      ≤ gaussLoss o.Y + logdetTerm (fun f => Matrix.of fun k c => o.W k f c) := by
  have := tiss_gauss_bound p he hN hp X e hee reset o o' h h' hpos
  simp only [max_eq_left (hloud _ _)] at this
  exact this

/-- Non-vacuity of `tiss_gauss_descent` and `tiss_single_channel`: one channel, two frames of different level. -/
example : ∃ (p : TissParams) (X : Sig 1 1 2) (o o' : TissOut Unit 1 1 1 2), 0 < p.eps ∧ p.projBackMic = none ∧
    X 0 0 0 ≠ X 0 0 1 ∧
    tissForward p none X (gaussModel 1e-5) id () = .ok ⟨1, o⟩ ∧
    tissForward { p with nIter := p.nIter + 1 } none X (gaussModel 1e-5) id () = .ok ⟨1, o'⟩ ∧
    (∀ k n, (1 : ℕ) * 1e-5 ≤ framePower (o.Y k) n) ∧ ∀ k n, 0 < framePower (o'.Y k) n := by
  set p : TissParams := ⟨0, 0, 0, none, false, 1e-5⟩ with hp
  set X : Sig 1 1 2 := fun _ _ n => if n = 0 then 1 else 2 with hX
  have he : 0 < p.eps := by norm_num [hp]
  obtain ⟨o, ho, hY⟩ := tiss_zero_iterations p rfl he none le_rfl X (gaussModel 1e-5) id ()
  obtain ⟨o', ho'⟩ : ∃ o' : TissOut Unit 1 1 1 2,
      tissForward { p with nIter := p.nIter + 1 } none X (gaussModel 1e-5) id () = .ok ⟨1, o'⟩ :=
    tiss_succeeds { p with nIter := p.nIter + 1 } he none X (fun k h => by cases h)
      (fun m h => by cases h) (gaussModel 1e-5) id ()
  refine ⟨p, X, o, o', he, rfl, by norm_num [hX], ho, ho', fun k n => ?_, fun k n => ?_⟩
  · have : framePower (o.Y k) n = ‖X k 0 n‖ ^ 2 := by
      unfold framePower
      rw [Fin.sum_univ_one, hY]
    rw [this, hX]
    simp only
    split_ifs <;> norm_num
  · obtain ⟨a, G, ha, hG, hYo⟩ := tiss_output_filters_input _ none X (gaussModel 1e-5) id () 1 o' ho'
    have hW := (tiss_demixing_invertible { p with nIter := p.nIter + 1 } he X (gaussModel 1e-5) id () o' ho' 0).ne_zero
    have h1 := hYo k 0 n
    rw [ha (Or.inl rfl), one_mul] at h1
    have h2 : ∑ c, ∑ d ∈ Finset.range (0 + 0 + 1), G k 0 c d * past (X c 0) n d = 0 :=
      Finset.sum_eq_zero fun c _ => Finset.sum_eq_zero fun d _ => by
        rw [hG k 0 c d (by simp only [hp]; omega), zero_mul]
    simp only [hp] at h1
    rw [h2, sub_zero, Fin.sum_univ_one] at h1
    have hk : k = 0 := Subsingleton.elim _ _
    subst hk
    have hW0 : o'.W 0 0 0 ≠ 0 := by simpa using hW
    have hX0 : X 0 0 n ≠ 0 := by rw [hX]; simp only; split_ifs <;> norm_num
    unfold framePower
    rw [Fin.sum_univ_one, h1]
    have := norm_pos_iff.2 (mul_ne_zero hW0 hX0)
    positivity

/-! ## More microphones than sources -/

/-- **C92 (T-ISS, over-determined, Laplace).**  With `n_src < n_chan` the background filter `J` is
recomputed at the start of each iteration; for the `J` of that iteration the objective, with the
determinant of the whole matrix (sources and background), does not increase. -/
theorem tiss_laplace_descent_overdetermined (p : TissParams) (he : 0 < p.eps) (hN : 0 < N)
    (hp : p.projBackMic = none) (nSrc : Option ℕ)
    (X : Sig C F N) (e : ℝ) (hee : 0 < e) (reset : Unit → Unit) (o o' : TissOut Unit s C F N)
    (h : tissForward p nSrc X (laplaceModel e) reset () = .ok ⟨s, o⟩)
    (h' : tissForward { p with nIter := p.nIter + 1 } nSrc X (laplaceModel e) reset () = .ok ⟨s, o'⟩)
    (J : BackJ (C - s) F s) (hJ : o'.J = some J) (hdet : ∀ f, (fullDemix o.W J f).det ≠ 0)
    (hloud : ∀ k n, e ≤ 2 * √(framePower (o.Y k) n)) (hpos : ∀ k, 0 < meanNorm (o'.Y k)) :
    laplaceLoss o'.Y + logdetTerm (fullDemix o'.W J) ≤ laplaceLoss o.Y + logdetTerm (fullDemix o.W J) := by
  obtain ⟨hs, st, st', hst, hY, hW, -, hY', hW', hJ'⟩ := two_runs p hp nSrc X _ reset () o o' h h'
  have hw : ∀ k f n, 0 ≤ laplaceForward e st.Y k f n := fun k f n => by
    have : 0 < max (2 * √(∑ f, magSq (st.Y k f n))) e := lt_of_lt_of_le hee (le_max_right _ _)
    simp only [laplaceForward, clampMin]
    positivity
  have hf := free_oneIter hs X _ _ _ (laplaceModel e) he hN st st' hst hw J
    (fun J1 h1 => by rw [← hJ', hJ] at h1; cases h1; rfl) (by rw [← hW]; exact hdet)
  have hr := hf.2
  change (∏ k, srcEnergy (laplaceForward e st.Y) st'.Y k ^ F) / _ ≤
    (∏ k, srcEnergy (laplaceForward e st.Y) st.Y k ^ F) / _ at hr
  rw [← hY, ← hW, ← hY', ← hW'] at hr
  have := laplace_log e hee hN o.Y o'.Y hpos _ _ (fun f => norm_pos_iff.2 (hdet f))
    (fun f => norm_pos_iff.2 (by rw [hW']; exact hf.1 f)) hr
  rw [loss_clear e o.Y hloud] at this
  rw [logdet_eq, logdet_eq]
  linarith

/-- Non-vacuity of `tiss_laplace_descent_overdetermined`: one source from the two channels `(2, 1)` and `(1, 2)`, from
no iteration to one iteration. -/
example : ∃ (p : TissParams) (X : Sig 2 1 2) (o o' : TissOut Unit 1 2 1 2) (J : BackJ (2 - 1) 1 1), 0 < p.eps ∧
    p.projBackMic = none ∧ tissForward p (some 1) X (laplaceModel 1e-5) id () = .ok ⟨1, o⟩ ∧
    tissForward { p with nIter := p.nIter + 1 } (some 1) X (laplaceModel 1e-5) id () = .ok ⟨1, o'⟩ ∧
    o'.J = some J ∧ (∀ f, (fullDemix o.W J f).det ≠ 0) ∧
    (∀ k n, 1e-5 ≤ 2 * √(framePower (o.Y k) n)) ∧ ∀ k, 0 < meanNorm (o'.Y k) := by
  set p : TissParams := ⟨0, 0, 0, none, false, 1e-5⟩ with hp
  set X : Sig 2 1 2 := fun c _ n => if c = n then 2 else 1 with hX
  have he : 0 < p.eps := by norm_num [hp]
  have hli : ∀ a b : ℂ, a * X 0 0 0 + b * X 1 0 0 = 0 → a * X 0 0 1 + b * X 1 0 1 = 0 → a = 0 ∧ b = 0 := by
    intro a b h0 h1
    simp [hX] at h0 h1
    exact ⟨by linear_combination (2 / 3 : ℂ) * h0 - (1 / 3 : ℂ) * h1,
      by linear_combination (2 / 3 : ℂ) * h1 - (1 / 3 : ℂ) * h0⟩
  obtain ⟨o, ho, hY⟩ : ∃ o : TissOut Unit 1 2 1 2, tissForward p (some 1) X (laplaceModel 1e-5) id () = .ok ⟨1, o⟩ ∧
      ∀ k f n, o.Y k f n = X (Fin.castLE (by norm_num) k) f n :=
    tiss_zero_iterations p rfl he (some 1) (by norm_num) X (laplaceModel 1e-5) id ()
  obtain ⟨o', ho'⟩ : ∃ o' : TissOut Unit 1 2 1 2,
      tissForward { p with nIter := p.nIter + 1 } (some 1) X (laplaceModel 1e-5) id () = .ok ⟨1, o'⟩ :=
    tiss_succeeds { p with nIter := p.nIter + 1 } he (some 1) X (fun k h => by cases h; norm_num)
      (fun m h => by cases h) (laplaceModel 1e-5) id ()
  -- the filters and signals of both runs
  have hfil : ∀ (n : ℕ) (q : TissOut Unit 1 2 1 2),
      tissForward { p with nIter := n } (some 1) X (laplaceModel 1e-5) id () = .ok ⟨1, q⟩ →
      ∀ m, q.Y 0 0 m = q.W 0 0 0 * X 0 0 m + q.W 0 0 1 * X 1 0 m := by
    intro n q hq m
    obtain ⟨a, G, ha, hG, hq2⟩ := tiss_output_filters_input { p with nIter := n } (some 1) X _ _ () 1 q hq
    have h2 : ∑ c, ∑ d ∈ Finset.range (p.nDelay + p.nTaps + 1), G 0 0 c d * past (X c 0) m d = 0 :=
      Finset.sum_eq_zero fun c _ => Finset.sum_eq_zero fun d hd => by
        rw [hG 0 0 c d (Or.inl (by simpa [hp] using hd)), zero_mul]
    rw [hq2, ha (Or.inl rfl), h2, Fin.sum_univ_two, one_mul, sub_zero]
  have hW := hfil 0 o ho
  have hw0 : o.W 0 0 0 = 1 ∧ o.W 0 0 1 = 0 := by
    have h0 := hW 0
    have h1 := hW 1
    rw [hY] at h0 h1
    have e : (Fin.castLE (by norm_num) (0 : Fin 1) : Fin 2) = 0 := rfl
    rw [e] at h0 h1
    obtain ⟨ha, hb⟩ := hli (o.W 0 0 0 - 1) (o.W 0 0 1) (by linear_combination -h0) (by linear_combination -h1)
    exact ⟨by linear_combination ha, hb⟩
  obtain ⟨hs, st, st', hst, -, hWs, hJs, hY', hW', hJ'⟩ := two_runs p rfl (some 1) X _ id () o o' ho ho'
  obtain ⟨J, hJ⟩ : ∃ J, o'.J = some J := by
    obtain ⟨_, hc, -⟩ := tiss_forward_ok p (some 1) X _ id () 1 o ho
    obtain ⟨st0, st1, -, h0, h1, -, -, hJ1, -⟩ := tiss_core_ok hs p X _ _ o hc
    cases h1
    obtain ⟨st2, h2, hJ2⟩ := tissOneIter_total hs X _ (covXX X) (covXbarX X _) (laplaceModel 1e-5) p.eps st
    rw [hst] at h2
    cases h2
    refine Option.isSome_iff_exists.1 ?_
    rw [hJ', hJ2, ← hJs, hJ1]
    exact (tissInit_ok hs X p.nDelay p.eps () st0 h0).2.2.2.1.2 (by norm_num)
  have hdet : ∀ f, (fullDemix o.W J f).det ≠ 0 := fun f => by
    obtain rfl : f = 0 := Subsingleton.elim _ _
    rw [Matrix.det_fin_two]
    have h0 : fullDemix o.W J 0 0 0 = 1 := by simpa [fullDemix] using hw0.1
    have h1 : fullDemix o.W J 0 0 1 = 0 := by simpa [fullDemix] using hw0.2
    have h2 : fullDemix o.W J 0 1 1 = -1 := by simp [fullDemix]
    rw [h0, h1, h2]
    norm_num
  have hdet' := (free_oneIter hs X _ _ _ (laplaceModel 1e-5) he (by norm_num) st st' hst
    (fun k f n => Demo.laplace_nonneg _ _ _ _ _ _) J (fun J1 h1 => by rw [← hJ', hJ] at h1; cases h1; rfl)
    (by rw [← hWs]; exact hdet)).1 0
  refine ⟨p, X, o, o', J, he, rfl, ho, ho', hJ, hdet, fun k n => ?_, fun k => ?_⟩
  · have h1 : 1 ≤ framePower (o.Y k) n := by
      rw [show framePower (o.Y k) n = ‖X (Fin.castLE (by norm_num) k) 0 n‖ ^ 2 by
        unfold framePower
        rw [Fin.sum_univ_one, hY], hX]
      simp only
      split_ifs <;> norm_num
    have : 1 ≤ √(framePower (o.Y k) n) := Real.one_le_sqrt.2 h1
    linarith
  · obtain rfl : k = 0 := Subsingleton.elim _ _
    have hF := hfil 1 o' ho'
    have hn : ∃ n, o'.Y 0 0 n ≠ 0 := by
      by_contra hc
      simp only [not_exists, not_not] at hc
      obtain ⟨ha, hb⟩ := hli _ _ ((hF 0).symm.trans (hc 0)) ((hF 1).symm.trans (hc 1))
      refine hdet' (Matrix.det_eq_zero_of_row_eq_zero 0 fun c => ?_)
      rw [← hW']
      have : fullDemix o'.W J 0 0 c = o'.W 0 0 c := by simp [fullDemix]
      rw [this]
      fin_cases c
      · exact ha
      · exact hb
    obtain ⟨n, hn⟩ := hn
    unfold meanNorm
    refine div_pos (Finset.sum_pos' (fun _ _ => Real.sqrt_nonneg _) ⟨n, Finset.mem_univ _, ?_⟩) (by norm_num)
    refine Real.sqrt_pos.2 (Finset.sum_pos' (fun _ _ => by positivity) ⟨0, Finset.mem_univ _, ?_⟩)
    have := norm_pos_iff.2 hn
    positivity

/-! ## The objectives do not depend on the scale of the sources -/

private lemma framePower_scale (c : ℂ) (y : Fin F → Fin N → ℂ) (n : Fin N) :
    framePower (fun f n => c * y f n) n = ‖c‖ ^ 2 * framePower y n := by
  simp only [framePower, norm_mul, mul_pow, Finset.mul_sum]

private lemma logdet_scale (c : Fin C → ℂ) (hc : ∀ k, c k ≠ 0) (W : Fin F → Matrix (Fin C) (Fin C) ℂ)
    (hW : ∀ f, (W f).det ≠ 0) :
    logdetTerm (fun f => Matrix.of fun k d => c k * W f k d)
      = logdetTerm W - ∑ k, 2 * F * Real.log ‖c k‖ := by
  have e : ∀ f, Real.log ‖(Matrix.of fun k d => c k * W f k d).det‖
      = (∑ k, Real.log ‖c k‖) + Real.log ‖(W f).det‖ := by
    intro f
    have : (Matrix.of fun k d => c k * W f k d) = Matrix.diagonal c * W f := by
      ext k d; rw [Matrix.diagonal_mul]; rfl
    rw [this, Matrix.det_mul, Matrix.det_diagonal, norm_mul, norm_prod,
      Real.log_mul (Finset.prod_ne_zero_iff.2 fun k _ => norm_ne_zero_iff.2 (hc k)) (norm_ne_zero_iff.2 (hW f)),
      Real.log_prod (fun k _ => norm_ne_zero_iff.2 (hc k))]
  unfold logdetTerm
  simp only [e, Finset.sum_add_distrib, Finset.sum_const, Finset.card_univ, Fintype.card_fin,
    nsmul_eq_mul, ← Finset.mul_sum]
  ring

/-- The Laplace objective is unchanged by a change of scale of the sources: it measures the
separation only. -/
theorem laplace_objective_scale_free (c : Fin C → ℂ) (hc : ∀ k, c k ≠ 0) (Y : Sig C F N)
    (hY : ∀ k, 0 < meanNorm (Y k)) (W : Fin F → Matrix (Fin C) (Fin C) ℂ) (hW : ∀ f, (W f).det ≠ 0) :
    laplaceLoss (fun k f n => c k * Y k f n) + logdetTerm (fun f => Matrix.of fun k d => c k * W f k d)
      = laplaceLoss Y + logdetTerm W := by
  rw [logdet_scale c hc W hW]
  have : ∀ k, 2 * F * Real.log (meanNorm fun f n => c k * Y k f n)
      = 2 * F * Real.log ‖c k‖ + 2 * F * Real.log (meanNorm (Y k)) := by
    intro k
    have e : meanNorm (fun f n => c k * Y k f n) = ‖c k‖ * meanNorm (Y k) := by
      unfold meanNorm
      simp only [framePower_scale, Real.sqrt_mul (sq_nonneg _), Real.sqrt_sq (norm_nonneg _),
        ← Finset.mul_sum, mul_div_assoc]
    rw [e, Real.log_mul (norm_ne_zero_iff.2 (hc k)) (hY k).ne']
    ring
  unfold laplaceLoss
  simp only [this, Finset.sum_add_distrib]
  ring

/-- Non-vacuity: two different signals, two different nonzero gains, invertible matrices. -/
example : ∃ (c : Fin 2 → ℂ) (Y : Sig 2 1 2) (W : Fin 1 → Matrix (Fin 2) (Fin 2) ℂ), (∀ k, c k ≠ 0) ∧
    (∀ k, 0 < meanNorm (Y k)) ∧ (∀ f, (W f).det ≠ 0) ∧ c 0 ≠ c 1 ∧ W 0 ≠ 1 := by
  refine ⟨fun k => if k = 0 then 2 else 3, fun c _ n => if c = n then 2 else 1,
    fun _ => Matrix.of ![![1, 2], ![0, 1]], fun k => ?_, fun k => ?_, fun f => ?_, ?_, fun h => ?_⟩
  · dsimp only; split_ifs <;> norm_num
  · refine div_pos (Finset.sum_pos (fun n _ => Real.sqrt_pos.2 ?_) ⟨0, Finset.mem_univ _⟩) (by norm_num)
    simp only [framePower, Fin.sum_univ_one]
    split_ifs <;> norm_num
  · simp [Matrix.det_fin_two]
  · simp
  · simpa using congrFun (congrFun h 0) 1

/-- The Gaussian objective is unchanged by a change of scale of the sources. -/
theorem gauss_objective_scale_free (c : Fin C → ℂ) (hc : ∀ k, c k ≠ 0) (Y : Sig C F N) (hN : 0 < N)
    (hY : ∀ k n, 0 < framePower (Y k) n) (W : Fin F → Matrix (Fin C) (Fin C) ℂ) (hW : ∀ f, (W f).det ≠ 0) :
    gaussLoss (fun k f n => c k * Y k f n) + logdetTerm (fun f => Matrix.of fun k d => c k * W f k d)
      = gaussLoss Y + logdetTerm W := by
  have hN' : (0 : ℝ) < N := by exact_mod_cast hN
  rw [logdet_scale c hc W hW]
  have : ∀ k, F * ((∑ n, Real.log (framePower (fun f n => c k * Y k f n) n)) / N)
      = 2 * F * Real.log ‖c k‖ + F * ((∑ n, Real.log (framePower (Y k) n)) / N) := by
    intro k
    simp only [framePower_scale, Real.log_mul (pow_ne_zero 2 (norm_ne_zero_iff.2 (hc k))) (hY k _).ne',
      Real.log_pow, Finset.sum_add_distrib, Finset.sum_const, Finset.card_univ, Fintype.card_fin,
      nsmul_eq_mul, add_div]
    rw [mul_div_cancel_left₀ _ hN'.ne']
    push_cast
    ring
  unfold gaussLoss
  simp only [this, Finset.sum_add_distrib]
  ring

/-- Non-vacuity: two different signals, two different nonzero gains, invertible matrices. -/
example : ∃ (c : Fin 2 → ℂ) (Y : Sig 2 1 2) (W : Fin 1 → Matrix (Fin 2) (Fin 2) ℂ), (∀ k, c k ≠ 0) ∧
    (∀ k n, 0 < framePower (Y k) n) ∧ (∀ f, (W f).det ≠ 0) ∧ c 0 ≠ c 1 ∧ W 0 ≠ 1 := by
  refine ⟨fun k => if k = 0 then 2 else 3, fun c _ n => if c = n then 2 else 1,
    fun _ => Matrix.of ![![1, 2], ![0, 1]], fun k => ?_, fun k n => ?_, fun f => ?_, ?_, fun h => ?_⟩
  · dsimp only; split_ifs <;> norm_num
  · simp only [framePower, Fin.sum_univ_one]
    split_ifs <;> norm_num
  · simp [Matrix.det_fin_two]
  · simp
  · simpa using congrFun (congrFun h 0) 1

/-! ## Scale of the sources -/

/-- **C93 (T-ISS).**  Without projection back, one more iteration returns sources whose weighted power is at
most one at every frequency, for the weights the source model computes from the previous output, times
the mean power of that output (clamped at `eps`). -/
theorem tiss_output_power (p : TissParams) (he : 0 < p.eps) (hN : 0 < N)
    (hp : p.projBackMic = none) (nSrc : Option ℕ) (X : Sig C F N) (model : SourceModel Unit F N)
    (hmod : ∀ (Y : Sig s F N) k f n, 0 ≤ (model s () Y).1 k f n) (reset : Unit → Unit) (o o' : TissOut Unit s C F N)
    (h : tissForward p nSrc X model reset () = .ok ⟨s, o⟩)
    (h' : tissForward { p with nIter := p.nIter + 1 } nSrc X model reset () = .ok ⟨s, o'⟩)
    (k : Fin s) (f : Fin F) :
    (∑ n, (model s () o.Y).1 k f n * max ((∑ f, ∑ n, ‖o.Y k f n‖ ^ 2) / (F * N)) p.eps
      * ‖o'.Y k f n‖ ^ 2) / N ≤ 1 := by
  obtain ⟨hs, st, st', hst, hY, -, -, hY', -⟩ := two_runs p hp nSrc X _ reset () o o' h h'
  obtain ⟨ZJ, a, -, -, e⟩ := oneIter_updates hs X _ _ _ model st st' hst
  rw [hY', e, hY]
  have hw : ∀ k f n, 0 ≤ (model s st.ms st.Y).1 k f n * max ((∑ f, ∑ n, ‖st.Y k f n‖ ^ 2) / (F * N)) p.eps :=
    fun k f n => mul_nonneg (hmod st.Y k f n) (he.le.trans (le_max_right _ _))
  exact power_updates hw he hN ZJ a k f

/-- Non-vacuity of `tiss_output_power`: three channels, two sources, two taps, the Laplace model. -/
example : ∃ (p : TissParams) (X : Sig 3 2 4) (o o' : TissOut Unit 2 3 2 4), 0 < p.eps ∧ p.projBackMic = none ∧
    p.nTaps = 2 ∧ X ≠ 0 ∧
    (∀ (Y : Sig 2 2 4) k f n, 0 ≤ (laplaceModel (F := 2) (N := 4) 1e-5 2 () Y).1 k f n) ∧
    tissForward p (some 2) X (laplaceModel 1e-5) id () = .ok ⟨2, o⟩ ∧
    tissForward { p with nIter := p.nIter + 1 } (some 2) X (laplaceModel 1e-5) id () = .ok ⟨2, o'⟩ := by
  obtain ⟨o, ho⟩ := tiss_succeeds ⟨3, 2, 1, none, false, 1e-5⟩ (by norm_num) (some 2) (Demo.sig 3 2 4)
    (fun k h => by cases h; norm_num) (fun m h => by cases h) (laplaceModel 1e-5) id ()
  obtain ⟨o', ho'⟩ := tiss_succeeds ⟨4, 2, 1, none, false, 1e-5⟩ (by norm_num) (some 2) (Demo.sig 3 2 4)
    (fun k h => by cases h; norm_num) (fun m h => by cases h) (laplaceModel 1e-5) id ()
  exact ⟨⟨3, 2, 1, none, false, 1e-5⟩, Demo.sig 3 2 4, o, o', by norm_num, rfl, rfl,
    fun h => Demo.sig_ne_zero 0 0 0 (congrFun (congrFun (congrFun h 0) 0) 0), fun Y k f n => Demo.laplace_nonneg _ _ _ _ _ _, ho, ho'⟩

/-- **C93 (closed form for one channel; the example before "More microphones than sources" is such a run).**  With a single channel, no taps and no projection back there is nothing
to separate: one more iteration divides the signal at each frequency by the square root of its weighted
power (clamped at `eps`) times the mean power over all frequencies and frames (clamped at `eps`). -/
theorem tiss_single_channel (p : TissParams) (he : 0 < p.eps) (he1 : p.eps ≤ 1) (hT : p.nTaps = 0)
    (hp : p.projBackMic = none) (X : Sig 1 F N) (model : SourceModel Unit F N)
    (reset : Unit → Unit) (o o' : TissOut Unit 1 1 F N)
    (h : tissForward p none X model reset () = .ok ⟨1, o⟩)
    (h' : tissForward { p with nIter := p.nIter + 1 } none X model reset () = .ok ⟨1, o'⟩)
    (f : Fin F) (n : Fin N) :
    o'.Y 0 f n = o.Y 0 f n / ((√(max ((∑ f, ∑ n, ‖o.Y 0 f n‖ ^ 2) / (F * N)) p.eps
        * max ((∑ n, (model 1 () o.Y).1 0 f n * ‖o.Y 0 f n‖ ^ 2) / N) p.eps) : ℝ) : ℂ) := by
  obtain ⟨hs, st, st', hst, hY, -, -, hY', -⟩ := two_runs p hp none X _ reset () o o' h h'
  obtain ⟨ZJ, a, -, ha, e⟩ := oneIter_updates hs X _ _ _ model st st' hst
  rw [hY', e, hY]
  set g : ℝ := max ((∑ f, ∑ n, ‖st.Y 0 f n‖ ^ 2) / (F * N)) p.eps with hg
  have hge : p.eps ≤ g := le_max_right _ _
  have hg0 : 0 < g := lt_of_lt_of_le he hge
  have hsq : max (√g) p.eps = √g := by
    refine max_eq_left ?_
    rw [← Real.sqrt_sq he.le]
    exact Real.sqrt_le_sqrt (by nlinarith)
  obtain ⟨nIter, nTaps, nDelay, pb, dmc, eps⟩ := p
  simp only at hT hp he he1 hg hge hsq ha ⊢
  subst hT
  have hup : (issUpdates (C := 1) (s := 1) (delayedTaps X 0 nDelay) (fun k f n => (model 1 st.ms st.Y).1 k f n
        * max ((∑ f, ∑ n, ‖st.Y k f n‖ ^ 2) / (F * N)) eps) eps ZJ a).Y 0 f n
      = (issSrcStep (fun k f n => (model 1 st.ms st.Y).1 k f n
        * max ((∑ f, ∑ n, ‖st.Y k f n‖ ^ 2) / (F * N)) eps) eps a 0).Y 0 f n := by
    rcases ZJ with _ | ⟨Z, J⟩ <;> rfl
  rw [hup]
  simp only [issSrcStep, issType1, if_true, clampMin, magSq_eq]
  have hnorm : ∀ n, ‖a.Y 0 f n‖ ^ 2 = ‖st.Y 0 f n‖ ^ 2 / g := by
    intro n
    rw [ha, ← hg, hsq, norm_div, Complex.norm_of_nonneg (Real.sqrt_nonneg _), div_pow, Real.sq_sqrt hg0.le]
  simp only [hnorm, ← hg, mul_one_div]
  have e2 : (∑ n, (model 1 st.ms st.Y).1 0 f n * g * (‖st.Y 0 f n‖ ^ 2 / g)) / (N : ℝ)
      = (∑ n, (model 1 () st.Y).1 0 f n * ‖st.Y 0 f n‖ ^ 2) / N := by
    congr 1
    exact Finset.sum_congr rfl fun n _ => by field_simp
  rw [e2, ha, ← hg, hsq, Real.sqrt_mul hg0.le]
  push_cast
  have h1 : ((√g : ℝ) : ℂ) ≠ 0 := by exact_mod_cast (Real.sqrt_pos.2 hg0).ne'
  have h2 : ((√(max ((∑ n, (model 1 () st.Y).1 0 f n * ‖st.Y 0 f n‖ ^ 2) / N) eps) : ℝ) : ℂ) ≠ 0 := by
    exact_mod_cast (Real.sqrt_pos.2 (lt_of_lt_of_le he (le_max_right _ _))).ne'
  push_cast at h2
  field_simp
  ring

end Torchiva.Props
