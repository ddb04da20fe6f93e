import Verif.Props.Contrast
import Verif.Props.Models
import Verif.Proofs.Ilrma
import Verif.Proofs.CheckpointNmf

/-!
# ILRMA: T-ISS with an NMF source model (C146, C147)

`NMFModel` keeps a low-rank model of the variances of every source and refines it once per iteration of the separator.
-/

namespace Torchiva.Props

open Torchiva Matrix Spec

variable {s C F N K : ℕ}

/-! ## What the objective means -/

private lemma whitePower_smul (c : ℝ) (y : Fin F → Fin N → ℂ) (r : Fin F → Fin N → ℝ) :
    whitePower (fun f n => (c : ℂ) * y f n) r = c ^ 2 * whitePower y r := by
  unfold whitePower
  rw [← mul_div_assoc, Finset.mul_sum]
  congr 1
  refine Finset.sum_congr rfl fun f _ => ?_
  rw [Finset.mul_sum]
  refine Finset.sum_congr rfl fun n _ => ?_
  rw [norm_mul, mul_pow, Complex.norm_real, Real.norm_eq_abs, sq_abs, mul_div_assoc]

private lemma logdet_smul (W : Fin F → Matrix (Fin C) (Fin C) ℂ) (hW : ∀ f, (W f).det ≠ 0) (c : Fin C → ℝ) (hc : ∀ k, 0 < c k) :
    logdetTerm (fun f => Matrix.of fun k d => (c k : ℂ) * W f k d) = logdetTerm W - 2 * (F * ∑ k, Real.log (c k)) := by
  unfold logdetTerm
  have h : ∀ f, Real.log ‖(Matrix.of fun k d => (c k : ℂ) * W f k d).det‖ = (∑ k, Real.log (c k)) + Real.log ‖(W f).det‖ := by
    intro f
    have e := Matrix.det_mul_column (fun k => (c k : ℂ)) (W f)
    rw [e, norm_mul, norm_prod, Real.log_mul (Finset.prod_ne_zero_iff.2 fun k _ => by
        rw [Complex.norm_real]; exact norm_ne_zero_iff.2 (hc k).ne') (norm_ne_zero_iff.2 (hW f)),
      Real.log_prod fun k _ => by rw [Complex.norm_real]; exact norm_ne_zero_iff.2 (hc k).ne']
    congr 1
    refine Finset.sum_congr rfl fun k _ => ?_
    rw [Complex.norm_real, Real.norm_eq_abs, abs_of_pos (hc k)]
  simp only [h, Finset.sum_add_distrib, Finset.sum_const, Finset.card_univ, Fintype.card_fin, nsmul_eq_mul]
  ring

private lemma gaussianLoss_eq (Y : Fin C → Fin F → Fin N → ℂ) (R : Fin C → Fin F → Fin N → ℝ) :
    gaussianLoss Y R = ∑ k, (whitePower (Y k) (R k) + (∑ f, ∑ n, Real.log (R k f n)) / N) := by
  unfold gaussianLoss whitePower
  refine Finset.sum_congr rfl fun k _ => ?_
  simp only [Finset.sum_add_distrib, add_div]

/-- **The meaning of the objective of C146.**  Up to the constant `C F (1 - log F)`, `ilrmaLoss` is the negative
log-likelihood minimised over the scale of every source (the signal and its row of the demixing matrices are multiplied
by the same positive number): it is a lower bound for all scales, and attained. -/
theorem ilrma_loss_is_minimum (hF : 0 < F) (Y : Fin C → Fin F → Fin N → ℂ) (R : Fin C → Fin F → Fin N → ℝ)
    (W : Fin F → Matrix (Fin C) (Fin C) ℂ) (hW : ∀ f, (W f).det ≠ 0) (hp : ∀ k, 0 < whitePower (Y k) (R k)) :
    (∀ c : Fin C → ℝ, (∀ k, 0 < c k) → ilrmaLoss Y R + logdetTerm W + C * (F * (1 - Real.log F)) ≤
      gaussianLoss (fun k f n => (c k : ℂ) * Y k f n) R + logdetTerm fun f => Matrix.of fun k d => (c k : ℂ) * W f k d) ∧
    ∃ c : Fin C → ℝ, (∀ k, 0 < c k) ∧ ilrmaLoss Y R + logdetTerm W + C * (F * (1 - Real.log F)) =
      gaussianLoss (fun k f n => (c k : ℂ) * Y k f n) R + logdetTerm fun f => Matrix.of fun k d => (c k : ℂ) * W f k d := by
  have hF' : (0 : ℝ) < F := by exact_mod_cast hF
  have key : ∀ c : Fin C → ℝ, (∀ k, 0 < c k) → gaussianLoss (fun k f n => (c k : ℂ) * Y k f n) R +
      logdetTerm (fun f => Matrix.of fun k d => (c k : ℂ) * W f k d) - (ilrmaLoss Y R + logdetTerm W + C * (F * (1 - Real.log F)))
      = ∑ k, F * (c k ^ 2 * whitePower (Y k) (R k) / F - 1 - Real.log (c k ^ 2 * whitePower (Y k) (R k) / F)) := by
    intro c hc
    rw [gaussianLoss_eq, logdet_smul W hW c hc]
    simp only [whitePower_smul, ilrmaLoss, Finset.sum_add_distrib]
    have e : ∀ k, F * (c k ^ 2 * whitePower (Y k) (R k) / F - 1 - Real.log (c k ^ 2 * whitePower (Y k) (R k) / F))
        = c k ^ 2 * whitePower (Y k) (R k) - F * (1 - Real.log F) - F * Real.log (whitePower (Y k) (R k)) - 2 * (F * Real.log (c k)) := by
      intro k
      rw [Real.log_div (mul_pos (pow_pos (hc k) 2) (hp k)).ne' hF'.ne', Real.log_mul (pow_pos (hc k) 2).ne' (hp k).ne', Real.log_pow]
      push_cast
      field_simp
      ring
    simp only [e, Finset.sum_sub_distrib, Finset.sum_const, Finset.card_univ, Fintype.card_fin, nsmul_eq_mul, ← Finset.mul_sum]
    ring
  refine ⟨fun c hc => ?_, fun k => √(F / whitePower (Y k) (R k)), fun k => Real.sqrt_pos.2 (div_pos hF' (hp k)), ?_⟩
  · have h := key c hc
    have : 0 ≤ ∑ k, F * (c k ^ 2 * whitePower (Y k) (R k) / F - 1 - Real.log (c k ^ 2 * whitePower (Y k) (R k) / F)) :=
      Finset.sum_nonneg fun k _ => mul_nonneg hF'.le (by
        have := Real.log_le_sub_one_of_pos (div_pos (mul_pos (pow_pos (hc k) 2) (hp k)) hF')
        linarith)
    linarith
  · have h := key _ fun k => Real.sqrt_pos.2 (div_pos hF' (hp k))
    have z : ∀ k, √(F / whitePower (Y k) (R k)) ^ 2 * whitePower (Y k) (R k) / F = 1 := fun k => by
      rw [Real.sq_sqrt (div_pos hF' (hp k)).le]
      have := (hp k).ne'
      field_simp
    simp only [z, sub_self, Real.log_one, mul_zero, Finset.sum_const_zero] at h
    linarith

/-- Hypotheses met: two sources, three frequencies and two frames. -/
example : (∀ k, 0 < whitePower ((fun _ _ _ => 1 : Fin 2 → Fin 3 → Fin 2 → ℂ) k) ((fun _ _ _ => 2 : Fin 2 → Fin 3 → Fin 2 → ℝ) k)) ∧
    ∀ _ : Fin 3, (1 : Matrix (Fin 2) (Fin 2) ℂ).det ≠ 0 := by
  constructor
  · intro k; norm_num [whitePower]
  · intro f; simp

/-! ## Two runs that differ by one iteration -/

private lemma runs {σ : Type} (p : TissParams) (hp : p.projBackMic = none) (nSrc : Option ℕ)
    (X : Sig C F N) (model : SourceModel σ F N) (reset : σ → σ) (ms : σ) (o o' : TissOut σ s C F N)
    (h : tissForward p nSrc X model reset ms = .ok ⟨s, o⟩)
    (h' : tissForward { p with nIter := p.nIter + 1 } nSrc X model reset ms = .ok ⟨s, o'⟩)
    (I : σ → Prop) (h0 : I (reset ms)) (hI : ∀ m Y, I m → I (model s m Y).2) :
    ∃ (hs : s ≤ C) (st st' : TissState σ s C F N p.nTaps), tissOneIter hs X (delayedTaps X p.nTaps p.nDelay) (covXX X)
        (covXbarX X (delayedTaps X p.nTaps p.nDelay)) model p.eps st = .ok st' ∧
      o.Y = st.Y ∧ o.W = st.W ∧ o.ms = st.ms ∧ o'.Y = st'.Y ∧ o'.W = st'.W ∧ o'.J = st'.J ∧ o'.ms = st'.ms ∧ I st.ms ∧
      st'.ms = (model s st.ms st.Y).2 := by
  have hone : ∀ (hs : s ≤ C) (T : ℕ) (Xbar : Taps C F T N) cXX cXbarX (x y : TissState σ s C F N T),
      tissOneIter hs X Xbar cXX cXbarX model p.eps x = .ok y → y.ms = (model s x.ms x.Y).2 := by
    intro hs T Xbar cXX cXbarX x y hxy
    unfold tissOneIter at hxy
    simp only at hxy
    cases hJ : x.J with
    | none =>
      rw [hJ] at hxy
      simp only [pure, Except.pure, Except.ok.injEq] at hxy
      rw [← hxy]
    | some J0 =>
      rw [hJ] at hxy
      simp only [bind, Except.bind] at hxy
      split at hxy
      · cases hxy
      · simp only [pure, Except.pure, Except.ok.injEq] at hxy
        rw [← hxy]
  have hdmc : ∀ n, tissForward { p with nIter := n } nSrc X model reset ms =
      tissForward { p with nIter := n, useDmc := false } nSrc X model reset ms := by
    intro n
    cases hd : p.useDmc with
    | true =>
      have := tiss_dmc_same { p with nIter := n } nSrc X model reset ms
      simpa [hd] using this
    | false => simp [hd]
  have e0 : p = { p with nIter := p.nIter } := rfl
  rw [e0, hdmc] at h
  rw [hdmc] at h'
  obtain ⟨hs, hc, -⟩ := tiss_forward_ok _ nSrc X model reset ms s o h
  obtain ⟨_, hc', -⟩ := tiss_forward_ok _ nSrc X model reset ms s o' h'
  unfold tissCore at hc hc'
  simp only [hp] at hc hc'
  cases hi : tissInit hs X p.nTaps p.nDelay p.eps (reset ms) with
  | error e => rw [hi] at hc; cases hc
  | ok st0 =>
    have hms0 := (tissInit_ok hs X p.nDelay p.eps (reset ms) st0 hi).2.2.2.2
    rw [hi] at hc hc'
    simp only [bind, Except.bind, Bool.false_eq_true, if_false] at hc hc'
    cases hl : tissLoop hs X p.nTaps p.nDelay model p.eps false p.nIter st0 with
    | error e => rw [hl] at hc; cases hc
    | ok st =>
      cases hl' : tissLoop hs X p.nTaps p.nDelay model p.eps false (p.nIter + 1) st0 with
      | error e => rw [hl'] at hc'; cases hc'
      | ok st' =>
        rw [hl] at hc
        rw [hl'] at hc'
        simp only [pure, Except.pure, Except.ok.injEq] at hc hc'
        subst hc hc'
        unfold tissLoop at hl hl'
        simp only [Bool.false_eq_true, if_false] at hl hl'
        have hinv : I st.ms := by
          clear hl' h h' hdmc
          revert st
          generalize p.nIter = n
          induction n with
          | zero => intro st hl; cases hl; rw [hms0]; exact h0
          | succ n ih =>
            intro st hl
            rw [iterM_snoc] at hl
            cases hn : iterM (tissOneIter hs X (delayedTaps X p.nTaps p.nDelay) (covXX X)
              (covXbarX X (delayedTaps X p.nTaps p.nDelay)) model p.eps) n st0 with
            | error e => rw [hn] at hl; cases hl
            | ok st1 =>
              rw [hn] at hl
              rw [hone _ _ _ _ _ _ _ hl]
              exact hI _ _ (ih st1 hn)
        rw [iterM_snoc, hl] at hl'
        exact ⟨hs, st, st', hl', rfl, rfl, rfl, rfl, rfl, rfl, rfl, hinv, hone _ _ _ _ _ _ _ hl'⟩

private lemma zero_ms {σ : Type} (p : TissParams) (hp : p.projBackMic = none) (hn : p.nIter = 0) (nSrc : Option ℕ)
    (X : Sig C F N) (model : SourceModel σ F N) (reset : σ → σ) (ms : σ) (o : TissOut σ s C F N)
    (h : tissForward p nSrc X model reset ms = .ok ⟨s, o⟩) : o.ms = reset ms ∧ (o.J.isSome ↔ s < C) := by
  obtain ⟨hs, hc, -⟩ := tiss_forward_ok _ nSrc X model reset ms s o h
  unfold tissCore at hc
  simp only [hp, hn] at hc
  cases hi : tissInit hs X p.nTaps p.nDelay p.eps (reset ms) with
  | error e => rw [hi] at hc; cases hc
  | ok st0 =>
    rw [hi] at hc
    simp only [bind, Except.bind, tissLoop, iterM, pure, Except.pure, Except.ok.injEq] at hc
    have h0 := (tissInit_ok hs X p.nDelay p.eps (reset ms) st0 hi).2.2.2
    rw [← hc]
    exact ⟨h0.2, h0.1⟩

/-! ## C146 -/

lemma nmfModel_eq [NeZero F] [NeZero N] {e : ℝ} (he : 0 < e) (m : NmfItem s F N K) (Y : Sig s F N)
    (h : NmfGood e (m.factors e)) :
    nmfModel e s m Y = ((nmfHalfV e (fun c f n => magSq (Y c f n)) (nmfHalfT e (fun c f n => magSq (Y c f n)) (m.factors e))).iR,
      { m with st := some (nmfHalfV e (fun c f n => magSq (Y c f n)) (nmfHalfT e (fun c f n => magSq (Y c f n)) (m.factors e))) }) := by
  simp only [nmfModel, dite_true, Fin.cast_eq_self]
  rw [nmfForward_eq he _ _ _ _ h]
  rfl

lemma reset_good {e : ℝ} (m : NmfItem s F N K) (hT : ∀ c f k, 0 ≤ m.uT c f k) (hV : ∀ c n k, 0 ≤ m.uV c n k) :
    NmfGood e ((nmfItemReset m).factors e) := nmfInit_inv e m.uT m.uV hT hV

lemma step_good [NeZero F] [NeZero N] {e : ℝ} (he : 0 < e) (m : NmfItem s F N K) (Y : Sig s F N)
    (h : NmfGood e (m.factors e)) : NmfGood e ((nmfModel e s m Y).2.factors e) := by
  rw [nmfModel_eq he m Y h]
  exact nmfHalfV_good he _ (nmfHalfT_good he _ h)

private lemma model_nonneg [NeZero F] [NeZero N] {e : ℝ} (he : 0 < e) (m : NmfItem s F N K) (Y : Sig s F N)
    (h : NmfGood e (m.factors e)) (k f n) : 0 ≤ (nmfModel e s m Y).1 k f n := by
  rw [nmfModel_eq he m Y h]
  have hg := nmfHalfV_good he (fun c f n => magSq (Y c f n)) (nmfHalfT_good he (fun c f n => magSq (Y c f n)) h)
  exact (nmfGood_iR he hg k f n).le

lemma whitePower_pos (hN : 0 < N) (y : Fin F → Fin N → ℂ) (r : Fin F → Fin N → ℝ) (hr : ∀ f n, 0 < r f n) (f : Fin F)
    (n : Fin N) (h : y f n ≠ 0) : 0 < whitePower y r := by
  have h0 : ∀ f n, 0 ≤ ‖y f n‖ ^ 2 / r f n := fun f n => div_nonneg (by positivity) (hr f n).le
  have hN' : (0 : ℝ) < N := by exact_mod_cast hN
  refine div_pos (Finset.sum_pos' (fun f _ => Finset.sum_nonneg fun n _ => h0 f n) ⟨f, Finset.mem_univ _, ?_⟩) hN'
  refine Finset.sum_pos' (fun n _ => h0 f n) ⟨n, Finset.mem_univ _, div_pos ?_ (hr f n)⟩
  have := norm_pos_iff.2 h
  positivity

lemma srcEnergy_white (w : Weights s F N) (R : Fin s → Fin F → Fin N → ℝ) (hw : ∀ k f n, w k f n = (R k f n)⁻¹) (Y : Sig s F N)
    (k : Fin s) : srcEnergy w Y k = whitePower (Y k) (R k) := by
  unfold srcEnergy whitePower
  rw [← Finset.sum_div]
  congr 1
  refine Finset.sum_congr rfl fun f _ => Finset.sum_congr rfl fun n _ => ?_
  rw [hw, inv_mul_eq_div]

/-- **C146** for any number of sources.  `J` is the background filter of the last iteration (there is none when
`n_src = n_chan`, and then any `J` may be given: `fullDemix` is the demixing matrix). -/
theorem tiss_nmf_descent_overdetermined (p : TissParams) (he : 0 < p.eps) (hN : 0 < N) (hp : p.projBackMic = none)
    (nSrc : Option ℕ) (X : Sig C F N) {e : ℝ} (hee : 0 < e) (m : NmfItem s F N K) (hT : ∀ c f k, 0 ≤ m.uT c f k)
    (hV : ∀ c n k, 0 ≤ m.uV c n k) (o o' : TissOut (NmfItem s F N K) s C F N)
    (h : tissForward p nSrc X (nmfModel e) nmfItemReset m = .ok ⟨s, o⟩)
    (h' : tissForward { p with nIter := p.nIter + 1 } nSrc X (nmfModel e) nmfItemReset m = .ok ⟨s, o'⟩)
    (J : BackJ (C - s) F s) (hJ : ∀ J', o'.J = some J' → J' = J) (hdet : ∀ f, (fullDemix o.W J f).det ≠ 0)
    (hfl : FloorsInactive e (o.ms.factors e) (o'.ms.factors e)) (hpos : ∀ k, ∃ f n, o'.Y k f n ≠ 0) :
    ilrmaLoss o'.Y (lowRank (o'.ms.factors e).T (o'.ms.factors e).V) + logdetTerm (fullDemix o'.W J)
      ≤ ilrmaLoss o.Y (lowRank (o.ms.factors e).T (o.ms.factors e).V) + logdetTerm (fullDemix o.W J) := by
  rcases Nat.eq_zero_or_pos F with rfl | hF
  · simp [ilrmaLoss, logdetTerm]
  haveI : NeZero F := ⟨by omega⟩
  haveI : NeZero N := ⟨by omega⟩
  obtain ⟨hs, st, st', hst, hY, hW, hm, hY', hW', hJ', hm', hg, hms⟩ := runs p hp nSrc X (nmfModel e) nmfItemReset m o o' h h'
    (fun m => NmfGood e (m.factors e)) (reset_good m hT hV) (fun m Y hm => step_good hee m Y hm)
  rw [hms] at hm'
  rw [← hm, ← hY] at hm'
  rw [← hm] at hg
  have heq := nmfModel_eq hee o.ms o.Y hg
  set b := nmfHalfV e (fun c f n => magSq (o.Y c f n)) (nmfHalfT e (fun c f n => magSq (o.Y c f n)) (o.ms.factors e)) with hb
  have hb' : o'.ms.factors e = b := by rw [hm', heq]; rfl
  rw [hb'] at hfl ⊢
  have hbg : NmfGood e b := nmfHalfV_good hee _ (nmfHalfT_good hee _ hg)
  have rb : ∀ k f n, 0 < lowRank b.T b.V k f n := fun k f n => lt_of_lt_of_le hee (hfl.after k f n)
  have ra : ∀ k f n, 0 < lowRank (o.ms.factors e).T (o.ms.factors e).V k f n := fun k f n => lt_of_lt_of_le hee (hfl.before k f n)
  have hw : ∀ k f n, b.iR k f n = (lowRank b.T b.V k f n)⁻¹ := fun k f n => by
    rw [hbg.2.2]; exact congrArg _ (max_eq_left (hfl.after k f n))
  have hmod : (nmfModel e s st.ms st.Y).1 = b.iR := by rw [← hm, ← hY, heq]
  have hfree := free_oneIter hs X _ _ _ (nmfModel e) he hN st st' hst
    (by rw [hmod]; intro k f n; rw [hw]; exact (inv_pos.2 (rb k f n)).le) J (by rw [← hJ']; exact hJ) (by rw [← hW]; exact hdet)
  rw [hmod, ← hY, ← hW, ← hY', ← hW'] at hfree
  obtain ⟨hd', hr⟩ := hfree
  simp only [srcEnergy_white _ _ hw] at hr
  obtain ⟨hE, hl⟩ := log_of_prod (fun k => whitePower (o.Y k) (lowRank b.T b.V k)) _ (fun f => ‖(fullDemix o.W J f).det‖) (fun f => ‖(fullDemix o'.W J f).det‖)
    (fun f => norm_pos_iff.2 (hdet f)) (fun f => norm_pos_iff.2 (hd' f))
    (fun k => div_nonneg (Finset.sum_nonneg fun f _ => Finset.sum_nonneg fun n _ => div_nonneg (by positivity) (rb k f n).le)
      (Nat.cast_nonneg N))
    (fun k => by
      obtain ⟨f, n, hn⟩ := hpos k
      exact whitePower_pos hN _ _ (rb k) f n hn) hF hr
  have hYnz : ∀ k, ∃ f n, o.Y k f n ≠ 0 := by
    intro k
    by_contra hc
    push Not at hc
    have := hE k
    simp [whitePower, hc] at this
  have hstep := nmf_step_free hee o.Y hg hfl hYnz
  rw [← hb] at hstep
  have e1 : ∀ (Y : Sig s F N) (R : Fin s → Fin F → Fin N → ℝ), ilrmaLoss Y R =
      (∑ k, F * Real.log (whitePower (Y k) (R k))) + ∑ k, (∑ f, ∑ n, Real.log (R k f n)) / N := fun Y R => by
    simp only [ilrmaLoss, Finset.sum_add_distrib]
  rw [e1 o.Y (lowRank b.T b.V)] at hstep
  rw [e1 o'.Y]
  simp only [logdetTerm]
  linarith

private lemma fullDemix_det (W : DemixW C F C) (J : BackJ (C - C) F C) :
    fullDemix W J = fun f => Matrix.of fun k c => W k f c := by
  funext f
  ext i d
  simp [fullDemix]

/-- **C146.**  Determined T-ISS with `NMFModel` (ILRMA), no projection back, any input, number of taps, delay and number
of iterations: if no floor of the source model was active in the call of the additional iteration and the outputs are not
silent, the additional iteration does not increase the negative log-likelihood, minimised over the scale of the sources,
of the separated signals and the low-rank variances the source model keeps. -/
theorem tiss_nmf_descent (p : TissParams) (he : 0 < p.eps) (hN : 0 < N) (hp : p.projBackMic = none)
    (X : Sig C F N) {e : ℝ} (hee : 0 < e) (m : NmfItem C F N K) (hT : ∀ c f k, 0 ≤ m.uT c f k)
    (hV : ∀ c n k, 0 ≤ m.uV c n k) (o o' : TissOut (NmfItem C F N K) C C F N)
    (h : tissForward p none X (nmfModel e) nmfItemReset m = .ok ⟨C, o⟩)
    (h' : tissForward { p with nIter := p.nIter + 1 } none X (nmfModel e) nmfItemReset m = .ok ⟨C, o'⟩)
    (hfl : FloorsInactive e (o.ms.factors e) (o'.ms.factors e)) (hpos : ∀ k, ∃ f n, o'.Y k f n ≠ 0) :
    ilrmaLoss o'.Y (lowRank (o'.ms.factors e).T (o'.ms.factors e).V) + logdetTerm (fun f => Matrix.of fun k c => o'.W k f c)
      ≤ ilrmaLoss o.Y (lowRank (o.ms.factors e).T (o.ms.factors e).V) + logdetTerm (fun f => Matrix.of fun k c => o.W k f c) := by
  have hd := fun f => (tiss_demixing_invertible p he X (nmfModel e) nmfItemReset m o h f).ne_zero
  have := tiss_nmf_descent_overdetermined p he hN hp none X hee m hT hV o o' h h' (fun c _ _ => absurd c.2 (by omega))
    (fun J' _ => by funext c; exact absurd c.2 (by omega)) (by rw [fullDemix_det]; exact hd) hfl hpos
  rwa [fullDemix_det, fullDemix_det] at this

/-! Concrete cases: the factors are drawn as ones, and the powers of the signals are between 1 and 4. -/

lemma demo_floors [NeZero F] [NeZero N] {a : NmfState s F N 1} (ha : NmfGood 1e-5 a) (hT : ∀ k f j, a.T k f j = 1)
    (hV : ∀ k n j, a.V k n j = 1) (P : Fin s → Fin F → Fin N → ℝ) (h1 : ∀ k f n, 1 ≤ P k f n) (h4 : ∀ k f n, P k f n ≤ 4) :
    FloorsInactive 1e-5 a (nmfHalfV 1e-5 P (nmfHalfT 1e-5 P a)) := by
  set m := nmfHalfT 1e-5 P a with hm
  set b := nmfHalfV 1e-5 P m with hb
  have hN : (0 : ℝ) < N := by exact_mod_cast Nat.pos_of_ne_zero (NeZero.ne N)
  have hF : (0 : ℝ) < F := by exact_mod_cast Nat.pos_of_ne_zero (NeZero.ne F)
  have iRa : ∀ k f n, a.iR k f n = 1 := fun k f n => by
    rw [ha.2.2]; norm_num [hT, hV]
  have hbT : b.T = m.T := rfl
  have hmV : m.V = a.V := rfl
  have mT : ∀ k f j, m.T k f j = max (√((∑ n, P k f n) / N)) 1e-5 := fun k f j => by
    show clampMin (a.T k f j * √((∑ n, P k f n * a.iR k f n ^ 2 * a.V k n j) / ∑ n, a.iR k f n * a.V k n j)) 1e-5 = _
    simp [clampMin, iRa, hT, hV]
  have hmean1 : ∀ k f, 1 ≤ (∑ n, P k f n) / N := fun k f => by
    rw [le_div_iff₀ hN]
    have := Finset.sum_le_sum fun n (_ : n ∈ Finset.univ) => h1 k f n
    simpa using this
  have hmean4 : ∀ k f, (∑ n, P k f n) / N ≤ 4 := fun k f => by
    rw [div_le_iff₀ hN]
    have := Finset.sum_le_sum fun n (_ : n ∈ Finset.univ) => h4 k f n
    simp only [Finset.sum_const, Finset.card_univ, Fintype.card_fin, nsmul_eq_mul] at this
    linarith
  have t1 : ∀ k f j, 1 ≤ m.T k f j := fun k f j => by
    rw [mT]; exact le_max_of_le_left (Real.one_le_sqrt.2 (hmean1 k f))
  have t2 : ∀ k f j, m.T k f j ≤ 2 := fun k f j => by
    rw [mT]
    refine max_le ((Real.sqrt_le_left (by norm_num)).2 (by linarith [hmean4 k f])) (by norm_num)
  have iRm : ∀ k f n, m.iR k f n = (m.T k f 0)⁻¹ := fun k f n => by
    have := (nmfHalfT_good (by norm_num) P ha).2.2 k f n
    rw [this]
    congr 1
    rw [Fin.sum_univ_one]
    show max (m.T k f 0 * a.V k n 0) 1e-5 = _
    rw [hV, mul_one]
    exact max_eq_left (le_trans (by norm_num) (t1 k f 0))
  have bV : ∀ k n j, 1 / 2 ≤ b.V k n j := fun k n j => by
    obtain rfl : j = 0 := Subsingleton.elim _ _
    show 1 / 2 ≤ clampMin (m.V k n 0 * √((∑ f, P k f n * m.iR k f n ^ 2 * m.T k f 0) / ∑ f, m.iR k f n * m.T k f 0)) 1e-5
    refine le_max_of_le_left ?_
    have e1 : ∀ f, m.iR k f n * m.T k f 0 = 1 := fun f => by
      rw [iRm, inv_mul_cancel₀ (by linarith [t1 k f 0])]
    have e2 : ∀ f, 1 / 2 ≤ P k f n * m.iR k f n ^ 2 * m.T k f 0 := fun f => by
      have := t1 k f 0
      rw [sq, ← mul_assoc, mul_assoc (P k f n * m.iR k f n), e1, mul_one, iRm, ← div_eq_mul_inv, div_le_div_iff₀ (by norm_num) (by linarith)]
      nlinarith [h1 k f n, t2 k f 0]
    simp only [e1]
    rw [hmV, hV, one_mul]
    refine Real.le_sqrt_of_sq_le ?_
    simp only [Finset.sum_const, Finset.card_univ, Fintype.card_fin, nsmul_eq_mul, mul_one]
    rw [le_div_iff₀ hF]
    have := Finset.sum_le_sum fun f (_ : f ∈ Finset.univ) => e2 f
    simp only [Finset.sum_const, Finset.card_univ, Fintype.card_fin, nsmul_eq_mul] at this
    linarith
  refine ⟨fun k f n => ?_, fun k f n => ?_, fun k f n => ?_, fun k f j => ?_, fun k n j => ?_⟩
  · norm_num [lowRank, hT, hV]
  · simp only [lowRank, Fin.sum_univ_one, hV, mul_one, hbT]
    exact le_trans (by norm_num) (t1 k f 0)
  · simp only [lowRank, Fin.sum_univ_one, hbT]
    have := t1 k f 0
    have := bV k n 0
    nlinarith
  · rw [hbT]; exact lt_of_lt_of_le (by norm_num) (t1 k f j)
  · exact lt_of_lt_of_le (by norm_num) (bV k n j)

/-- Non-vacuity of `tiss_nmf_descent`: two channels `(2, 1)` and `(1, 2)` over two frames, one frequency, from no
iteration to one iteration, default floor of the source model. -/
example : ∃ (p : TissParams) (X : Sig 2 1 2) (m : NmfItem 2 1 2 1) (o o' : TissOut (NmfItem 2 1 2 1) 2 2 1 2), 0 < p.eps ∧
    p.projBackMic = none ∧ (∀ c f k, 0 ≤ m.uT c f k) ∧ (∀ c n k, 0 ≤ m.uV c n k) ∧
    tissForward p none X (nmfModel 1e-5) nmfItemReset m = .ok ⟨2, o⟩ ∧
    tissForward { p with nIter := p.nIter + 1 } none X (nmfModel 1e-5) nmfItemReset m = .ok ⟨2, o'⟩ ∧
    FloorsInactive 1e-5 (o.ms.factors 1e-5) (o'.ms.factors 1e-5) ∧ ∀ k, ∃ f n, o'.Y k f n ≠ 0 := by
  set p : TissParams := ⟨0, 0, 0, none, false, 1e-5⟩ with hp
  set X : Sig 2 1 2 := fun c _ n => if c = n then 2 else 1 with hX
  set m : NmfItem 2 1 2 1 := ⟨fun _ _ _ => 1, fun _ _ _ => 1, none⟩ with hm
  have he : 0 < p.eps := by norm_num [hp]
  obtain ⟨o, ho, hY⟩ := tiss_zero_iterations p rfl he none le_rfl X (nmfModel 1e-5) nmfItemReset m
  obtain ⟨o', ho'⟩ := tiss_succeeds { p with nIter := p.nIter + 1 } he none X (fun k h => by cases h)
    (fun m h => by cases h) (nmfModel 1e-5) nmfItemReset m
  obtain ⟨hs, st, st', -, hY0, -, hm0, -, -, -, hm1, hI, hms⟩ := runs (s := 2) p rfl none X (nmfModel 1e-5) nmfItemReset m o o' ho ho'
    (fun m => NmfGood 1e-5 (m.factors 1e-5)) (reset_good m (fun _ _ _ => zero_le_one) fun _ _ _ => zero_le_one)
    (fun m Y hm => step_good (by norm_num) m Y hm)
  have hms0 : o.ms = m := (zero_ms p rfl rfl none X _ _ m o ho).1
  have hfac : o.ms.factors 1e-5 = nmfInit 1e-5 m.uT m.uV := by rw [hms0]; rfl
  have hg : NmfGood 1e-5 (o.ms.factors 1e-5) := by rw [hm0]; exact hI
  refine ⟨p, X, m, o, o', he, rfl, fun _ _ _ => zero_le_one, fun _ _ _ => zero_le_one, ho, ho', ?_, fun k => ?_⟩
  · rw [hm1, hms, ← hm0, ← hY0, nmfModel_eq (by norm_num) _ _ hg]
    refine demo_floors hg (fun k f j => by rw [hfac]; norm_num [nmfInit, nmfRecompute, hm])
      (fun k f j => by rw [hfac]; norm_num [nmfInit, nmfRecompute, hm]) _ (fun k f n => ?_) fun k f n => ?_
    all_goals
      have hk : o.Y k f n = X k f n := hY k f n
      simp only [magSq_eq, hk, hX]
      split_ifs <;> norm_num
  · obtain ⟨n, hn⟩ := tiss_outputs_not_silent { p with nIter := p.nIter + 1 } he rfl rfl X (nmfModel 1e-5)
      nmfItemReset m o' ho' 0 (by
        rw [Fintype.linearIndependent_iff]
        intro g hg
        have h0 := congrFun hg 0
        have h1 := congrFun hg 1
        simp [hX, Fin.sum_univ_two] at h0 h1
        intro i
        have hb : g 1 = 0 := by linear_combination (2 / 3 : ℂ) * h1 - (1 / 3 : ℂ) * h0
        have ha : g 0 = 0 := by linear_combination (2 / 3 : ℂ) * h0 - (1 / 3 : ℂ) * h1
        fin_cases i
        · exact ha
        · exact hb) k
    exact ⟨0, n, hn⟩

/-- Non-vacuity of `tiss_nmf_descent_overdetermined`: one source from the two channels `(2, 1)` and `(1, 2)`, from no
iteration to one iteration. -/
example : ∃ (p : TissParams) (X : Sig 2 1 2) (m : NmfItem 1 1 2 1) (o o' : TissOut (NmfItem 1 1 2 1) 1 2 1 2) (J : BackJ (2 - 1) 1 1),
    0 < p.eps ∧ p.projBackMic = none ∧ (∀ c f k, 0 ≤ m.uT c f k) ∧ (∀ c n k, 0 ≤ m.uV c n k) ∧
    tissForward p (some 1) X (nmfModel 1e-5) nmfItemReset m = .ok ⟨1, o⟩ ∧
    tissForward { p with nIter := p.nIter + 1 } (some 1) X (nmfModel 1e-5) nmfItemReset m = .ok ⟨1, o'⟩ ∧
    o'.J = some J ∧ (∀ f, (fullDemix o.W J f).det ≠ 0) ∧
    FloorsInactive 1e-5 (o.ms.factors 1e-5) (o'.ms.factors 1e-5) ∧ ∀ k, ∃ f n, o'.Y k f n ≠ 0 := by
  set p : TissParams := ⟨0, 0, 0, none, false, 1e-5⟩ with hp
  set X : Sig 2 1 2 := fun c _ n => if c = n then 2 else 1 with hX
  set m : NmfItem 1 1 2 1 := ⟨fun _ _ _ => 1, fun _ _ _ => 1, none⟩ with hm
  have he : 0 < p.eps := by norm_num [hp]
  have hli : ∀ a b : ℂ, a * X 0 0 0 + b * X 1 0 0 = 0 → a * X 0 0 1 + b * X 1 0 1 = 0 → a = 0 ∧ b = 0 := by
    intro a b h0 h1
    simp [hX] at h0 h1
    exact ⟨by linear_combination (2 / 3 : ℂ) * h0 - (1 / 3 : ℂ) * h1,
      by linear_combination (2 / 3 : ℂ) * h1 - (1 / 3 : ℂ) * h0⟩
  obtain ⟨o, ho, hY⟩ : ∃ o : TissOut (NmfItem 1 1 2 1) 1 2 1 2, tissForward p (some 1) X (nmfModel 1e-5) nmfItemReset m = .ok ⟨1, o⟩ ∧
      ∀ k f n, o.Y k f n = X (Fin.castLE (by norm_num) k) f n :=
    tiss_zero_iterations p rfl he (some 1) (by norm_num) X (nmfModel 1e-5) nmfItemReset m
  obtain ⟨o', ho'⟩ : ∃ o' : TissOut (NmfItem 1 1 2 1) 1 2 1 2,
      tissForward { p with nIter := p.nIter + 1 } (some 1) X (nmfModel 1e-5) nmfItemReset m = .ok ⟨1, o'⟩ :=
    tiss_succeeds { p with nIter := p.nIter + 1 } he (some 1) X (fun k h => by cases h; norm_num)
      (fun m h => by cases h) (nmfModel 1e-5) nmfItemReset m
  have hfil : ∀ (n : ℕ) (q : TissOut (NmfItem 1 1 2 1) 1 2 1 2),
      tissForward { p with nIter := n } (some 1) X (nmfModel 1e-5) nmfItemReset m = .ok ⟨1, q⟩ →
      ∀ m, q.Y 0 0 m = q.W 0 0 0 * X 0 0 m + q.W 0 0 1 * X 1 0 m := by
    intro n q hq m
    obtain ⟨a, G, ha, hG, hq2⟩ := tiss_output_filters_input { p with nIter := n } (some 1) X _ _ _ 1 q hq
    have h2 : ∑ c, ∑ d ∈ Finset.range (p.nDelay + p.nTaps + 1), G 0 0 c d * past (X c 0) m d = 0 :=
      Finset.sum_eq_zero fun c _ => Finset.sum_eq_zero fun d hd => by
        rw [hG 0 0 c d (Or.inl (by simpa [hp] using hd)), zero_mul]
    rw [hq2, ha (Or.inl rfl), h2, Fin.sum_univ_two, one_mul, sub_zero]
  have hW := hfil 0 o ho
  have hw0 : o.W 0 0 0 = 1 ∧ o.W 0 0 1 = 0 := by
    have h0 := hW 0
    have h1 := hW 1
    rw [hY] at h0 h1
    have e : (Fin.castLE (by norm_num) (0 : Fin 1) : Fin 2) = 0 := rfl
    rw [e] at h0 h1
    obtain ⟨ha, hb⟩ := hli (o.W 0 0 0 - 1) (o.W 0 0 1) (by linear_combination -h0) (by linear_combination -h1)
    exact ⟨by linear_combination ha, hb⟩
  obtain ⟨hs, st, st', hst, hY0, hWs, hm0, hY', hW', hJ', hm1, hI, hms⟩ := runs (s := 1) p rfl (some 1) X (nmfModel 1e-5) nmfItemReset m
    o o' ho ho' (fun m => NmfGood 1e-5 (m.factors 1e-5))
    (reset_good m (fun _ _ _ => zero_le_one) fun _ _ _ => zero_le_one) (fun m Y hm => step_good (by norm_num) m Y hm)
  have hz := zero_ms p rfl rfl (some 1) X _ _ m o ho
  have hms0 : o.ms = m := hz.1
  have hfac : o.ms.factors 1e-5 = nmfInit 1e-5 m.uT m.uV := by rw [hms0]; rfl
  have hg : NmfGood 1e-5 (o.ms.factors 1e-5) := by rw [hm0]; exact hI
  have hmod := nmfModel_eq (by norm_num) o.ms o.Y hg
  obtain ⟨J, hJ⟩ : ∃ J, o'.J = some J := by
    obtain ⟨_, hc, -⟩ := tiss_forward_ok _ (some 1) X _ _ _ 1 o' ho'
    obtain ⟨st0, st1, -, h0, h1, -, -, hJ1, -⟩ := tiss_core_ok hs _ X _ _ o' hc
    have h1' : tissOneIter hs X (delayedTaps X p.nTaps p.nDelay) (covXX X)
        (covXbarX X (delayedTaps X p.nTaps p.nDelay)) (nmfModel 1e-5) p.eps st0 = .ok st1 := by
      simp only [tissLoop, hp, iterM, Bool.false_eq_true, if_false, bind, Except.bind] at h1
      split at h1
      · cases h1
      · rename_i v hv
        cases h1
        exact hv
    obtain ⟨st2, h2, hJ2⟩ := tissOneIter_total hs X _ (covXX X) (covXbarX X _) (nmfModel 1e-5) p.eps st0
    rw [h1'] at h2
    cases h2
    refine Option.isSome_iff_exists.1 ?_
    rw [hJ1, hJ2]
    exact (tissInit_ok hs X p.nDelay p.eps _ st0 h0).2.2.2.1.2 (by norm_num)
  have hdet : ∀ f, (fullDemix o.W J f).det ≠ 0 := fun f => by
    obtain rfl : f = 0 := Subsingleton.elim _ _
    rw [Matrix.det_fin_two]
    have h0 : fullDemix o.W J 0 0 0 = 1 := by simpa [fullDemix] using hw0.1
    have h1 : fullDemix o.W J 0 0 1 = 0 := by simpa [fullDemix] using hw0.2
    have h2 : fullDemix o.W J 0 1 1 = -1 := by simp [fullDemix]
    rw [h0, h1, h2]
    norm_num
  have hdet' := (free_oneIter hs X _ _ _ (nmfModel 1e-5) he (by norm_num) st st' hst
    (model_nonneg (by norm_num) _ _ hI)
    J (fun J1 h1 => by rw [← hJ', hJ] at h1; cases h1; rfl) (by rw [← hWs]; exact hdet)).1 0
  refine ⟨p, X, m, o, o', J, he, rfl, fun _ _ _ => zero_le_one, fun _ _ _ => zero_le_one, ho, ho', hJ, hdet, ?_, fun k => ?_⟩
  · rw [hm1, hms, ← hm0, ← hY0, hmod]
    refine demo_floors hg (fun k f j => by rw [hfac]; norm_num [nmfInit, nmfRecompute, hm])
      (fun k f j => by rw [hfac]; norm_num [nmfInit, nmfRecompute, hm]) _ (fun k f n => ?_) fun k f n => ?_
    all_goals
      have hk := hY k f n
      simp only [magSq_eq, hk, hX]
      split_ifs <;> norm_num
  · obtain rfl : k = 0 := Subsingleton.elim _ _
    have hF := hfil 1 o' ho'
    have hn : ∃ n, o'.Y 0 0 n ≠ 0 := by
      by_contra hc
      simp only [not_exists, not_not] at hc
      obtain ⟨ha, hb⟩ := hli _ _ ((hF 0).symm.trans (hc 0)) ((hF 1).symm.trans (hc 1))
      refine hdet' (Matrix.det_eq_zero_of_row_eq_zero 0 fun c => ?_)
      rw [← hW']
      have : fullDemix o'.W J 0 0 c = o'.W 0 0 c := by simp [fullDemix]
      rw [this]
      fin_cases c
      · exact ha
      · exact hb
    obtain ⟨n, hn⟩ := hn
    exact ⟨0, n, hn⟩

/-! ## C147: the factors are not rescaled with the sources -/

private lemma single_step {σ : Type} (p : TissParams) (he : 0 < p.eps) (he1 : p.eps ≤ 1) (hT : p.nTaps = 0)
    (hp : p.projBackMic = none) (X : Sig 1 1 1) (model : SourceModel σ 1 1) (reset : σ → σ) (ms : σ) (o o' : TissOut σ 1 1 1 1)
    (h : tissForward p none X model reset ms = .ok ⟨1, o⟩)
    (h' : tissForward { p with nIter := p.nIter + 1 } none X model reset ms = .ok ⟨1, o'⟩) :
    o'.ms = (model 1 o.ms o.Y).2 ∧
    o'.Y 0 0 0 = o.Y 0 0 0 / ((√(max (‖o.Y 0 0 0‖ ^ 2) p.eps
        * max ((model 1 o.ms o.Y).1 0 0 0 * ‖o.Y 0 0 0‖ ^ 2) p.eps) : ℝ) : ℂ) := by
  obtain ⟨hs, st, st', hst, hY, -, hm, hY', -, -, hm', -, hms⟩ := runs p hp none X model reset ms o o' h h' (fun _ => True) trivial
    fun _ _ _ => trivial
  refine ⟨by rw [hm', hms, hm, hY], ?_⟩
  obtain ⟨ZJ, a, -, ha, e⟩ := oneIter_updates hs X _ _ _ model st st' hst
  rw [hY', e, hY, hm]
  simp only [Fin.sum_univ_one, Nat.cast_one, mul_one, div_one] at ha ⊢
  set g : ℝ := max (‖st.Y 0 0 0‖ ^ 2) p.eps with hg
  have hge : p.eps ≤ g := le_max_right _ _
  have hg0 : 0 < g := lt_of_lt_of_le he hge
  have hsq : max (√g) p.eps = √g := by
    refine max_eq_left ?_
    rw [← Real.sqrt_sq he.le]
    exact Real.sqrt_le_sqrt (by nlinarith)
  obtain ⟨nIter, nTaps, nDelay, pb, dmc, eps⟩ := p
  simp only at hT hp he he1 hg hge hsq ha ⊢
  subst hT
  have hup : (issUpdates (C := 1) (s := 1) (delayedTaps X 0 nDelay) (fun k f n => (model 1 st.ms st.Y).1 k f n
        * max (‖st.Y k 0 0‖ ^ 2) eps) eps ZJ a).Y 0 0 0
      = (issSrcStep (fun k f n => (model 1 st.ms st.Y).1 k f n
        * max (‖st.Y k 0 0‖ ^ 2) eps) eps a 0).Y 0 0 0 := by
    rcases ZJ with _ | ⟨Z, J⟩ <;> rfl
  rw [hup]
  simp only [issSrcStep, issType1, if_true, clampMin, magSq_eq]
  have hnorm : ‖a.Y 0 0 0‖ ^ 2 = ‖st.Y 0 0 0‖ ^ 2 / g := by
    rw [ha, ← hg, hsq, norm_div, Complex.norm_of_nonneg (Real.sqrt_nonneg _), div_pow, Real.sq_sqrt hg0.le]
  simp only [Fin.sum_univ_one, hnorm, ← hg, Nat.cast_one, mul_one, div_one]
  have e2 : (model 1 st.ms st.Y).1 0 0 0 * g * (‖st.Y 0 0 0‖ ^ 2 / g) = (model 1 st.ms st.Y).1 0 0 0 * ‖st.Y 0 0 0‖ ^ 2 := by
    field_simp
  rw [e2, ha, ← hg, hsq, Real.sqrt_mul hg0.le]
  push_cast
  have h1 : ((√g : ℝ) : ℂ) ≠ 0 := by exact_mod_cast (Real.sqrt_pos.2 hg0).ne'
  have h2 : ((√(max ((model 1 st.ms st.Y).1 0 0 0 * ‖st.Y 0 0 0‖ ^ 2) eps) : ℝ) : ℂ) ≠ 0 := by
    exact_mod_cast (Real.sqrt_pos.2 (lt_of_lt_of_le he (le_max_right _ _))).ne'
  push_cast at h2
  field_simp
  ring

private lemma single_W {σ : Type} (p : TissParams) (hT : p.nTaps = 0) (hp : p.projBackMic = none) (model : SourceModel σ 1 1)
    (reset : σ → σ) (ms : σ) (o : TissOut σ 1 1 1 1) (h : tissForward p none (fun _ _ _ => 1) model reset ms = .ok ⟨1, o⟩) :
    o.W 0 0 0 = o.Y 0 0 0 := by
  obtain ⟨a, G, ha, hG, hq2⟩ := tiss_output_filters_input p none _ model reset ms 1 o h
  have h2 : ∑ c, ∑ d ∈ Finset.range (p.nDelay + p.nTaps + 1), G 0 0 c d * past ((fun _ _ _ => 1 : Sig 1 1 1) c 0) 0 d = 0 :=
    Finset.sum_eq_zero fun c _ => Finset.sum_eq_zero fun d hd => by
      rw [hG 0 0 c d (by omega), zero_mul]
  rw [hq2, ha (Or.inl hp), h2, Fin.sum_univ_one, one_mul, sub_zero, mul_one]

private lemma single_model (m : NmfItem 1 1 1 1) (T V P : ℝ) (y : Sig 1 1 1) (hy : ‖y 0 0 0‖ ^ 2 = P)
    (hm : m.factors 1e-5 = ⟨fun _ _ _ => T, fun _ _ _ => V, fun _ _ _ => (T * V)⁻¹⟩) (T' V' R' : ℝ) (hT : 0 < T) (hV : 0 < V) (hP : 0 < P)
    (hT' : T * √(P / (T * V)) = T') (hV' : V * √(P / √(P * (T * V))) = V') (hR' : √(P * √(P * (T * V))) = R')
    (h1 : 1e-5 ≤ T') (h2 : 1e-5 ≤ √(P * (T * V))) (h3 : 1e-5 ≤ V') (h4 : 1e-5 ≤ R') :
    nmfModel 1e-5 1 m y = (fun _ _ _ => R'⁻¹, { m with st := some ⟨fun _ _ _ => T', fun _ _ _ => V', fun _ _ _ => R'⁻¹⟩ }) := by
  have hf : nmfForward 1e-5 m.uT m.uV m.st y = nmfForward 1e-5 m.uT m.uV (some (m.factors 1e-5)) y := rfl
  have hy' : magSq (y 0 0 0) = P := by rw [magSq_eq, hy]
  have h := nmf_one (eps := 1e-5) (T := T) (V := V) (P := P) hT hV hP (by rw [hT']; exact h1) h2 (by rw [hV']; exact h3) (by rw [hR']; exact h4)
    m.uT m.uV y hy'
  simp only [nmfModel, dite_true, Fin.cast_eq_self]
  rw [hf, hm, h, hT', hV', hR']

/-- **C147 violated.**  An additional iteration of ILRMA can increase the negative log-likelihood of its own model, that is
of the separated signals and the variances the source model keeps: T-ISS divides every source by its root mean power
but leaves the factors of `NMFModel` as they are, so that signals and variances no longer have the same scale. -/
theorem tiss_nmf_likelihood_violated : ∃ (p : TissParams) (X : Sig 1 1 1) (m : NmfItem 1 1 1 1)
    (o o' : TissOut (NmfItem 1 1 1 1) 1 1 1 1), 0 < p.eps ∧ p.projBackMic = none ∧ (∀ c f k, 0 ≤ m.uT c f k) ∧
    (∀ c n k, 0 ≤ m.uV c n k) ∧ tissForward p none X (nmfModel 1e-5) nmfItemReset m = .ok ⟨1, o⟩ ∧
    tissForward { p with nIter := p.nIter + 1 } none X (nmfModel 1e-5) nmfItemReset m = .ok ⟨1, o'⟩ ∧
    FloorsInactive 1e-5 (o.ms.factors 1e-5) (o'.ms.factors 1e-5) ∧
    gaussianLoss o.Y (lowRank (o.ms.factors 1e-5).T (o.ms.factors 1e-5).V) + logdetTerm (fun f => Matrix.of fun k c => o.W k f c)
      < gaussianLoss o'.Y (lowRank (o'.ms.factors 1e-5).T (o'.ms.factors 1e-5).V)
        + logdetTerm (fun f => Matrix.of fun k c => o'.W k f c) := by
  set X : Sig 1 1 1 := fun _ _ _ => 1 with hX
  set m : NmfItem 1 1 1 1 := ⟨fun _ _ _ => 1 / 6, fun _ _ _ => 1 / 6, none⟩ with hm
  have ok : ∀ n, ∃ o : TissOut (NmfItem 1 1 1 1) 1 1 1 1,
      tissForward ⟨n, 0, 0, none, false, 1e-3⟩ none X (nmfModel 1e-5) nmfItemReset m = .ok ⟨1, o⟩ := fun n =>
    tiss_succeeds ⟨n, 0, 0, none, false, 1e-3⟩ (by norm_num) none X (fun k h => by cases h) (fun m h => by cases h) (nmfModel 1e-5)
      nmfItemReset m
  obtain ⟨o0, h0, hY0⟩ : ∃ o : TissOut (NmfItem 1 1 1 1) 1 1 1 1,
      tissForward ⟨0, 0, 0, none, false, 1e-3⟩ none X (nmfModel 1e-5) nmfItemReset m = .ok ⟨1, o⟩ ∧ ∀ k f n, o.Y k f n = X k f n :=
    tiss_zero_iterations ⟨0, 0, 0, none, false, 1e-3⟩ rfl (by norm_num) none le_rfl X (nmfModel 1e-5) nmfItemReset m
  obtain ⟨o1, h1⟩ := ok 1
  obtain ⟨o2, h2⟩ := ok 2
  have y0 : o0.Y 0 0 0 = 1 := hY0 0 0 0
  have m0 : o0.ms = m := (zero_ms (s := 1) ⟨0, 0, 0, none, false, 1e-3⟩ rfl rfl none X _ _ m o0 h0).1
  obtain ⟨s1, t1⟩ := single_step ⟨0, 0, 0, none, false, 1e-3⟩ (by norm_num) (by norm_num) rfl rfl X _ _ m o0 o1 h0 h1
  obtain ⟨s2, t2⟩ := single_step ⟨1, 0, 0, none, false, 1e-3⟩ (by norm_num) (by norm_num) rfl rfl X _ _ m o1 o2 h1 h2
  have q4 : √((1 / 4) : ℝ) = 1 / 2 := by rw [show (1 / 4 : ℝ) = (1 / 2) ^ 2 by norm_num]; exact Real.sqrt_sq (by norm_num)
  have q16 : √((1 / 16) : ℝ) = 1 / 4 := by rw [show (1 / 16 : ℝ) = (1 / 4) ^ 2 by norm_num]; exact Real.sqrt_sq (by norm_num)
  have q' : √((16 : ℝ)) = 4 := by rw [show (16 : ℝ) = 4 ^ 2 by norm_num]; exact Real.sqrt_sq (by norm_num)
  have q'' : √((4 : ℝ)) = 2 := by rw [show (4 : ℝ) = 2 ^ 2 by norm_num]; exact Real.sqrt_sq (by norm_num)
  have e1 : nmfModel 1e-5 1 o0.ms o0.Y = (fun _ _ _ => (1 / 2 : ℝ)⁻¹, { o0.ms with st := some ⟨fun _ _ _ => 1, fun _ _ _ => 1 / 2, fun _ _ _ => (1 / 2)⁻¹⟩ }) := by
    refine single_model o0.ms (1 / 4) (1 / 4) 1 o0.Y (by rw [y0]; norm_num) ?_ 1 (1 / 2) (1 / 2) ?_ ?_ ?_ ?_ ?_ ?_ ?_ ?_ ?_ ?_
    · rw [m0]
      norm_num [NmfItem.factors, nmfInit, nmfRecompute, hm, clampMin]
    all_goals norm_num [q4, q16, q', q'']
  have y1 : o1.Y 0 0 0 = 1 / ((√2 : ℝ) : ℂ) := by
    rw [t1, e1, y0]
    norm_num
  have n1 : ‖o1.Y 0 0 0‖ ^ 2 = 1 / 2 := by
    rw [y1, norm_div, norm_one, Complex.norm_of_nonneg (Real.sqrt_nonneg _), div_pow, one_pow, Real.sq_sqrt (by norm_num)]
  have f1 : o1.ms.factors 1e-5 = ⟨fun _ _ _ => 1, fun _ _ _ => 1 / 2, fun _ _ _ => (1 / 2)⁻¹⟩ := by rw [s1, e1]; rfl
  have e2 : nmfModel 1e-5 1 o1.ms o1.Y = (fun _ _ _ => (1 / 2 : ℝ)⁻¹, { o1.ms with st := some ⟨fun _ _ _ => 1, fun _ _ _ => 1 / 2, fun _ _ _ => (1 / 2)⁻¹⟩ }) := by
    refine single_model o1.ms 1 (1 / 2) (1 / 2) o1.Y n1 ?_ 1 (1 / 2) (1 / 2) ?_ ?_ ?_ ?_ ?_ ?_ ?_ ?_ ?_ ?_
    · rw [f1]; norm_num
    all_goals norm_num [q4, q16, q', q'']
  have f2 : o2.ms.factors 1e-5 = ⟨fun _ _ _ => 1, fun _ _ _ => 1 / 2, fun _ _ _ => (1 / 2)⁻¹⟩ := by rw [s2, e2]; rfl
  have n2 : ‖o2.Y 0 0 0‖ ^ 2 = 1 := by
    rw [t2, e2, norm_div, Complex.norm_of_nonneg (Real.sqrt_nonneg _), div_pow, Real.sq_sqrt (by positivity), n1]
    norm_num
  refine ⟨⟨1, 0, 0, none, false, 1e-3⟩, X, m, o1, o2, by norm_num, rfl, fun _ _ _ => by norm_num [hm], fun _ _ _ => by norm_num [hm],
    h1, h2, ?_, ?_⟩
  · rw [f1, f2]
    constructor <;> intros <;> norm_num [lowRank]
  · have w1 := single_W _ rfl rfl _ _ _ o1 h1
    have w2 := single_W _ rfl rfl _ _ _ o2 h2
    have d : ∀ o : TissOut (NmfItem 1 1 1 1) 1 1 1 1, o.W 0 0 0 = o.Y 0 0 0 →
        logdetTerm (fun f => Matrix.of fun k c => o.W k f c) = - Real.log (‖o.Y 0 0 0‖ ^ 2) := fun o ho => by
      simp only [logdetTerm, Fin.sum_univ_one, Matrix.det_unique, Matrix.of_apply, Real.log_pow]
      rw [show (default : Fin 1) = 0 from rfl, ho]
      push_cast
      ring
    rw [d o1 w1, d o2 w2, f1, f2]
    simp only [gaussianLoss, lowRank, Fin.sum_univ_one, n1, n2, Nat.cast_one, div_one]
    have hl : Real.log (1 / 2) = - Real.log 2 := by rw [one_div, Real.log_inv]
    have := Real.log_lt_sub_one_of_pos (show (0 : ℝ) < 2 by norm_num) (by norm_num)
    norm_num [hl]
    linarith

private lemma gaussian_vs_free (hF : 0 < F) (Y : Fin C → Fin F → Fin N → ℂ) (R : Fin C → Fin F → Fin N → ℝ)
    (hp : ∀ k, 0 < whitePower (Y k) (R k)) : gaussianLoss Y R = ilrmaLoss Y R + C * (F * (1 - Real.log F)) +
      ∑ k, F * (whitePower (Y k) (R k) / F - 1 - Real.log (whitePower (Y k) (R k) / F)) := by
  have hF' : (0 : ℝ) < F := by exact_mod_cast hF
  rw [gaussianLoss_eq]
  simp only [ilrmaLoss, Finset.sum_add_distrib]
  have e : ∀ k, F * (whitePower (Y k) (R k) / F - 1 - Real.log (whitePower (Y k) (R k) / F))
      = whitePower (Y k) (R k) - F * (1 - Real.log F) - F * Real.log (whitePower (Y k) (R k)) := by
    intro k
    rw [Real.log_div (hp k).ne' hF'.ne']
    field_simp
    ring
  simp only [e, Finset.sum_sub_distrib, Finset.sum_const, Finset.card_univ, Fintype.card_fin, nsmul_eq_mul, ← Finset.mul_sum]
  ring

/-- **C147 (what holds instead).**  The full statement, `gaussianLoss` after ≤ `gaussianLoss` before, fails
(`tiss_nmf_likelihood_violated`).  What holds: the increase is at most the cost `F (x - 1 - log x)` of the wrong scale of
the sources after the iteration, where `x` is the mean over frequencies and frames of `|Y|² / R`; there is no increase
when `x = 1` for all sources. -/
theorem tiss_nmf_likelihood_partial (p : TissParams) (he : 0 < p.eps) (hF : 0 < F) (hN : 0 < N) (hp : p.projBackMic = none)
    (X : Sig C F N) {e : ℝ} (hee : 0 < e) (m : NmfItem C F N K) (hT : ∀ c f k, 0 ≤ m.uT c f k)
    (hV : ∀ c n k, 0 ≤ m.uV c n k) (o o' : TissOut (NmfItem C F N K) C C F N)
    (h : tissForward p none X (nmfModel e) nmfItemReset m = .ok ⟨C, o⟩)
    (h' : tissForward { p with nIter := p.nIter + 1 } none X (nmfModel e) nmfItemReset m = .ok ⟨C, o'⟩)
    (hfl : FloorsInactive e (o.ms.factors e) (o'.ms.factors e)) (hpos : ∀ k, ∃ f n, o.Y k f n ≠ 0) (hpos' : ∀ k, ∃ f n, o'.Y k f n ≠ 0) :
    gaussianLoss o'.Y (lowRank (o'.ms.factors e).T (o'.ms.factors e).V) + logdetTerm (fun f => Matrix.of fun k c => o'.W k f c)
      ≤ gaussianLoss o.Y (lowRank (o.ms.factors e).T (o.ms.factors e).V) + logdetTerm (fun f => Matrix.of fun k c => o.W k f c)
        + ∑ k, F * (whitePower (o'.Y k) (lowRank (o'.ms.factors e).T (o'.ms.factors e).V k) / F - 1
          - Real.log (whitePower (o'.Y k) (lowRank (o'.ms.factors e).T (o'.ms.factors e).V k) / F)) := by
  have hd := tiss_nmf_descent p he hN hp X hee m hT hV o o' h h' hfl hpos'
  have hF' : (0 : ℝ) < F := by exact_mod_cast hF
  have w : ∀ k, 0 < whitePower (o.Y k) (lowRank (o.ms.factors e).T (o.ms.factors e).V k) := fun k => by
    obtain ⟨f, n, hn⟩ := hpos k
    exact whitePower_pos hN _ _ (fun f n => lt_of_lt_of_le hee (hfl.before k f n)) f n hn
  have w' : ∀ k, 0 < whitePower (o'.Y k) (lowRank (o'.ms.factors e).T (o'.ms.factors e).V k) := fun k => by
    obtain ⟨f, n, hn⟩ := hpos' k
    exact whitePower_pos hN _ _ (fun f n => lt_of_lt_of_le hee (hfl.after k f n)) f n hn
  rw [gaussian_vs_free hF o'.Y _ w', gaussian_vs_free hF o.Y _ w]
  have : 0 ≤ ∑ k, F * (whitePower (o.Y k) (lowRank (o.ms.factors e).T (o.ms.factors e).V k) / F - 1
      - Real.log (whitePower (o.Y k) (lowRank (o.ms.factors e).T (o.ms.factors e).V k) / F)) :=
    Finset.sum_nonneg fun k _ => mul_nonneg hF'.le (by
      have := Real.log_le_sub_one_of_pos (div_pos (w k) hF')
      linarith)
  linarith

/-- The hypotheses of `tiss_nmf_likelihood_partial` are those of `tiss_nmf_descent` (see the example after it) and signals
`o.Y` that are not silent, which there are the channels themselves. -/
example : ∃ f n, (fun c (_ : Fin 1) n => if c = n then 2 else 1 : Sig 2 1 2) 0 f n ≠ 0 := ⟨0, 0, by norm_num⟩

end Torchiva.Props
