import Verif.Proofs.IpDescent
import Verif.Props.Contrast
import Verif.Proofs.Separated
import Verif.Props.Ilrma
import Verif.Props.TensorNmf

/-!
# What one more iteration of AuxIVA-IP does to the objective (C149)
-/

namespace Torchiva.Props

open Torchiva Matrix _root_.Spec

variable {σ : Type} {C F N K : ℕ}

private lemma demix_init (X : Sig C F N) :
    (fun k => X (Fin.castLE le_rfl k)) = demix X fun _ => Matrix.of fun (k : Fin C) (c : Fin C) => if k.1 = c.1 then (1 : ℂ) else 0 := by
  funext k f n
  simp only [demix, Matrix.of_apply]
  rw [Finset.sum_eq_single k]
  · simp
  · intro c _ hc
    rw [if_neg (fun h => hc (Fin.ext h.symm)), zero_mul]
  · simp

private lemma ip_epoch (X : Sig C F N) (model : SourceModel σ F N) (eps : ℝ) (a b : IpState σ C C F N)
    (hab : ipEpoch le_rfl X model eps a = .ok b) :
    (∀ f, ∃ J, ipSweep le_rfl (fun c => X c f) (inputCov X f) (fun k n => (model C a.ms a.Y).1 k f n * sourceGain a.Y eps k) eps
        (List.finRange C) (Matrix.of fun k c => a.W f k c / (clampMin (√(sourceGain a.Y eps k)) eps : ℝ), a.J f) = .ok (b.W f, J)) ∧
      b.Y = demix X b.W ∧ b.ms = (model C a.ms a.Y).2 := by
  unfold ipEpoch at hab
  simp only at hab
  cases hr : seqAll (fun f => ipSweep le_rfl (fun c => X c f) (inputCov X f)
      (fun k n => (model C a.ms a.Y).1 k f n * sourceGain a.Y eps k) eps (List.finRange C)
      (Matrix.of fun k c => a.W f k c / (clampMin (√(sourceGain a.Y eps k)) eps : ℝ), a.J f)) with
  | error e => rw [hr] at hab; cases hab
  | ok r =>
    rw [hr] at hab
    simp only [bind, Except.bind, pure, Except.pure, Except.ok.injEq] at hab
    rw [← hab]
    exact ⟨fun f => ⟨(r f).2, seqAll_ok_iff.1 hr f⟩, rfl, rfl⟩

private lemma ip_iter (X : Sig C F N) (model : SourceModel σ F N) (eps : ℝ) (I : σ → Prop)
    (hI : ∀ m Y, I m → I (model C m Y).2) (n : ℕ) (a b : IpState σ C C F N) (ha : a.Y = demix X a.W) (hm : I a.ms)
    (h : iterM (ipEpoch le_rfl X model eps) n a = .ok b) : b.Y = demix X b.W ∧ I b.ms := by
  induction n generalizing b with
  | zero => cases h; exact ⟨ha, hm⟩
  | succ n ih =>
    rw [iterM_snoc] at h
    cases hn : iterM (ipEpoch le_rfl X model eps) n a with
    | error e => rw [hn] at h; cases h
    | ok c =>
      rw [hn] at h
      obtain ⟨-, h1, h2⟩ := ip_epoch X model eps c b h
      exact ⟨h1, h2 ▸ hI _ _ (ih c hn).2⟩

private lemma ip_runs (p : IpParams) (hp : p.projBackMic = none) (X : Sig C F N) (model : SourceModel σ F N) (reset : σ → σ)
    (ms : σ) (o o' : IpOut σ C F N) (h : auxivaForward p (some C) X model reset ms = .ok ⟨C, o⟩)
    (h' : auxivaForward { p with nIter := p.nIter + 1 } (some C) X model reset ms = .ok ⟨C, o'⟩)
    (I : σ → Prop) (h0 : I (reset ms)) (hI : ∀ m Y, I m → I (model C m Y).2) :
    ∃ st st' : IpState σ C C F N, ipEpoch le_rfl X model p.eps st = .ok st' ∧ o.Y = st.Y ∧ o.ms = st.ms ∧ o'.Y = st'.Y ∧
      o'.ms = st'.ms ∧ st.Y = demix X st.W ∧ I st.ms := by
  unfold auxivaForward at h h'
  simp only [dif_pos (le_refl C), hp] at h h'
  cases hJ : seqAll (fun f => orthogonalConstraint (Matrix.of fun (k : Fin C) (c : Fin C) => if k.1 = c.1 then (1 : ℂ) else 0)
      (inputCov X f) p.eps) with
  | error e => rw [hJ] at h; cases h
  | ok J0 =>
    rw [hJ] at h h'
    simp only [bind, Except.bind] at h h'
    cases hst : iterM (ipEpoch le_rfl X model p.eps) p.nIter ⟨fun k => X (Fin.castLE le_rfl k),
        fun _ => Matrix.of fun (k : Fin C) (c : Fin C) => if k.1 = c.1 then (1 : ℂ) else 0, J0, reset ms⟩ with
    | error e => rw [hst] at h; cases h
    | ok st =>
      rw [iterM_snoc, hst] at h'
      rw [hst] at h
      simp only [bind, Except.bind] at h'
      cases he : ipEpoch le_rfl X model p.eps st with
      | error e => rw [he] at h'; cases h'
      | ok st' =>
        rw [he] at h'
        simp only [pure, Except.pure, Except.ok.injEq, Sigma.mk.injEq, heq_eq_eq, true_and] at h h'
        refine ⟨st, st', he, by rw [← h], by rw [← h], by rw [← h'], by rw [← h'], ?_⟩
        exact ip_iter X model p.eps I hI p.nIter _ st (demix_init X) h0 hst

/-- The geometric mean is at most the arithmetic mean. -/
private lemma prod_le_mean (hF : 0 < F) (q : Fin F → ℝ) (hq : ∀ f, 0 < q f) : (F : ℝ) ^ F * ∏ f, q f ≤ (∑ f, q f) ^ F := by
  have hF' : (0 : ℝ) < F := by exact_mod_cast hF
  have hS : 0 < ∑ f, q f := Finset.sum_pos (fun f _ => hq f) ⟨⟨0, hF⟩, Finset.mem_univ _⟩
  have hP : 0 < ∏ f, q f := Finset.prod_pos fun f _ => hq f
  rw [← Real.log_le_log_iff (by positivity) (by positivity), Real.log_mul (by positivity) hP.ne', Real.log_pow, Real.log_pow,
    Real.log_prod fun f _ => (hq f).ne']
  have h : ∀ f, Real.log (q f) - Real.log (∑ f, q f) + Real.log F ≤ F * q f / (∑ f, q f) - 1 := fun f => by
    have := Real.log_le_sub_one_of_pos (show 0 < F * q f / (∑ f, q f) from div_pos (mul_pos hF' (hq f)) hS)
    rw [Real.log_div (mul_pos hF' (hq f)).ne' hS.ne', Real.log_mul hF'.ne' (hq f).ne'] at this
    linarith
  have hs := Finset.sum_le_sum fun f (_ : f ∈ Finset.univ) => h f
  simp only [Finset.sum_add_distrib, Finset.sum_sub_distrib, Finset.sum_const, Finset.card_univ, Fintype.card_fin, nsmul_eq_mul,
    mul_one, ← Finset.sum_div, ← Finset.mul_sum] at hs
  rw [mul_div_assoc, div_self hS.ne'] at hs
  linarith

/-- A demixing matrix is determined by its output. -/
private lemma demix_unique {eps κ μ : ℝ} (x : Fin C → Fin N → ℂ) (w : Fin C → Fin N → ℝ) (M) (hc : IpConditioned x w M eps κ μ)
    (W V : Matrix (Fin C) (Fin C) ℂ) (h : ∀ k n, ∑ c, W k c * x c n = ∑ c, V k c * x c n) : W = V := by
  ext k c
  obtain ⟨a, ha, hq⟩ := hc.cov k
  have h1 := (hq fun c => W k c - V k c).1
  have h2 : ∀ n, ∑ c, (W k c - V k c) * x c n = 0 := fun n => by
    simp only [sub_mul, Finset.sum_sub_distrib]; rw [h k n, sub_self]
  simp only [h2, norm_zero, ne_eq, OfNat.ofNat_ne_zero, not_false_eq_true, zero_pow, mul_zero, Finset.sum_const_zero] at h1
  have h3 : ∑ c, ‖W k c - V k c‖ ^ 2 = 0 :=
    le_antisymm (by
      by_contra hp
      have := mul_pos ha (not_le.1 hp)
      linarith) (Finset.sum_nonneg fun c _ => by positivity)
  have h4 := (Finset.sum_eq_zero_iff_of_nonneg (fun c _ => by positivity)).1 h3 c (Finset.mem_univ c)
  exact sub_eq_zero.1 (norm_eq_zero.1 (pow_eq_zero_iff (two_ne_zero)|>.1 h4))

/-- One more iteration, in product form. -/
private lemma ip_free (p : IpParams) (he : 0 < p.eps) (hp : p.projBackMic = none) (hF : 0 < F) (hN : 0 < N) (X : Sig C F N)
    (model : SourceModel σ F N) (reset : σ → σ) (ms : σ) (o o' : IpOut σ C F N)
    (h : auxivaForward p (some C) X model reset ms = .ok ⟨C, o⟩)
    (h' : auxivaForward { p with nIter := p.nIter + 1 } (some C) X model reset ms = .ok ⟨C, o'⟩)
    (I : σ → Prop) (h0 : I (reset ms)) (hI : ∀ m Y, I m → I (model C m Y).2)
    (hmod : I o.ms → ∀ k f n, 0 ≤ (model C o.ms o.Y).1 k f n)
    {κ μ : ℝ} (hμ : 0 < μ) (hδ : κ * (p.eps / (μ + p.eps)) ^ 2 < 1) (W W' : Fin F → Matrix (Fin C) (Fin C) ℂ)
    (hY : ∀ k f n, o.Y k f n = ∑ c, W f k c * X c f n) (hY' : ∀ k f n, o'.Y k f n = ∑ c, W' f k c * X c f n)
    (hdet : ∀ f, (W f).det ≠ 0) (hr : IpRegular X (model C o.ms o.Y).1 o.Y o'.Y W W' p.eps κ μ) :
    (∀ f, (W' f).det ≠ 0) ∧ I o.ms ∧ o'.ms = (model C o.ms o.Y).2 ∧
      (∏ k, srcEnergy (model C o.ms o.Y).1 o'.Y k ^ F) / ∏ f, ‖(W' f).det‖ ^ 2
        ≤ (∏ k, srcEnergy (model C o.ms o.Y).1 o.Y k ^ F) /
          ∏ f, (√((1 - κ * (p.eps / (μ + p.eps)) ^ 2) ^ C) * ‖(W f).det‖) ^ 2 := by
  obtain ⟨st, st', hst, e1, e2, e3, e4, hYW, hIm⟩ := ip_runs p hp X model reset ms o o' h h' I h0 hI
  obtain ⟨hsw, hYW', hms⟩ := ip_epoch X model p.eps st st' hst
  rw [← e2] at hIm
  have hmod := hmod hIm
  rw [← e2, ← e1] at hsw hms
  set r := (model C o.ms o.Y).1 with hrd
  have hgain : ∀ k, sourceGain o.Y p.eps k = ipPower o.Y p.eps k := fun k => by
    simp only [sourceGain, clampMin, magSq_eq, ipPower]
  set g := ipPower o.Y p.eps with hg
  have hg0 : ∀ k, 0 < g k := fun k => lt_of_lt_of_le he (le_max_right _ _)
  have hWe : ∀ f, st.W f = W f := fun f => demix_unique _ _ _ (hr.cond f) _ _ fun k n => by
    rw [← hY, e1, hYW]; rfl
  have hWe' : ∀ f, st'.W f = W' f := fun f => demix_unique _ _ _ (hr.cond f) _ _ fun k n => by
    rw [← hY', e3, hYW']; rfl
  have hf : ∀ f, (W' f).det ≠ 0 ∧ (1 - κ * (p.eps / (μ + p.eps)) ^ 2) ^ C * ‖(W f).det‖ ^ 2
      ≤ ‖(W' f).det‖ ^ 2 * ∏ k, ∑ n, r k f n * g k * ‖o.Y k f n‖ ^ 2 := by
    intro f
    obtain ⟨J, hJ⟩ := hsw f
    simp only [hgain, hWe, hWe'] at hJ
    have := sweep_det (fun c => X c f) (inputCov X f) (fun k n => r k f n * g k) (fun k n => mul_nonneg (hmod k f n) (hg0 k).le)
      he hμ hδ (W f) (fun k => max (√(g k)) p.eps) (fun k => lt_of_lt_of_le he (le_max_right _ _)) (st.J f) (W' f, J) hJ
      (hr.cond f) (fun k => by
        have := hr.unit k f
        simp only [hY'] at this
        exact this) (hdet f)
    simp only [hY]
    exact this
  refine ⟨fun f => (hf f).1, hIm, by rw [e4, hms], ?_⟩
  have hF' : (0 : ℝ) < F := by exact_mod_cast hF
  have hN' : (0 : ℝ) < N := by exact_mod_cast hN
  set δ := κ * (p.eps / (μ + p.eps)) ^ 2 with hδd
  have h1δ : 0 < 1 - δ := by linarith
  set q : Fin C → Fin F → ℝ := fun k f => ∑ n, r k f n * g k * ‖o.Y k f n‖ ^ 2 with hq
  have hq0 : ∀ k f, 0 < q k f := by
    intro k f
    obtain ⟨a, ha, hc⟩ := (hr.cond f).cov k
    have h1 := (hc fun c => W f k c).1
    have h2 : 0 < ∑ c, ‖W f k c‖ ^ 2 := by
      by_contra hn
      have hz : ∀ c, W f k c = 0 := fun c => by
        have := (Finset.sum_eq_zero_iff_of_nonneg (fun c _ => by positivity)).1
          (le_antisymm (not_lt.1 hn) (Finset.sum_nonneg fun c _ => by positivity)) c (Finset.mem_univ c)
        exact norm_eq_zero.1 (pow_eq_zero_iff (two_ne_zero)|>.1 this)
      exact hdet f (Matrix.det_eq_zero_of_row_eq_zero k hz)
    simp only [← hY] at h1
    exact lt_of_lt_of_le (mul_pos ha h2) h1
  have hE : ∀ k, srcEnergy r o.Y k = (∑ f, q k f) / (N * g k) := fun k => by
    simp only [srcEnergy, hq, Finset.sum_div]
    refine Finset.sum_congr rfl fun f _ => Finset.sum_congr rfl fun n _ => ?_
    have := (hg0 k).ne'
    field_simp
  have hE' : ∀ k, srcEnergy r o'.Y k = F / (N * g k) := fun k => by
    have : ∀ f, (∑ n, r k f n * ‖o'.Y k f n‖ ^ 2) = 1 / g k := fun f => by
      rw [eq_div_iff (hg0 k).ne', ← hr.unit k f, Finset.sum_mul]
      exact Finset.sum_congr rfl fun n _ => by ring
    simp only [srcEnergy, this, Finset.sum_const, Finset.card_univ, Fintype.card_fin, nsmul_eq_mul]
    have := (hg0 k).ne'
    field_simp
  have hall : ∏ f, ((1 - δ) ^ C * ‖(W f).det‖ ^ 2) ≤ ∏ f, (‖(W' f).det‖ ^ 2 * ∏ k, q k f) :=
    Finset.prod_le_prod (fun f _ => by positivity) fun f _ => (hf f).2
  rw [Finset.prod_mul_distrib (f := fun f => ‖(W' f).det‖ ^ 2), Finset.prod_comm] at hall
  have hamgm : ∏ k, ((F : ℝ) ^ F * ∏ f, q k f) ≤ ∏ k, (∑ f, q k f) ^ F :=
    Finset.prod_le_prod (fun k _ => by
      have : 0 < ∏ f, q k f := Finset.prod_pos fun f _ => hq0 k f
      positivity) fun k _ => prod_le_mean hF (q k) (hq0 k)
  rw [Finset.prod_mul_distrib] at hamgm
  have hd2 : ∀ f, (√((1 - δ) ^ C) * ‖(W f).det‖) ^ 2 = (1 - δ) ^ C * ‖(W f).det‖ ^ 2 := fun f => by
    rw [mul_pow, Real.sq_sqrt (by positivity)]
  simp only [hE, hE', hd2, div_pow, Finset.prod_div_distrib]
  have hD : 0 < ∏ f, ((1 - δ) ^ C * ‖(W f).det‖ ^ 2) := Finset.prod_pos fun f _ => by
    have := norm_pos_iff.2 (hdet f); positivity
  have hD' : 0 < ∏ f, ‖(W' f).det‖ ^ 2 := Finset.prod_pos fun f _ => by
    have := norm_pos_iff.2 (hf f).1; positivity
  have hG : 0 < ∏ k, ((N : ℝ) * g k) ^ F := Finset.prod_pos fun k _ => by have := hg0 k; positivity
  have hFF : (0 : ℝ) < ∏ _k : Fin C, (F : ℝ) ^ F := Finset.prod_pos fun k _ => by positivity
  rw [div_div, div_div, div_le_div_iff₀ (mul_pos hG hD') (mul_pos hG hD)]
  have h1 : (∏ _k : Fin C, (F : ℝ) ^ F) * ∏ f, ((1 - δ) ^ C * ‖(W f).det‖ ^ 2)
      ≤ (∏ k, (∑ f, q k f) ^ F) * ∏ f, ‖(W' f).det‖ ^ 2 := by
    calc _ ≤ (∏ _k : Fin C, (F : ℝ) ^ F) * ((∏ f, ‖(W' f).det‖ ^ 2) * ∏ k, ∏ f, q k f) :=
          mul_le_mul_of_nonneg_left hall hFF.le
      _ = ((∏ _k : Fin C, (F : ℝ) ^ F) * ∏ k, ∏ f, q k f) * ∏ f, ‖(W' f).det‖ ^ 2 := by ring
      _ ≤ _ := mul_le_mul_of_nonneg_right hamgm hD'.le
  calc _ = (∏ k, ((N : ℝ) * g k) ^ F) * ((∏ _k : Fin C, (F : ℝ) ^ F) * ∏ f, ((1 - δ) ^ C * ‖(W f).det‖ ^ 2)) := by ring
    _ ≤ (∏ k, ((N : ℝ) * g k) ^ F) * ((∏ k, (∑ f, q k f) ^ F) * ∏ f, ‖(W' f).det‖ ^ 2) := mul_le_mul_of_nonneg_left h1 hG.le
    _ = _ := by ring

private lemma log_loaded {δ : ℝ} (hδ : δ < 1) (W : Fin F → Matrix (Fin C) (Fin C) ℂ) (hdet : ∀ f, (W f).det ≠ 0) :
    2 * ∑ f, Real.log (√((1 - δ) ^ C) * ‖(W f).det‖) = F * C * Real.log (1 - δ) + 2 * ∑ f, Real.log ‖(W f).det‖ := by
  have h1 : (0 : ℝ) < 1 - δ := by linarith
  have : ∀ f, Real.log (√((1 - δ) ^ C) * ‖(W f).det‖) = C * Real.log (1 - δ) / 2 + Real.log ‖(W f).det‖ := fun f => by
    rw [Real.log_mul (Real.sqrt_pos.2 (by positivity)).ne' (norm_pos_iff.2 (hdet f)).ne', Real.log_sqrt (by positivity), Real.log_pow]
  simp only [this, Finset.sum_add_distrib, Finset.sum_const, Finset.card_univ, Fintype.card_fin, nsmul_eq_mul]
  ring

/-- **C149 (Laplace).**  As many sources as channels, the AuxIVA-IP separator with `LaplaceModel` and no projection back.  `Y = W X`
is the output of some number of iterations and `Y' = W' X` the output of one more.  If the frames of `Y` are above the floor of the
model, the weighted covariances have condition numbers at most `κ`, the squared singular values of the row-normalised linear systems
are at least `μ` and no row is clamped, then the new demixing matrices are invertible and the objective increases by at most
`-F C log(1 - κ (eps / (μ + eps))²)`, which vanishes with the loading `eps`. -/
theorem auxiva_laplace_bound (p : IpParams) (he : 0 < p.eps) (hp : p.projBackMic = none) (hF : 0 < F) (hN : 0 < N) (X : Sig C F N)
    (e : ℝ) (hee : 0 < e) (reset : Unit → Unit) (o o' : IpOut Unit C F N)
    (h : auxivaForward p (some C) X (laplaceModel e) reset () = .ok ⟨C, o⟩)
    (h' : auxivaForward { p with nIter := p.nIter + 1 } (some C) X (laplaceModel e) reset () = .ok ⟨C, o'⟩)
    {κ μ : ℝ} (hμ : 0 < μ) (hδ : κ * (p.eps / (μ + p.eps)) ^ 2 < 1) (W W' : Fin F → Matrix (Fin C) (Fin C) ℂ)
    (hY : ∀ k f n, o.Y k f n = ∑ c, W f k c * X c f n) (hY' : ∀ k f n, o'.Y k f n = ∑ c, W' f k c * X c f n)
    (hdet : ∀ f, (W f).det ≠ 0)
    (hr : IpRegular X (fun k _ n => 1 / max (2 * √(framePower (o.Y k) n)) e) o.Y o'.Y W W' p.eps κ μ)
    (hloud : ∀ k n, e ≤ 2 * √(framePower (o.Y k) n)) :
    (∀ f, (W' f).det ≠ 0) ∧
      laplaceLoss o'.Y + logdetTerm W'
        ≤ laplaceLoss o.Y + logdetTerm W - F * C * Real.log (1 - κ * (p.eps / (μ + p.eps)) ^ 2) := by
  have hwe : (laplaceModel e C o.ms o.Y).1 = fun k _ n => 1 / max (2 * √(framePower (o.Y k) n)) e := by
    funext k f n
    simp only [laplaceModel, laplaceForward, clampMin, magSq_eq, framePower]
  have hmod : ∀ k f n, 0 ≤ (laplaceModel e C o.ms o.Y).1 k f n := fun k f n => by
    have : 0 < max (2 * √(framePower (o.Y k) n)) e := lt_of_lt_of_le hee (le_max_right _ _)
    rw [hwe]
    positivity
  obtain ⟨hdet', -, -, hfree⟩ := ip_free p he hp hF hN X (laplaceModel e) reset () o o' h h' (fun _ => True) trivial
    (fun _ _ _ => trivial) (fun _ => hmod) hμ hδ W W' hY hY' hdet (by rw [hwe]; exact hr)
  refine ⟨hdet', ?_⟩
  have h1δ : 0 < 1 - κ * (p.eps / (μ + p.eps)) ^ 2 := by linarith
  have hpos : ∀ k, 0 < meanNorm (o'.Y k) := by
    intro k
    have hu := hr.unit k ⟨0, hF⟩
    obtain ⟨n, hn⟩ : ∃ n, o'.Y k ⟨0, hF⟩ n ≠ 0 := by
      by_contra hc
      push Not at hc
      simp [hc] at hu
    refine div_pos (Finset.sum_pos' (fun n _ => Real.sqrt_nonneg _) ⟨n, Finset.mem_univ n, Real.sqrt_pos.2 ?_⟩)
      (by exact_mod_cast hN)
    refine Finset.sum_pos' (fun f _ => by positivity) ⟨⟨0, hF⟩, Finset.mem_univ _, ?_⟩
    have := norm_pos_iff.2 hn
    positivity
  have := laplace_log e hee hN o.Y o'.Y hpos _ _
    (fun f => mul_pos (Real.sqrt_pos.2 (pow_pos h1δ C)) (norm_pos_iff.2 (hdet f))) (fun f => norm_pos_iff.2 (hdet' f)) hfree
  rw [log_loaded hδ W hdet] at this
  have hfl : ∀ k, (∑ n, max (√(framePower (o.Y k) n)) (e / 2)) / N = meanNorm (o.Y k) := fun k => by
    unfold meanNorm
    congr 1
    exact Finset.sum_congr rfl fun n _ => max_eq_left (by have := hloud k n; linarith)
  simp only [hfl] at this
  unfold logdetTerm
  have e1 : laplaceLoss o.Y = ∑ k, F * (Real.log (meanNorm (o.Y k)) + Real.log (meanNorm (o.Y k))) := by
    unfold laplaceLoss
    exact Finset.sum_congr rfl fun k _ => by ring
  rw [e1]
  linarith

/-- The new row when the linear system is diagonal. -/
private lemma ipNewRow_diag {eps : ℝ} (he : 0 < eps) (W V : Matrix (Fin C) (Fin C) ℂ) (b v : Fin C → ℝ) (hW : W = diagonal fun i => (b i : ℂ))
    (hV : V = diagonal fun i => (v i : ℂ)) (k : Fin C) (hv : 0 < v k) (hb : 0 < b k) (hbv : eps ≤ b k * v k)
    (hE : eps * (v k * (b k * (1 + eps)) ^ 2) ≤ 1) :
    ipNewRow le_rfl W none V k eps = .ok fun c => if c = k then (1 / √(v k) : ℝ) else 0 := by
  have hA : stackWV le_rfl W none V = diagonal fun i => ((b i * v i : ℝ) : ℂ) := by
    ext i j
    simp only [stackWV, Matrix.of_apply, dif_pos i.2, hW, hV, diagonal_mul_diagonal]
    simp
  have hsys : ∀ i j, i ≠ j → (diagonal fun i => ((b i * v i : ℝ) : ℂ)) i j = (0 : ℂ) := fun i j hij => diagonal_apply_ne _ hij
  obtain ⟨sol, hsol, -⟩ := solve_loaded_general_ridge (diagonal fun i => ((b i * v i : ℝ) : ℂ))
    (Matrix.of fun i (_ : Fin 1) => if i.1 = k.1 then (1 : ℂ) else 0) eps eps he
  have hoff : ∀ c, c ≠ k → sol c 0 = 0 := fun c hc => solveLoadedGeneral_diag hsys (by simp [Fin.val_ne_of_ne hc]) hsol
  have hrw : rowWeight (diagonal fun i => ((b i * v i : ℝ) : ℂ)) eps k = 1 / (b k * v k) := by
    unfold rowWeight clampMin
    rw [Finset.sum_eq_single k (fun j _ hj => by rw [diagonal_apply_ne' _ hj]; simp) (by simp), diagonal_apply_eq,
      Complex.norm_of_nonneg (by positivity), Real.sqrt_sq (by positivity), max_eq_left hbv]
  have hz : sol k 0 = ((1 / (b k * v k * (1 + eps)) : ℝ) : ℂ) := by
    obtain ⟨-, hs⟩ := solve_ok_iff.1 hsol
    have hrow := congrFun (congrFun hs k) 0
    rw [Matrix.mul_apply, Finset.sum_eq_single k (fun j _ hj => by rw [hoff j hj, mul_zero]) (by simp)] at hrow
    have h1 : ((∑ m, star ((diagonal fun i => ((b i * v i : ℝ) : ℂ)) m k * (rowWeight (diagonal fun i => ((b i * v i : ℝ) : ℂ)) eps m : ℂ))
          * ((diagonal fun i => ((b i * v i : ℝ) : ℂ)) m k * (rowWeight (diagonal fun i => ((b i * v i : ℝ) : ℂ)) eps m : ℂ)))
        + (eps : ℂ) * (1 : Matrix (Fin C) (Fin C) ℂ) k k) * sol k 0
        = ∑ m, star ((diagonal fun i => ((b i * v i : ℝ) : ℂ)) m k * (rowWeight (diagonal fun i => ((b i * v i : ℝ) : ℂ)) eps m : ℂ))
          * ((if m.1 = k.1 then (1 : ℂ) else 0) * (rowWeight (diagonal fun i => ((b i * v i : ℝ) : ℂ)) eps m : ℂ)) := hrow
    rw [Finset.sum_eq_single k (fun j _ hj => by rw [hsys j k hj]; simp) (by simp),
      Finset.sum_eq_single k (fun j _ hj => by rw [hsys j k hj]; simp) (by simp), hrw, diagonal_apply_eq, Matrix.one_apply_eq,
      if_pos rfl] at h1
    have hne : ((b k * v k : ℝ) : ℂ) ≠ 0 := Complex.ofReal_ne_zero.2 (by positivity)
    have hne2 : ((1 + eps : ℝ) : ℂ) ≠ 0 := Complex.ofReal_ne_zero.2 (by positivity)
    have h2 : ((1 + eps : ℝ) : ℂ) * sol k 0 = 1 / ((b k * v k : ℝ) : ℂ) := by
      have e1 : ((b k * v k : ℝ) : ℂ) * ((1 / (b k * v k) : ℝ) : ℂ) = 1 := by
        rw [Complex.ofReal_div, Complex.ofReal_one]; exact mul_one_div_cancel hne
      rw [e1, star_one] at h1
      simp only [mul_one, one_mul] at h1
      rw [Complex.ofReal_add, Complex.ofReal_one, h1, Complex.ofReal_div, Complex.ofReal_one]
    rw [← mul_right_inj' hne2, h2]
    push_cast at hne hne2 ⊢
    field_simp
  unfold ipNewRow
  dsimp only
  rw [hA, hsol]
  simp only [bind, Except.bind, pure, Except.pure, Except.ok.injEq]
  have hscale : (∑ c, ∑ d, star (sol c 0) * star (star (sol d 0)) * V c d).re = v k * (1 / (b k * v k * (1 + eps))) ^ 2 := by
    rw [Finset.sum_eq_single k (fun c _ hc => by rw [hoff c hc]; simp) (by simp),
      Finset.sum_eq_single k (fun c _ hc => by rw [hoff c hc]; simp) (by simp), hz, hV, diagonal_apply_eq]
    simp only [Complex.star_def, Complex.conj_ofReal]
    rw [← Complex.ofReal_mul, ← Complex.ofReal_mul, Complex.ofReal_re]
    ring
  funext c
  rw [hscale]
  have hge : eps ≤ v k * (1 / (b k * v k * (1 + eps))) ^ 2 := by
    have : v k * (1 / (b k * v k * (1 + eps))) ^ 2 = 1 / (v k * (b k * (1 + eps)) ^ 2) := by field_simp
    rw [this, le_div_iff₀ (by positivity)]
    exact hE
  by_cases hc : c = k
  · rw [if_pos hc, hc, hz, clampMin, max_eq_left hge, Real.sqrt_mul hv.le, Real.sqrt_sq (by positivity)]
    simp only [Complex.star_def, Complex.conj_ofReal]
    rw [← Complex.ofReal_div]
    have := Real.sqrt_pos.2 hv
    congr 1
    field_simp
  · rw [if_neg hc, hoff c hc]; simp

/-- Two orthogonal channels with different levels. -/
private def twoLevels : Sig 2 1 2 := fun k _ n => if k = 0 then 1 else if n = 0 then 2 else -2

private lemma twoLevels_norm (k f n) : ‖twoLevels k f n‖ = if k = 0 then 1 else 2 := by
  fin_cases k <;> fin_cases n <;> simp [twoLevels]

private lemma twoLevels_cov (w : ℝ) (f) : weightedCov (fun c => twoLevels c f) (fun _ => w)
    = diagonal fun i => ((if i = 0 then 2 * w else 8 * w : ℝ) : ℂ) := by
  ext i j
  fin_cases i <;> fin_cases j <;> simp [weightedCov, twoLevels, Fin.sum_univ_two, Complex.conj_ofNat] <;> ring

private lemma sys_diag {M : Matrix (Fin C) (Fin C) ℂ} {eps : ℝ} (d : Fin C → ℝ) (he : 0 < eps) (hd : ∀ i, eps ≤ d i)
    (hM : M = diagonal fun i => (d i : ℂ)) (v : Fin C → ℂ) :
    1 * ∑ c, ‖v c‖ ^ 2 ≤ ∑ i, (1 / max (l2 (M i)) eps) ^ 2 * ‖(M.mulVec v) i‖ ^ 2 := by
  rw [one_mul]
  refine Finset.sum_le_sum fun i _ => ?_
  have hdi : 0 < d i := lt_of_lt_of_le he (hd i)
  have hl : l2 (M i) = d i := by
    unfold l2
    rw [hM, Finset.sum_eq_single i (fun j _ hj => by rw [diagonal_apply_ne' _ hj]; simp) (by simp), diagonal_apply_eq,
      Complex.norm_of_nonneg hdi.le, Real.sqrt_sq hdi.le]
  rw [hl, max_eq_left (hd i), hM, mulVec_diagonal, norm_mul, Complex.norm_of_nonneg hdi.le, mul_pow, div_pow, one_pow]
  exact le_of_eq (by field_simp)

private lemma twoLevels_energy (w : ℝ) (f) (v : Fin 2 → ℂ) :
    ∑ n, w * ‖∑ c, v c * twoLevels c f n‖ ^ 2 = w * (2 * ‖v 0‖ ^ 2 + 8 * ‖v 1‖ ^ 2) := by
  simp only [Fin.sum_univ_two, twoLevels, Complex.sq_norm, Complex.normSq_apply]
  simp
  ring

private lemma twoLevels_one (k f n) : twoLevels k f n = ∑ c, (1 : Matrix (Fin 2) (Fin 2) ℂ) k c * twoLevels c f n := by
  rw [Finset.sum_eq_single k (fun j _ hj => by rw [Matrix.one_apply_ne' hj, zero_mul]) (by simp), Matrix.one_apply_eq, one_mul]

/-- The first iteration on `twoLevels` with a source model whose weights times the powers of the sources are `w`. -/
private lemma twoLevels_step (model : SourceModel σ 1 2) (hmod : NonnegModel model) (reset : σ → σ) (ms : σ) (w : Fin 2 → ℝ)
    (hw : ∀ k, 1 / 2 ≤ w k) (hw' : ∀ k, w k ≤ 3 / 2)
    (hwt : ∀ k f n, (model 2 (reset ms) twoLevels).1 k f n * (if k = 0 then 1 else 2) ^ 2 = w k) :
    ∃ (o o' : IpOut σ 2 1 2) (W' : Fin 1 → Matrix (Fin 2) (Fin 2) ℂ),
    auxivaForward ⟨0, none, 1e-5⟩ (some 2) twoLevels model reset ms = .ok ⟨2, o⟩ ∧
    auxivaForward ⟨1, none, 1e-5⟩ (some 2) twoLevels model reset ms = .ok ⟨2, o'⟩ ∧ o.Y = twoLevels ∧ o.ms = reset ms ∧
    o'.ms = (model 2 (reset ms) twoLevels).2 ∧
    (∀ k f n, o'.Y k f n = ∑ c, W' f k c * twoLevels c f n) ∧
    IpRegular twoLevels (model 2 (reset ms) twoLevels).1 twoLevels o'.Y (fun _ => 1) W' 1e-5 4 1 ∧
    (∀ k f n, o'.Y k f n = ((1 / √((if k = 0 then 2 else 8) * w k) : ℝ) : ℂ) * twoLevels k f n) ∧ o'.Y ≠ o.Y := by
  obtain ⟨o, o', h0, h1, -, -⟩ := auxiva_output_energy ⟨0, none, 1e-5⟩ (by norm_num) rfl 2 le_rfl twoLevels model hmod reset ms
  obtain ⟨J0, st', hep, hoY, hom, ho'Y, hom'⟩ : ∃ J0 st', ipEpoch le_rfl twoLevels model 1e-5 ⟨twoLevels,
      fun _ => Matrix.of fun (k : Fin 2) (c : Fin 2) => if k.1 = c.1 then (1 : ℂ) else 0, J0, reset ms⟩ = .ok st' ∧
      o.Y = twoLevels ∧ o.ms = reset ms ∧ o'.Y = st'.Y ∧ o'.ms = st'.ms := by
    unfold auxivaForward at h0 h1
    simp only [dif_pos (le_refl 2)] at h0 h1
    cases hJ : seqAll (fun f => orthogonalConstraint (Matrix.of fun (k : Fin 2) (c : Fin 2) => if k.1 = c.1 then (1 : ℂ) else 0)
      (inputCov twoLevels f) (1e-5 : ℝ)) with
    | error e => rw [hJ] at h0; cases h0
    | ok J0 =>
      rw [hJ] at h0 h1
      simp only [bind, Except.bind, iterM, pure, Except.pure, Except.ok.injEq, Sigma.mk.injEq, heq_eq_eq, true_and] at h0 h1
      cases hst : ipEpoch le_rfl twoLevels model (1e-5 : ℝ) ⟨fun k => twoLevels (Fin.castLE le_rfl k),
        fun _ => Matrix.of fun (k : Fin 2) (c : Fin 2) => if k.1 = c.1 then (1 : ℂ) else 0, J0, reset ms⟩ with
      | error e => rw [hst] at h1; cases h1
      | ok st' =>
        rw [hst] at h1
        simp only [Except.ok.injEq, Sigma.mk.injEq, heq_eq_eq, true_and] at h1
        exact ⟨J0, st', hst, by rw [← h0]; rfl, by rw [← h0], by rw [← h1], by rw [← h1]⟩
  have hpow : ∀ k, ipPower twoLevels 1e-5 k = (if k = 0 then 1 else 2) ^ 2 := fun k => by
    simp only [ipPower, Fin.sum_univ_one, Fin.sum_univ_two, twoLevels_norm]
    rw [max_eq_left] <;> split_ifs <;> norm_num
  have hlev : ∀ k, max (√(ipPower twoLevels 1e-5 k)) 1e-5 = if k = 0 then 1 else 2 := fun k => by
    rw [hpow, Real.sqrt_sq (by split_ifs <;> norm_num)]
    rw [max_eq_left]; split_ifs <;> norm_num
  obtain ⟨hsw, hY', hms'⟩ := ip_epoch twoLevels model 1e-5 _ st' hep
  have hwt2 : ∀ k f n, (model 2 (reset ms) twoLevels).1 k f n * ipPower twoLevels 1e-5 k = w k := fun k f n => by
    rw [hpow, hwt]
  have hwt' : (fun (k : Fin 2) (n : Fin 2) => (model 2 (reset ms) twoLevels).1 k 0 n * sourceGain twoLevels 1e-5 k)
      = fun k _ => w k := by
    funext k n
    rw [← hwt2 k 0 n]
    simp only [clampMin, magSq_eq, sourceGain, ipPower]
  have hstart : (Matrix.of fun (k c : Fin 2) => (Matrix.of fun (k : Fin 2) (c : Fin 2) => if k.1 = c.1 then (1 : ℂ) else 0) k c
      / (clampMin (√(sourceGain twoLevels 1e-5 k)) 1e-5 : ℝ)) = diagonal fun i => ((if i = 0 then 1 else 1 / 2 : ℝ) : ℂ) := by
    have : ∀ k, clampMin (√(sourceGain twoLevels 1e-5 k)) 1e-5 = if k = 0 then 1 else 2 := fun k => by
      have := hlev k
      rw [← this]
      simp only [clampMin, sourceGain, magSq_eq, ipPower]
    ext i j
    rw [Matrix.of_apply, this]
    fin_cases i <;> fin_cases j <;> simp
  have w0 := hw 0
  have w0' := hw' 0
  have w1 := hw 1
  have w1' := hw' 1
  have hWf : st'.W 0 = diagonal fun i => ((1 / √((if i = 0 then 2 else 8) * w i) : ℝ) : ℂ) := by
    obtain ⟨J, hJ⟩ := hsw 0
    rw [hwt', hstart] at hJ
    have hoc : ∀ M Cx : Matrix (Fin 2) (Fin 2) ℂ, orthogonalConstraint M Cx (1e-5 : ℝ) = .ok none := fun M Cx => by
      simp [orthogonalConstraint]
    have hr0 := ipNewRow_diag (eps := 1e-5) (by norm_num) (diagonal fun i => ((if i = 0 then 1 else 1 / 2 : ℝ) : ℂ)) _ _ _ rfl
      (twoLevels_cov (w 0) 0) (0 : Fin 2) (by simp; linarith) (by norm_num) (by simp; linarith) (by simp; norm_num; linarith)
    have hu0 : (diagonal fun i : Fin 2 => ((if i = 0 then 1 else 1 / 2 : ℝ) : ℂ)).updateRow 0
        (fun c => if c = (0 : Fin 2) then (1 / √(if (0 : Fin 2) = 0 then 2 * w 0 else 8 * w 0) : ℝ) else 0)
        = diagonal fun i => ((if i = 0 then 1 / √(2 * w 0) else 1 / 2 : ℝ) : ℂ) := by
      ext i j
      fin_cases i <;> fin_cases j <;> simp [updateRow_apply]
    have hr1 := ipNewRow_diag (eps := 1e-5) (by norm_num) (diagonal fun i => ((if i = 0 then 1 / √(2 * w 0) else 1 / 2 : ℝ) : ℂ)) _ _ _ rfl
      (twoLevels_cov (w 1) 0) (1 : Fin 2) (by simp; linarith) (by norm_num) (by simp; linarith) (by simp; norm_num; linarith)
    have hu1 : (diagonal fun i : Fin 2 => ((if i = 0 then 1 / √(2 * w 0) else 1 / 2 : ℝ) : ℂ)).updateRow 1
        (fun c => if c = (1 : Fin 2) then (1 / √(if (1 : Fin 2) = 0 then 2 * w 1 else 8 * w 1) : ℝ) else 0)
        = diagonal fun i => ((1 / √((if i = 0 then 2 else 8) * w i) : ℝ) : ℂ) := by
      ext i j
      fin_cases i <;> fin_cases j <;> simp [updateRow_apply]
    have hfr : List.finRange 2 = [0, 1] := by decide
    rw [hfr] at hJ
    simp only [ipSweep, ipSrcUpdate, hoc, bind, Except.bind, pure, Except.pure] at hJ
    simp only [if_true, one_ne_zero, if_false] at hr0 hu0 hr1 hu1
    rw [hr0] at hJ
    simp only [hu0] at hJ
    rw [hr1] at hJ
    simp only [hu1, Except.ok.injEq, Prod.mk.injEq] at hJ
    exact hJ.1.symm
  have hvp : ∀ k : Fin 2, 0 < (if k = 0 then 2 else 8) * w k := fun k => by
    have := hw k
    split_ifs <;> linarith
  have hv2 : ∀ k : Fin 2, √((if k = 0 then 2 else 8) * w k) ^ 2 = (if k = 0 then 2 else 8) * w k := fun k => Real.sq_sqrt (hvp k).le
  have hvs : ∀ k : Fin 2, 0 < √((if k = 0 then 2 else 8) * w k) := fun k => Real.sqrt_pos.2 (hvp k)
  have hY2 : ∀ k f n, o'.Y k f n = ((1 / √((if k = 0 then 2 else 8) * w k) : ℝ) : ℂ) * twoLevels k f n := by
    intro k f n
    obtain rfl : f = 0 := Subsingleton.elim _ _
    rw [ho'Y, hY']
    simp only [demix, hWf]
    rw [Finset.sum_eq_single k (fun j _ hj => by rw [diagonal_apply_ne' _ hj, zero_mul]) (by simp), diagonal_apply_eq]
  refine ⟨o, o', st'.W, h0, h1, hoY, hom, by rw [hom', hms'], fun k f n => by rw [ho'Y, hY']; rfl, ⟨fun f => ?_, fun k f => ?_⟩, hY2,
    fun h => ?_⟩
  · obtain rfl : f = 0 := Subsingleton.elim _ _
    simp only [hwt2, hlev, hWf]
    refine ⟨fun k => ⟨2 * w k, by have := hw k; linarith, fun v => ?_⟩, fun k v => ?_⟩
    · rw [twoLevels_energy]
      simp only [Fin.sum_univ_two]
      have h0 : 0 ≤ w k := by have := hw k; linarith
      have h1 := mul_nonneg h0 (sq_nonneg ‖v 0‖)
      have h2 := mul_nonneg h0 (sq_nonneg ‖v 1‖)
      constructor <;> nlinarith
    · refine sys_diag (fun i => (if i < k then 1 / √((if i = 0 then 2 else 8) * w i) else if i = 0 then 1 else 1 / 2)
        * (if i = 0 then 2 * w k else 8 * w k)) (by norm_num) ?_ ?_ v
      · intro i
        have h3 : √((if i = 0 then 2 else 8) * w i) ≤ 4 := by
          refine Real.sqrt_le_left (by norm_num) |>.2 ?_
          have := hw' i
          have := hw i
          split_ifs <;> linarith
        have h4 : (1 / 4 : ℝ) ≤ 1 / √((if i = 0 then 2 else 8) * w i) := one_div_le_one_div_of_le (hvs i) h3
        have h5 : (1 / 4 : ℝ) ≤ if i < k then 1 / √((if i = 0 then 2 else 8) * w i) else if i = 0 then 1 else 1 / 2 := by
          split_ifs at h4 ⊢ <;> first | exact h4 | norm_num
        have h6 : (1 : ℝ) ≤ if i = 0 then 2 * w k else 8 * w k := by
          have := hw k
          split_ifs <;> linarith
        calc (1e-5 : ℝ) ≤ 1 / 4 * 1 := by norm_num
          _ ≤ _ := mul_le_mul h5 h6 zero_le_one (le_trans (by norm_num) h5)
      · have hcov : covSum (fun c => twoLevels c 0) (fun _ => w k)
            = diagonal fun i => ((if i = 0 then 2 * w k else 8 * w k : ℝ) : ℂ) := by
          rw [← twoLevels_cov _ 0]
          ext c d
          simp only [covSum, weightedCov, Matrix.of_apply]
          exact Finset.sum_congr rfl fun n _ => by ring
        have hst : ipStage (1 : Matrix (Fin 2) (Fin 2) ℂ) (diagonal fun i => ((1 / √((if i = 0 then 2 else 8) * w i) : ℝ) : ℂ))
            (fun k => if k = 0 then 1 else 2) k
            = diagonal fun i => ((if i < k then 1 / √((if i = 0 then 2 else 8) * w i) else if i = 0 then 1 else 1 / 2 : ℝ) : ℂ) := by
          ext i j
          fin_cases k <;> fin_cases i <;> fin_cases j <;> simp [ipStage]
        rw [hcov, hst, diagonal_mul_diagonal]
        simp only [Complex.ofReal_mul]
  · simp only [hwt2, hY2, norm_mul, twoLevels_norm, Complex.norm_real, Real.norm_eq_abs, mul_pow, sq_abs, Fin.sum_univ_two, div_pow, hv2]
    have : w k ≠ 0 := by have := hw k; linarith
    split_ifs <;> field_simp <;> norm_num
  · have h2 := congrFun (congrFun (congrFun h 1) 0) 0
    rw [hY2, hoY] at h2
    have h3 := congrArg norm h2
    rw [norm_mul, twoLevels_norm, Complex.norm_real] at h3
    have h4 := hvs 1
    have h5 := hv2 1
    simp only [one_ne_zero, if_false, Real.norm_eq_abs] at h3 h4 h5
    rw [abs_of_pos (by positivity)] at h3
    have : √(8 * w 1) = 1 := by field_simp at h3; linarith
    rw [this] at h5
    linarith

/-- Non-vacuity of `auxiva_laplace_bound` (C149): the first iteration on two orthogonal channels with different levels, with `κ = 4`
and `μ = 1`. -/
example : ∃ (o o' : IpOut Unit 2 1 2) (W' : Fin 1 → Matrix (Fin 2) (Fin 2) ℂ),
    auxivaForward ⟨0, none, 1e-5⟩ (some 2) twoLevels (laplaceModel 1e-5) id () = .ok ⟨2, o⟩ ∧
    auxivaForward ⟨1, none, 1e-5⟩ (some 2) twoLevels (laplaceModel 1e-5) id () = .ok ⟨2, o'⟩ ∧
    (4 : ℝ) * (1e-5 / (1 + 1e-5)) ^ 2 < 1 ∧
    (∀ k f n, o.Y k f n = ∑ c, (1 : Matrix (Fin 2) (Fin 2) ℂ) k c * twoLevels c f n) ∧
    (∀ k f n, o'.Y k f n = ∑ c, W' f k c * twoLevels c f n) ∧
    IpRegular twoLevels (fun k _ n => 1 / max (2 * √(framePower (o.Y k) n)) 1e-5) o.Y o'.Y (fun _ => 1) W' 1e-5 4 1 ∧
    (∀ k n, (1e-5 : ℝ) ≤ 2 * √(framePower (o.Y k) n)) ∧ o'.Y ≠ o.Y := by
  have hsq : ∀ k n, √(framePower (twoLevels k) n) = if k = 0 then 1 else 2 := fun k n => by
    simp only [framePower, Fin.sum_univ_one, twoLevels_norm]
    rw [Real.sqrt_sq (by split_ifs <;> norm_num)]
  have hwe : (laplaceModel 1e-5 2 () twoLevels).1 = fun k _ n => 1 / max (2 * √(framePower (twoLevels k) n)) 1e-5 := by
    funext k f n
    simp only [laplaceModel, laplaceForward, clampMin, magSq_eq, framePower]
  obtain ⟨o, o', W', h0, h1, hoY, -, -, hY', hr, -, hne⟩ := twoLevels_step (laplaceModel 1e-5)
    (fun s ms Y k f n => Demo.laplace_nonneg s ms Y k f n) id () (fun k => if k = 0 then 1 / 2 else 1)
    (fun k => by split_ifs <;> norm_num) (fun k => by split_ifs <;> norm_num) (fun k f n => by
      rw [id, hwe]
      simp only [hsq]
      rw [max_eq_left] <;> split_ifs <;> norm_num)
  exact ⟨o, o', W', h0, h1, by norm_num, fun k f n => by rw [hoY]; exact twoLevels_one k f n, hY', by rw [hoY, ← hwe]; exact hr,
    fun k n => by rw [hoY, hsq]; split_ifs <;> norm_num, hne⟩

/-- **C149 (Gauss).**  The same with `GaussModel`. -/
theorem auxiva_gauss_bound (p : IpParams) (he : 0 < p.eps) (hp : p.projBackMic = none) (hF : 0 < F) (hN : 0 < N) (X : Sig C F N)
    (e : ℝ) (hee : 0 < e) (reset : Unit → Unit) (o o' : IpOut Unit C F N)
    (h : auxivaForward p (some C) X (gaussModel e) reset () = .ok ⟨C, o⟩)
    (h' : auxivaForward { p with nIter := p.nIter + 1 } (some C) X (gaussModel e) reset () = .ok ⟨C, o'⟩)
    {κ μ : ℝ} (hμ : 0 < μ) (hδ : κ * (p.eps / (μ + p.eps)) ^ 2 < 1) (W W' : Fin F → Matrix (Fin C) (Fin C) ℂ)
    (hY : ∀ k f n, o.Y k f n = ∑ c, W f k c * X c f n) (hY' : ∀ k f n, o'.Y k f n = ∑ c, W' f k c * X c f n)
    (hdet : ∀ f, (W f).det ≠ 0)
    (hr : IpRegular X (fun k _ n => 1 / max (framePower (o.Y k) n / F) e) o.Y o'.Y W W' p.eps κ μ)
    (hloud : ∀ k n, F * e ≤ framePower (o.Y k) n) (hpos : ∀ k n, 0 < framePower (o'.Y k) n) :
    (∀ f, (W' f).det ≠ 0) ∧
      gaussLoss o'.Y + logdetTerm W'
        ≤ gaussLoss o.Y + logdetTerm W - F * C * Real.log (1 - κ * (p.eps / (μ + p.eps)) ^ 2) := by
  have hwe : (gaussModel e C o.ms o.Y).1 = fun k _ n => 1 / max (framePower (o.Y k) n / F) e := by
    funext k f n
    simp only [gaussModel, gaussForward, clampMin, magSq_eq, framePower]
  have hmod : ∀ k f n, 0 ≤ (gaussModel e C o.ms o.Y).1 k f n := fun k f n => by
    have : 0 < max (framePower (o.Y k) n / F) e := lt_of_lt_of_le hee (le_max_right _ _)
    rw [hwe]
    positivity
  obtain ⟨hdet', -, -, hfree⟩ := ip_free p he hp hF hN X (gaussModel e) reset () o o' h h' (fun _ => True) trivial
    (fun _ _ _ => trivial) (fun _ => hmod) hμ hδ W W' hY hY' hdet (by rw [hwe]; exact hr)
  refine ⟨hdet', ?_⟩
  have h1δ : 0 < 1 - κ * (p.eps / (μ + p.eps)) ^ 2 := by linarith
  have := gauss_log e hee hN o.Y o'.Y hpos _ _
    (fun f => mul_pos (Real.sqrt_pos.2 (pow_pos h1δ C)) (norm_pos_iff.2 (hdet f))) (fun f => norm_pos_iff.2 (hdet' f)) hfree
  rw [log_loaded hδ W hdet] at this
  simp only [max_eq_left (hloud _ _)] at this
  unfold logdetTerm
  change gaussLoss o'.Y - _ ≤ gaussLoss o.Y - _ at this
  linarith

/-- Non-vacuity of `auxiva_gauss_bound` (C149): the same signals. -/
example : ∃ (o o' : IpOut Unit 2 1 2) (W' : Fin 1 → Matrix (Fin 2) (Fin 2) ℂ),
    auxivaForward ⟨0, none, 1e-5⟩ (some 2) twoLevels (gaussModel 1e-5) id () = .ok ⟨2, o⟩ ∧
    auxivaForward ⟨1, none, 1e-5⟩ (some 2) twoLevels (gaussModel 1e-5) id () = .ok ⟨2, o'⟩ ∧
    (∀ k f n, o.Y k f n = ∑ c, (1 : Matrix (Fin 2) (Fin 2) ℂ) k c * twoLevels c f n) ∧
    (∀ k f n, o'.Y k f n = ∑ c, W' f k c * twoLevels c f n) ∧
    IpRegular twoLevels (fun k _ n => 1 / max (framePower (o.Y k) n / (1 : ℕ)) 1e-5) o.Y o'.Y (fun _ => 1) W' 1e-5 4 1 ∧
    (∀ k n, (1 : ℕ) * (1e-5 : ℝ) ≤ framePower (o.Y k) n) ∧ (∀ k n, 0 < framePower (o'.Y k) n) ∧ o'.Y ≠ o.Y := by
  have hp : ∀ k n, framePower (twoLevels k) n = (if k = 0 then 1 else 2) ^ 2 := fun k n => by
    simp only [framePower, Fin.sum_univ_one, twoLevels_norm]
  have hwe : (gaussModel 1e-5 2 () twoLevels).1 = fun k _ n => 1 / max (framePower (twoLevels k) n / (1 : ℕ)) 1e-5 := by
    funext k f n
    simp only [gaussModel, gaussForward, clampMin, magSq_eq, framePower]
  obtain ⟨o, o', W', h0, h1, hoY, -, -, hY', hr, hval, hne⟩ := twoLevels_step (gaussModel 1e-5) (fun s ms Y k f n => by
      have : (0 : ℝ) < max ((∑ f, magSq (Y k f n)) / (1 : ℕ)) 1e-5 := lt_of_lt_of_le (by norm_num) (le_max_right _ _)
      simp only [gaussModel, gaussForward, clampMin]
      positivity) id () (fun _ => 1) (fun _ => by norm_num) (fun _ => by norm_num) (fun k f n => by
      rw [id, hwe]
      simp only [hp]
      rw [max_eq_left] <;> split_ifs <;> norm_num)
  refine ⟨o, o', W', h0, h1, fun k f n => by rw [hoY]; exact twoLevels_one k f n, hY', by rw [hoY, ← hwe]; exact hr, fun k n => ?_,
    fun k n => ?_, hne⟩
  · rw [hoY, hp]; split_ifs <;> norm_num
  · simp only [framePower, Fin.sum_univ_one, hval, norm_mul, twoLevels_norm, Complex.norm_real, Real.norm_eq_abs]
    have : (0 : ℝ) < 1 / √((if k = 0 then 2 else 8) * 1) := one_div_pos.2 (Real.sqrt_pos.2 (by split_ifs <;> norm_num))
    split_ifs at this ⊢ <;> positivity

/-- **C149 (NMF).**  The same with `NMFModel` (ILRMA): if no floor of the source model was active in the call of the additional
iteration, the negative log-likelihood of the separated signals and the low-rank variances the source model keeps, minimised over
the scale of the sources, increases by at most the same bound. -/
theorem auxiva_nmf_bound (p : IpParams) (he : 0 < p.eps) (hp : p.projBackMic = none) (hF : 0 < F) (hN : 0 < N) (X : Sig C F N)
    {e : ℝ} (hee : 0 < e) (m : NmfItem C F N K) (hT : ∀ c f k, 0 ≤ m.uT c f k) (hV : ∀ c n k, 0 ≤ m.uV c n k)
    (o o' : IpOut (NmfItem C F N K) C F N)
    (h : auxivaForward p (some C) X (nmfModel e) nmfItemReset m = .ok ⟨C, o⟩)
    (h' : auxivaForward { p with nIter := p.nIter + 1 } (some C) X (nmfModel e) nmfItemReset m = .ok ⟨C, o'⟩)
    {κ μ : ℝ} (hμ : 0 < μ) (hδ : κ * (p.eps / (μ + p.eps)) ^ 2 < 1) (W W' : Fin F → Matrix (Fin C) (Fin C) ℂ)
    (hY : ∀ k f n, o.Y k f n = ∑ c, W f k c * X c f n) (hY' : ∀ k f n, o'.Y k f n = ∑ c, W' f k c * X c f n)
    (hdet : ∀ f, (W f).det ≠ 0)
    (hfl : FloorsInactive e (o.ms.factors e) (o'.ms.factors e))
    (hr : IpRegular X (fun k f n => (lowRank (o'.ms.factors e).T (o'.ms.factors e).V k f n)⁻¹) o.Y o'.Y W W' p.eps κ μ) :
    (∀ f, (W' f).det ≠ 0) ∧
      ilrmaLoss o'.Y (lowRank (o'.ms.factors e).T (o'.ms.factors e).V) + logdetTerm W'
        ≤ ilrmaLoss o.Y (lowRank (o.ms.factors e).T (o.ms.factors e).V) + logdetTerm W
          - F * C * Real.log (1 - κ * (p.eps / (μ + p.eps)) ^ 2) := by
  haveI : NeZero F := ⟨by omega⟩
  haveI : NeZero N := ⟨by omega⟩
  obtain ⟨st, st', hst, e1, e2, e3, e4, -, hg⟩ := ip_runs p hp X (nmfModel e) nmfItemReset m o o' h h'
    (fun m => NmfGood e (m.factors e)) (reset_good m hT hV) (fun m Y hm => step_good hee m Y hm)
  obtain ⟨-, -, hms⟩ := ip_epoch X (nmfModel e) p.eps st st' hst
  rw [← e2] at hg
  rw [← e4, ← e2, ← e1] at hms
  have heq := nmfModel_eq hee o.ms o.Y hg
  set b := nmfHalfV e (fun c f n => magSq (o.Y c f n)) (nmfHalfT e (fun c f n => magSq (o.Y c f n)) (o.ms.factors e)) with hb
  have hb' : o'.ms.factors e = b := by rw [hms, heq]; rfl
  rw [hb'] at hfl hr ⊢
  have hbg : NmfGood e b := nmfHalfV_good hee _ (nmfHalfT_good hee _ hg)
  have rb : ∀ k f n, 0 < lowRank b.T b.V k f n := fun k f n => lt_of_lt_of_le hee (hfl.after k f n)
  have hw : ∀ k f n, b.iR k f n = (lowRank b.T b.V k f n)⁻¹ := fun k f n => by
    rw [hbg.2.2]; exact congrArg _ (max_eq_left (hfl.after k f n))
  have hmod : (nmfModel e C o.ms o.Y).1 = fun k f n => (lowRank b.T b.V k f n)⁻¹ := by
    rw [heq]; funext k f n; exact hw k f n
  obtain ⟨hdet', -, -, hfree⟩ := ip_free p he hp hF hN X (nmfModel e) nmfItemReset m o o' h h' (fun m => NmfGood e (m.factors e))
    (reset_good m hT hV) (fun m Y hm => step_good hee m Y hm)
    (fun _ k f n => by rw [hmod]; exact (inv_pos.2 (rb k f n)).le) hμ hδ W W' hY hY' hdet (by rw [hmod]; exact hr)
  refine ⟨hdet', ?_⟩
  have h1δ : 0 < 1 - κ * (p.eps / (μ + p.eps)) ^ 2 := by linarith
  rw [hmod] at hfree
  simp only [srcEnergy_white _ (lowRank b.T b.V) (fun _ _ _ => rfl)] at hfree
  have hpos : ∀ k, ∃ f n, o'.Y k f n ≠ 0 := by
    intro k
    by_contra hc
    push Not at hc
    have hu := hr.unit k ⟨0, hF⟩
    simp [hc] at hu
  obtain ⟨hE, hl⟩ := log_of_prod (fun k => whitePower (o.Y k) (lowRank b.T b.V k)) _ _ _
    (fun f => mul_pos (Real.sqrt_pos.2 (pow_pos h1δ C)) (norm_pos_iff.2 (hdet f))) (fun f => norm_pos_iff.2 (hdet' f))
    (fun k => div_nonneg (Finset.sum_nonneg fun f _ => Finset.sum_nonneg fun n _ => div_nonneg (by positivity) (rb k f n).le)
      (Nat.cast_nonneg N))
    (fun k => by
      obtain ⟨f, n, hn⟩ := hpos k
      exact whitePower_pos hN _ _ (rb k) f n hn) hF hfree
  rw [log_loaded hδ W hdet] at hl
  have hYnz : ∀ k, ∃ f n, o.Y k f n ≠ 0 := by
    intro k
    by_contra hc
    push Not at hc
    have := hE k
    simp [whitePower, hc] at this
  have hstep := nmf_step_free hee o.Y hg hfl hYnz
  rw [← hb] at hstep
  have e1 : ∀ (Y : Sig C F N) (R : Fin C → Fin F → Fin N → ℝ), ilrmaLoss Y R =
      (∑ k, F * Real.log (whitePower (Y k) (R k))) + ∑ k, (∑ f, ∑ n, Real.log (R k f n)) / N := fun Y R => by
    simp only [ilrmaLoss, Finset.sum_add_distrib]
  rw [e1 o.Y (lowRank b.T b.V)] at hstep
  rw [e1 o'.Y]
  simp only [logdetTerm]
  linarith

/-- Non-vacuity of `auxiva_nmf_bound` (C149): the same signals, the factors are drawn as ones. -/
example : ∃ (m : NmfItem 2 1 2 1) (o o' : IpOut (NmfItem 2 1 2 1) 2 1 2) (W' : Fin 1 → Matrix (Fin 2) (Fin 2) ℂ),
    (∀ c f k, 0 ≤ m.uT c f k) ∧ (∀ c n k, 0 ≤ m.uV c n k) ∧
    auxivaForward ⟨0, none, 1e-5⟩ (some 2) twoLevels (nmfModel 1e-5) nmfItemReset m = .ok ⟨2, o⟩ ∧
    auxivaForward ⟨1, none, 1e-5⟩ (some 2) twoLevels (nmfModel 1e-5) nmfItemReset m = .ok ⟨2, o'⟩ ∧
    (∀ k f n, o.Y k f n = ∑ c, (1 : Matrix (Fin 2) (Fin 2) ℂ) k c * twoLevels c f n) ∧
    (∀ k f n, o'.Y k f n = ∑ c, W' f k c * twoLevels c f n) ∧
    FloorsInactive 1e-5 (o.ms.factors 1e-5) (o'.ms.factors 1e-5) ∧
    IpRegular twoLevels (fun k f n => (lowRank (o'.ms.factors 1e-5).T (o'.ms.factors 1e-5).V k f n)⁻¹) o.Y o'.Y (fun _ => 1) W' 1e-5 4 1 ∧
    o'.Y ≠ o.Y := by
  set m : NmfItem 2 1 2 1 := ⟨fun _ _ _ => 1, fun _ _ _ => 1, none⟩ with hm
  have he : (0 : ℝ) < 1e-5 := by norm_num
  have hrm : nmfItemReset m = m := rfl
  have hg : NmfGood 1e-5 (m.factors 1e-5) := reset_good m (fun _ _ _ => zero_le_one) fun _ _ _ => zero_le_one
  have heq := nmfModel_eq he m twoLevels hg
  have aT : ∀ k f j, (m.factors 1e-5).T k f j = 1 := fun k f j => by norm_num [NmfItem.factors, nmfInit, nmfRecompute, hm]
  have aV : ∀ k n j, (m.factors 1e-5).V k n j = 1 := fun k n j => by norm_num [NmfItem.factors, nmfInit, nmfRecompute, hm]
  set P : Fin 2 → Fin 1 → Fin 2 → ℝ := fun c f n => magSq (twoLevels c f n) with hP
  have hPv : ∀ k f n, P k f n = (if k = 0 then 1 else 2) ^ 2 := fun k f n => by simp only [hP, magSq_eq, twoLevels_norm]
  have hfl := demo_floors hg aT aV P (fun k f n => by rw [hPv]; split_ifs <;> norm_num) (fun k f n => by rw [hPv]; split_ifs <;> norm_num)
  set a := m.factors 1e-5 with ha
  set c := nmfHalfT 1e-5 P a with hc
  set b := nmfHalfV 1e-5 P c with hb
  have hbg : NmfGood 1e-5 b := nmfHalfV_good he _ (nmfHalfT_good he _ hg)
  have hw : ∀ k f n, b.iR k f n = (lowRank b.T b.V k f n)⁻¹ := fun k f n => by
    rw [hbg.2.2]; exact congrArg _ (max_eq_left (hfl.after k f n))
  have iRa : ∀ k f n, a.iR k f n = 1 := fun k f n => by
    rw [hg.2.2]; norm_num [aT, aV]
  have cT : ∀ k f j, c.T k f j = if k = 0 then 1 else 2 := fun k f j => by
    show clampMin (a.T k f j * √((∑ n, P k f n * a.iR k f n ^ 2 * a.V k n j) / ∑ n, a.iR k f n * a.V k n j)) 1e-5 = _
    simp only [clampMin, iRa, aT, aV, hPv, Fin.sum_univ_two, one_mul, one_pow, mul_one]
    rw [show ∀ x : ℝ, (x ^ 2 + x ^ 2) / (1 + 1) = x ^ 2 from fun x => by ring, Real.sqrt_sq (by split_ifs <;> norm_num), max_eq_left]
    split_ifs <;> norm_num
  have cV : ∀ k n j, c.V k n j = 1 := aV
  have iRc : ∀ k f n, c.iR k f n = (if k = 0 then 1 else 2)⁻¹ := fun k f n => by
    rw [(nmfHalfT_good he P hg).2.2]
    congr 1
    rw [Fin.sum_univ_one]
    show max (c.T k f 0 * c.V k n 0) 1e-5 = _
    rw [cT, cV, mul_one, max_eq_left]
    split_ifs <;> norm_num
  have bV : ∀ k n j, b.V k n j = √(if k = 0 then 1 else 2) := fun k n j => by
    show clampMin (c.V k n j * √((∑ f, P k f n * c.iR k f n ^ 2 * c.T k f j) / ∑ f, c.iR k f n * c.T k f j)) 1e-5 = _
    simp only [clampMin, iRc, cT, cV, hPv, Fin.sum_univ_one, one_mul]
    have hq : (if k = 0 then (1 : ℝ) else 2) ≠ 0 := by split_ifs <;> norm_num
    have hq1 : 1 ≤ (if k = 0 then (1 : ℝ) else 2) := by split_ifs <;> norm_num
    rw [show (if k = 0 then (1 : ℝ) else 2) ^ 2 * (if k = 0 then (1 : ℝ) else 2)⁻¹ ^ 2 * (if k = 0 then (1 : ℝ) else 2)
        / ((if k = 0 then (1 : ℝ) else 2)⁻¹ * if k = 0 then (1 : ℝ) else 2) = if k = 0 then 1 else 2 by
      rw [← mul_pow, mul_inv_cancel₀ hq, inv_mul_cancel₀ hq, one_pow, one_mul, div_one]]
    exact max_eq_left (le_trans (by norm_num) (Real.one_le_sqrt.2 hq1))
  have hwt : ∀ k f n, b.iR k f n * (if k = 0 then 1 else 2) ^ 2 = √(if k = 0 then 1 else 2) := fun k f n => by
    rw [hw]
    simp only [lowRank, Fin.sum_univ_one, bV]
    rw [show b.T k f 0 = c.T k f 0 from rfl, cT]
    have hq : 0 < (if k = 0 then (1 : ℝ) else 2) := by split_ifs <;> norm_num
    have hs := Real.sq_sqrt hq.le
    have hs0 := Real.sqrt_pos.2 hq
    rw [inv_mul_eq_iff_eq_mul₀ (by positivity), mul_assoc, ← sq, hs, sq]
  have hmodel : (nmfModel 1e-5 2 (nmfItemReset m) twoLevels).1 = b.iR := by rw [hrm, heq]
  obtain ⟨o, o', W', h0, h1, hoY, hom, hom', hY', hr, -, hne⟩ := twoLevels_step (nmfModel 1e-5)
    (fun s' ms Y k f n => nmfModel_nonneg he s' ms Y k f n) nmfItemReset m (fun k => √(if k = 0 then 1 else 2))
    (fun k => le_trans (by norm_num) (Real.one_le_sqrt.2 (by split_ifs <;> norm_num)))
    (fun k => (Real.sqrt_le_left (by norm_num)).2 (by split_ifs <;> norm_num)) (fun k f n => by rw [hmodel]; exact hwt k f n)
  have hfac : o.ms.factors 1e-5 = a := by rw [hom, hrm]
  have hfac' : o'.ms.factors 1e-5 = b := by rw [hom', hrm, heq]; rfl
  refine ⟨m, o, o', W', fun _ _ _ => zero_le_one, fun _ _ _ => zero_le_one, h0, h1,
    fun k f n => by rw [hoY]; exact twoLevels_one k f n, hY', by rw [hfac, hfac']; exact hfl, ?_, hne⟩
  rw [hfac', hoY]
  have : (fun k f n => (lowRank b.T b.V k f n)⁻¹) = b.iR := by funext k f n; exact (hw k f n).symm
  rw [this, ← hmodel]
  exact hr

/-! ## The objective can increase -/

/-- Two microphones that record almost the same: unit signals whose correlation is `r`. -/
noncomputable def nearTwins (r : ℝ) : Sig 2 1 2 := fun c _ n =>
  if c = 0 then 1 else if n = 0 then ⟨r, √(1 - r ^ 2)⟩ else ⟨r, -√(1 - r ^ 2)⟩

private lemma rowWeight_sq (A : Matrix (Fin 2) (Fin 2) ℂ) (a : Fin 2 → Fin 2 → ℝ) (hA : ∀ i j, A i j = (a i j : ℂ)) {eps : ℝ} (he : 0 < eps)
    (k : Fin 2) : 0 < rowWeight A eps k ^ 2 ∧ rowWeight A eps k ^ 2 * (a k 0 ^ 2 + a k 1 ^ 2) ≤ 1 := by
  have hs : ∑ j, ‖A k j‖ ^ 2 = a k 0 ^ 2 + a k 1 ^ 2 := by
    simp only [Fin.sum_univ_two, hA, Complex.norm_real, Real.norm_eq_abs, sq_abs]
  have hm : 0 < max (√(a k 0 ^ 2 + a k 1 ^ 2)) eps := lt_of_lt_of_le he (le_max_right _ _)
  have hle : a k 0 ^ 2 + a k 1 ^ 2 ≤ max (√(a k 0 ^ 2 + a k 1 ^ 2)) eps ^ 2 := by
    calc _ = √(a k 0 ^ 2 + a k 1 ^ 2) ^ 2 := (Real.sq_sqrt (by positivity)).symm
      _ ≤ _ := pow_le_pow_left₀ (Real.sqrt_nonneg _) (le_max_left _ _) 2
  simp only [rowWeight, clampMin, hs]
  refine ⟨by positivity, ?_⟩
  rw [div_pow, one_pow, div_mul_eq_mul_div, one_mul]
  exact (div_le_one (by positivity)).2 hle

/-- A new demixing row for a real `2 × 2` system, up to a positive factor. -/
private lemma new_row_two (W V : Matrix (Fin 2) (Fin 2) ℂ) (a : Fin 2 → Fin 2 → ℝ) (hA : ∀ i j, (W * V) i j = (a i j : ℂ)) {eps : ℝ}
    (he : 0 < eps) :
    ∃ P Q : ℝ, 0 < P ∧ 0 < Q ∧ P * (a 0 0 ^ 2 + a 0 1 ^ 2) ≤ 1 ∧ Q * (a 1 0 ^ 2 + a 1 1 ^ 2) ≤ 1 ∧
      (∃ τ : ℝ, 0 < τ ∧ ipNewRow le_rfl W none V 0 eps = .ok fun c => ((τ *
        (if c = 0 then Q * a 1 1 * (a 0 0 * a 1 1 - a 0 1 * a 1 0) + eps * a 0 0
          else -Q * a 1 0 * (a 0 0 * a 1 1 - a 0 1 * a 1 0) + eps * a 0 1) : ℝ) : ℂ)) ∧
      ∃ τ : ℝ, 0 < τ ∧ ipNewRow le_rfl W none V 1 eps = .ok fun c => ((τ *
        (if c = 0 then -P * a 0 1 * (a 0 0 * a 1 1 - a 0 1 * a 1 0) + eps * a 1 0
          else P * a 0 0 * (a 0 0 * a 1 1 - a 0 1 * a 1 0) + eps * a 1 1) : ℝ) : ℂ) := by
  have hst : stackWV le_rfl W none V = W * V := by
    ext i j
    simp only [stackWV, Matrix.of_apply, dif_pos i.2]
  set A := W * V with hAd
  obtain ⟨hP, hP1⟩ := rowWeight_sq A a hA he 0
  obtain ⟨hQ, hQ1⟩ := rowWeight_sq A a hA he 1
  set P := rowWeight A eps 0 ^ 2 with hPd
  set Q := rowWeight A eps 1 ^ 2 with hQd
  set D : ℝ := (P * a 0 0 ^ 2 + Q * a 1 0 ^ 2 + eps) * (P * a 0 1 ^ 2 + Q * a 1 1 ^ 2 + eps)
    - (P * a 0 0 * a 0 1 + Q * a 1 0 * a 1 1) ^ 2 with hD
  have hD0 : 0 < D := by
    have : D = P * Q * (a 0 0 * a 1 1 - a 0 1 * a 1 0) ^ 2 + eps * (P * a 0 0 ^ 2 + Q * a 1 0 ^ 2)
        + eps * (P * a 0 1 ^ 2 + Q * a 1 1 ^ 2) + eps ^ 2 := by rw [hD]; ring
    rw [this]; positivity
  have key : ∀ k : Fin 2, ∃ x, solveLoadedGeneral A (Matrix.of fun (i : Fin 2) (_ : Fin 1) => if i.1 = k.1 then (1 : ℂ) else 0) eps eps
      = .ok x ∧ ∀ c : Fin 2, (D : ℂ) * x c 0 = ((rowWeight A eps k ^ 2 *
        (if c = 0 then a k 0 * (P * a 0 1 ^ 2 + Q * a 1 1 ^ 2 + eps) - a k 1 * (P * a 0 0 * a 0 1 + Q * a 1 0 * a 1 1)
          else a k 1 * (P * a 0 0 ^ 2 + Q * a 1 0 ^ 2 + eps) - a k 0 * (P * a 0 0 * a 0 1 + Q * a 1 0 * a 1 1)) : ℝ) : ℂ) := by
    intro k
    obtain ⟨x, hx, hn⟩ := solveLoadedGeneral_normal A
      (Matrix.of fun (i : Fin 2) (_ : Fin 1) => if i.1 = k.1 then (1 : ℂ) else 0) eps he
    refine ⟨x, hx, ?_⟩
    have h0 := hn 0 0
    have h1 := hn 0 1
    have hPc : (rowWeight A eps 0 : ℂ) ^ 2 = (P : ℂ) := by rw [hPd]; push_cast; rfl
    have hQc : (rowWeight A eps 1 : ℂ) ^ 2 = (Q : ℂ) := by rw [hQd]; push_cast; rfl
    simp only [Fin.sum_univ_two, mulVec, dotProduct, hA, Matrix.of_apply, hPc, hQc, Complex.star_def, Complex.conj_ofReal] at h0 h1
    intro c
    rw [hD]
    fin_cases k <;> fin_cases c <;> simp at h0 h1 ⊢ <;> simp only [hPc, hQc] <;>
      [linear_combination (P * a 0 1 ^ 2 + Q * a 1 1 ^ 2 + eps : ℂ) * h0 - (P * a 0 0 * a 0 1 + Q * a 1 0 * a 1 1 : ℂ) * h1;
       linear_combination (P * a 0 0 ^ 2 + Q * a 1 0 ^ 2 + eps : ℂ) * h1 - (P * a 0 0 * a 0 1 + Q * a 1 0 * a 1 1 : ℂ) * h0;
       linear_combination (P * a 0 1 ^ 2 + Q * a 1 1 ^ 2 + eps : ℂ) * h0 - (P * a 0 0 * a 0 1 + Q * a 1 0 * a 1 1 : ℂ) * h1;
       linear_combination (P * a 0 0 ^ 2 + Q * a 1 0 ^ 2 + eps : ℂ) * h1 - (P * a 0 0 * a 0 1 + Q * a 1 0 * a 1 1 : ℂ) * h0]
  have hrow : ∀ k : Fin 2, ∃ τ : ℝ, 0 < τ ∧ ipNewRow le_rfl W none V k eps = .ok fun c => ((τ *
        (if c = 0 then a k 0 * (P * a 0 1 ^ 2 + Q * a 1 1 ^ 2 + eps) - a k 1 * (P * a 0 0 * a 0 1 + Q * a 1 0 * a 1 1)
          else a k 1 * (P * a 0 0 ^ 2 + Q * a 1 0 ^ 2 + eps) - a k 0 * (P * a 0 0 * a 0 1 + Q * a 1 0 * a 1 1)) : ℝ) : ℂ) := by
    intro k
    obtain ⟨x, hx, hxv⟩ := key k
    have hDc : (D : ℂ) ≠ 0 := by exact_mod_cast hD0.ne'
    have hx' : ∀ c, x c 0 = ((rowWeight A eps k ^ 2 / D *
        (if c = 0 then a k 0 * (P * a 0 1 ^ 2 + Q * a 1 1 ^ 2 + eps) - a k 1 * (P * a 0 0 * a 0 1 + Q * a 1 0 * a 1 1)
          else a k 1 * (P * a 0 0 ^ 2 + Q * a 1 0 ^ 2 + eps) - a k 0 * (P * a 0 0 * a 0 1 + Q * a 1 0 * a 1 1)) : ℝ) : ℂ) := fun c => by
      have := hxv c
      rw [mul_comm, ← eq_div_iff hDc] at this
      rw [this, ← Complex.ofReal_div]
      congr 1
      ring
    unfold ipNewRow
    rw [hst]
    simp only [hx, bind, Except.bind, pure, Except.pure]
    set S : ℝ := √(clampMin (∑ c, ∑ d, star (x c 0) * star (star (x d 0)) * V c d).re eps) with hS
    have hS0 : 0 < S := Real.sqrt_pos.2 (lt_of_lt_of_le he (le_max_right _ _))
    refine ⟨rowWeight A eps k ^ 2 / D / S, div_pos (div_pos (rowWeight_sq A a hA he k).1 hD0) hS0, ?_⟩
    congr 1
    funext c
    rw [hx', Complex.star_def, Complex.conj_ofReal, ← Complex.ofReal_div]
    congr 1
    ring
  refine ⟨P, Q, hP, hQ, hP1, hQ1, ?_, ?_⟩
  · obtain ⟨τ, hτ, h⟩ := hrow 0
    refine ⟨τ, hτ, h.trans ?_⟩
    congr 1
    funext c
    congr 2
    split_ifs <;> ring
  · obtain ⟨τ, hτ, h⟩ := hrow 1
    refine ⟨τ, hτ, h.trans ?_⟩
    congr 1
    funext c
    congr 2
    split_ifs <;> ring

private lemma twins_row0 {r eps σ v τ Q : ℝ} (hr : 0 < r) (hr1 : r < 1) (hre : 1 - r ^ 2 < eps * r) (he : 0 < eps) (hσ : 0 < σ) (hv : 0 < v)
    (hτ : 0 < τ) (hQ : 0 < Q) (hQ1 : Q * ((σ * v * r) ^ 2 + (σ * v * 1) ^ 2) ≤ 1) :
    0 < τ * (Q * (σ * v * 1) * (σ * v * 1 * (σ * v * 1) - σ * v * r * (σ * v * r)) + eps * (σ * v * 1)) ∧
    0 < τ * (-Q * (σ * v * r) * (σ * v * 1 * (σ * v * 1) - σ * v * r * (σ * v * r)) + eps * (σ * v * r)) ∧
    τ * (-Q * (σ * v * r) * (σ * v * 1 * (σ * v * 1) - σ * v * r * (σ * v * r)) + eps * (σ * v * r))
      ≤ r * (τ * (Q * (σ * v * 1) * (σ * v * 1 * (σ * v * 1) - σ * v * r * (σ * v * r)) + eps * (σ * v * 1))) := by
  have hr2 : 0 < 1 - r ^ 2 := by nlinarith
  have hre1 : 1 - r ^ 2 < eps := by nlinarith
  set α : ℝ := τ * (Q * (σ * v * 1) * (σ * v * 1 * (σ * v * 1) - σ * v * r * (σ * v * r)) + eps * (σ * v * 1)) with hα
  set β : ℝ := τ * (-Q * (σ * v * r) * (σ * v * 1 * (σ * v * 1) - σ * v * r * (σ * v * r)) + eps * (σ * v * r)) with hβ
  set z : ℝ := Q * (σ * v) ^ 2 with hz
  have hσv : 0 < σ * v := mul_pos hσ hv
  have hz0 : 0 < z := by positivity
  have hz1 : z * (1 + r ^ 2) ≤ 1 := by rw [hz]; nlinarith
  have hzr : z * (1 - r ^ 2) < eps := by nlinarith
  have hα' : α = τ * (σ * v) * (z * (1 - r ^ 2) + eps) := by rw [hα, hz]; ring
  have hβ' : β = τ * (σ * v) * r * (eps - z * (1 - r ^ 2)) := by rw [hβ, hz]; ring
  have hα0 : 0 < α := by rw [hα']; positivity
  have hβ0 : 0 < β := by
    rw [hβ']; have : 0 < eps - z * (1 - r ^ 2) := by linarith
    positivity
  have hβα : β ≤ r * α := by
    have : r * α - β = τ * (σ * v) * r * (2 * (z * (1 - r ^ 2))) := by rw [hα', hβ']; ring
    have : 0 ≤ r * α - β := by rw [this]; positivity
    linarith
  exact ⟨hα0, hβ0, hβα⟩

private lemma twins_row1 {r eps σ v τ' P' α β : ℝ} (hr : 0 < r) (hr1 : r < 1) (hre : 1 - r ^ 2 < eps * r) (he : 0 < eps) (hσ : 0 < σ)
    (hv : 0 < v) (hτ' : 0 < τ') (hP' : 0 < P') (hα0 : 0 < α) (hβ0 : 0 < β) (hβα : β ≤ r * α)
    (hP1' : P' * ((v * (α + r * β)) ^ 2 + (v * (r * α + β)) ^ 2) ≤ 1) :
    0 < τ' * (-P' * (v * (r * α + β)) * (v * (α + r * β) * (v * σ) - v * (r * α + β) * (v * (σ * r))) + eps * (v * (σ * r))) ∧
    0 < τ' * (P' * (v * (α + r * β)) * (v * (α + r * β) * (v * σ) - v * (r * α + β) * (v * (σ * r))) + eps * (v * σ)) ∧
    0 < α * (τ' * (P' * (v * (α + r * β)) * (v * (α + r * β) * (v * σ) - v * (r * α + β) * (v * (σ * r))) + eps * (v * σ)))
      - β * (τ' * (-P' * (v * (r * α + β)) * (v * (α + r * β) * (v * σ) - v * (r * α + β) * (v * (σ * r))) + eps * (v * (σ * r)))) := by
  have hr2 : 0 < 1 - r ^ 2 := by nlinarith
  set Δ : ℝ := v * (α + r * β) * (v * σ) - v * (r * α + β) * (v * (σ * r)) with hΔ
  have hΔ' : Δ = v ^ 2 * σ * α * (1 - r ^ 2) := by rw [hΔ]; ring
  have hΔ0 : 0 < Δ := by rw [hΔ']; positivity
  set p : ℝ := τ' * (-P' * (v * (r * α + β)) * Δ + eps * (v * (σ * r))) with hp
  set q : ℝ := τ' * (P' * (v * (α + r * β)) * Δ + eps * (v * σ)) with hq
  have hp0 : 0 < p := by
    have h2 : P' * v ^ 2 * ((r * α + β) * α) ≤ 1 := by
      have h3 : (r * α + β) * α ≤ (α + r * β) ^ 2 + (r * α + β) ^ 2 := by
        have hB : 0 < r * α + β := by positivity
        have hAα : α ≤ α + r * β := by have := mul_pos hr hβ0; linarith
        calc (r * α + β) * α ≤ (r * α + β) * (α + r * β) := mul_le_mul_of_nonneg_left hAα hB.le
          _ ≤ _ := by nlinarith [sq_nonneg ((α + r * β) - (r * α + β)), sq_nonneg (α + r * β), sq_nonneg (r * α + β)]
      calc P' * v ^ 2 * ((r * α + β) * α) ≤ P' * v ^ 2 * ((α + r * β) ^ 2 + (r * α + β) ^ 2) :=
            mul_le_mul_of_nonneg_left h3 (by positivity)
        _ = P' * ((v * (α + r * β)) ^ 2 + (v * (r * α + β)) ^ 2) := by ring
        _ ≤ 1 := hP1'
    have h4 : p = τ' * (v * σ) * (eps * r - P' * v ^ 2 * ((r * α + β) * α) * (1 - r ^ 2)) := by rw [hp, hΔ']; ring
    have h5 : 0 < eps * r - P' * v ^ 2 * ((r * α + β) * α) * (1 - r ^ 2) := by
      have := mul_le_of_le_one_left hr2.le h2
      linarith
    rw [h4]; positivity
  have hq0 : 0 < q := by rw [hq]; positivity
  have hdet : 0 < α * q - β * p := by
    have e : α * q - β * p = τ' * (P' * v * Δ * (α * (α + r * β) + β * (r * α + β)) + eps * (v * σ) * (α - r * β)) := by
      rw [hp, hq]; ring
    have : 0 < α - r * β := by
      have h6 := mul_le_mul_of_nonneg_left hβα hr.le
      have h7 : 0 < α * (1 - r ^ 2) := mul_pos hα0 hr2
      nlinarith
    rw [e]; positivity
  exact ⟨hp0, hq0, hdet⟩

/-- Both demixing rows of one sweep over the near twins. -/
private lemma twins_sweep {r eps σ v : ℝ} (hr : 0 < r) (hr1 : r < 1) (hre : 1 - r ^ 2 < eps * r) (he : 0 < eps) (hσ : 0 < σ) (hv : 0 < v)
    (x : Fin 2 → Fin 2 → ℂ) (Cx : Matrix (Fin 2) (Fin 2) ℂ) (w : Fin 2 → Fin 2 → ℝ)
    (hV : ∀ k, weightedCov x (w k) = Matrix.of fun i j => ((v * (if i = j then 1 else r) : ℝ) : ℂ)) (J : _)
    (R : _) (h : ipSweep le_rfl x Cx w eps (List.finRange 2) (Matrix.of fun i j => ((if i = j then σ else 0 : ℝ) : ℂ), J) = .ok R) :
    ∃ α β p q : ℝ, 0 < α ∧ 0 < β ∧ 0 < p ∧ 0 < q ∧ 0 < α * q - β * p ∧
      R.1 = Matrix.of fun i j => ((if i = 0 then if j = 0 then α else β else if j = 0 then p else q : ℝ) : ℂ) := by
  have hfr : List.finRange 2 = [0, 1] := by decide
  rw [hfr] at h
  simp only [ipSweep, ipSrcUpdate, orthogonal_constraint_square, hV, bind, Except.bind, pure, Except.pure] at h
  set V : Matrix (Fin 2) (Fin 2) ℂ := Matrix.of fun i j => ((v * (if i = j then 1 else r) : ℝ) : ℂ) with hVd
  obtain ⟨P, Q, hP, hQ, hP1, hQ1, ⟨τ, hτ, h0⟩, -⟩ := new_row_two (Matrix.of fun i j => ((if i = j then σ else 0 : ℝ) : ℂ)) V
    (fun i j => σ * v * (if i = j then 1 else r)) (fun i j => by
      rw [Matrix.mul_apply, Fin.sum_univ_two, hVd]
      fin_cases i <;> fin_cases j <;> simp <;> ring) he
  rw [h0] at h
  simp only [] at h
  simp only [one_ne_zero, zero_ne_one, if_true, if_false] at hP1 hQ1 h h0
  set α : ℝ := τ * (Q * (σ * v * 1) * (σ * v * 1 * (σ * v * 1) - σ * v * r * (σ * v * r)) + eps * (σ * v * 1)) with hα
  set β : ℝ := τ * (-Q * (σ * v * r) * (σ * v * 1 * (σ * v * 1) - σ * v * r * (σ * v * r)) + eps * (σ * v * r)) with hβ
  obtain ⟨hα0, hβ0, hβα⟩ := twins_row0 hr hr1 hre he hσ hv hτ hQ hQ1
  rw [← hα, ← hβ] at hβα
  rw [← hα] at hα0
  rw [← hβ] at hβ0
  have hu0 : (Matrix.of fun (i j : Fin 2) => ((if i = j then σ else 0 : ℝ) : ℂ)).updateRow 0
      (fun c => ((τ * (if c = 0 then Q * (σ * v * 1) * (σ * v * 1 * (σ * v * 1) - σ * v * r * (σ * v * r)) + eps * (σ * v * 1)
        else -Q * (σ * v * r) * (σ * v * 1 * (σ * v * 1) - σ * v * r * (σ * v * r)) + eps * (σ * v * r)) : ℝ) : ℂ))
      = Matrix.of fun i j => ((if i = 0 then if j = 0 then α else β else if j = 0 then 0 else σ : ℝ) : ℂ) := by
    ext i j
    fin_cases i <;> fin_cases j <;> simp [updateRow_apply, hα, hβ]
  rw [hu0] at h
  obtain ⟨P', Q', hP', hQ', hP1', hQ1', -, ⟨τ', hτ', h1⟩⟩ := new_row_two
    (Matrix.of fun i j => ((if i = 0 then if j = 0 then α else β else if j = 0 then 0 else σ : ℝ) : ℂ)) V
    (fun i j => if i = 0 then if j = 0 then v * (α + r * β) else v * (r * α + β) else if j = 0 then v * (σ * r) else v * σ) (fun i j => by
      rw [Matrix.mul_apply, Fin.sum_univ_two, hVd]
      fin_cases i <;> fin_cases j <;> simp <;> ring) he
  rw [h1] at h
  simp only [one_ne_zero, zero_ne_one, if_true, if_false] at hP1' hQ1' h h1
  set Δ : ℝ := v * (α + r * β) * (v * σ) - v * (r * α + β) * (v * (σ * r)) with hΔ
  set p : ℝ := τ' * (-P' * (v * (r * α + β)) * Δ + eps * (v * (σ * r))) with hp
  set q : ℝ := τ' * (P' * (v * (α + r * β)) * Δ + eps * (v * σ)) with hq
  obtain ⟨hp0, hq0, hdet⟩ := twins_row1 hr hr1 hre he hσ hv hτ' hP' hα0 hβ0 hβα hP1'
  refine ⟨α, β, p, q, hα0, hβ0, hp0, hq0, hdet, ?_⟩
  simp only [Except.ok.injEq] at h
  rw [← h]
  ext i j
  fin_cases i <;> fin_cases j <;> simp [updateRow_apply, hp, hq]

private lemma twins_norm {r : ℝ} (hr : 0 < r) (hr1 : r < 1) (a b : ℝ) (n : Fin 2) :
    ‖(a : ℂ) * nearTwins r 0 0 n + (b : ℂ) * nearTwins r 1 0 n‖ ^ 2 = a ^ 2 + b ^ 2 + 2 * r * (a * b) := by
  have hs : √(1 - r ^ 2) ^ 2 = 1 - r ^ 2 := Real.sq_sqrt (by nlinarith)
  rw [Complex.sq_norm, Complex.normSq_apply]
  fin_cases n <;> simp [nearTwins] <;> nlinarith

private lemma twins_correlation {eps : ℝ} (he : 0 < eps) : ∃ r : ℝ, 0 < r ∧ r < 1 ∧ 1 - r ^ 2 < eps * r := by
  refine ⟨1 / (1 + eps / 4), by positivity, (div_lt_one (by positivity)).2 (by linarith), ?_⟩
  have h1 : (0 : ℝ) < 1 + eps / 4 := by positivity
  rw [div_pow, one_pow, sub_lt_iff_lt_add, mul_one_div, ← sub_lt_iff_lt_add]
  rw [← sub_pos]
  have : eps / (1 + eps / 4) - (1 - 1 / (1 + eps / 4) ^ 2) = (eps * (1 + eps / 4) - ((1 + eps / 4) ^ 2 - 1)) / (1 + eps / 4) ^ 2 := by
    field_simp
  rw [this]
  refine div_pos ?_ (by positivity)
  nlinarith

/-- The first iteration on the near twins, for a source model that gives all frames the same weight. -/
private lemma twins_iteration {r eps c : ℝ} (hr : 0 < r) (hr1 : r < 1) (hre : 1 - r ^ 2 < eps * r) (he : 0 < eps) (hc : 0 < c)
    (model : SourceModel Unit 1 2) (hmod : NonnegModel model) (hM : ∀ k n, (model 2 () (nearTwins r)).1 k 0 n = c) :
    ∃ (o o' : IpOut Unit 2 1 2) (W' : Fin 1 → Matrix (Fin 2) (Fin 2) ℂ) (A B D : ℝ),
      auxivaForward ⟨0, none, eps⟩ (some 2) (nearTwins r) model id () = .ok ⟨2, o⟩ ∧
      auxivaForward ⟨1, none, eps⟩ (some 2) (nearTwins r) model id () = .ok ⟨2, o'⟩ ∧
      (Matrix.of fun c n => nearTwins r c 0 n).det ≠ 0 ∧ o.Y = nearTwins r ∧ (∀ k n, framePower (o.Y k) n = 1) ∧
      (∀ k f n, o'.Y k f n = ∑ c, W' f k c * nearTwins r c f n) ∧ (∀ f, (W' f).det = (D : ℂ)) ∧ 0 < D ∧
      (∀ k n, framePower (o'.Y k) n = if k = 0 then A else B) ∧ 0 < A ∧ 0 < B ∧ 2 * Real.log D < Real.log A + Real.log B := by
  set X := nearTwins r with hX
  obtain ⟨o, o', h0, h1, -, -⟩ := auxiva_output_energy ⟨0, none, eps⟩ he rfl 2 le_rfl X model hmod id ()
  obtain ⟨J0, st', hep, hoY, ho'Y⟩ : ∃ J0 st', ipEpoch le_rfl X model eps ⟨X,
      fun _ => Matrix.of fun (k : Fin 2) (c : Fin 2) => if k.1 = c.1 then (1 : ℂ) else 0, J0, ()⟩ = .ok st' ∧
      o.Y = X ∧ o'.Y = st'.Y := by
    unfold auxivaForward at h0 h1
    simp only [dif_pos (le_refl 2)] at h0 h1
    cases hJ : seqAll (fun f => orthogonalConstraint (Matrix.of fun (k : Fin 2) (c : Fin 2) => if k.1 = c.1 then (1 : ℂ) else 0)
      (inputCov X f) eps) with
    | error e => rw [hJ] at h0; cases h0
    | ok J0 =>
      rw [hJ] at h0 h1
      simp only [bind, Except.bind, iterM, pure, Except.pure, Except.ok.injEq, Sigma.mk.injEq, heq_eq_eq, true_and] at h0 h1
      cases hst : ipEpoch le_rfl X model eps ⟨fun k => X (Fin.castLE le_rfl k),
        fun _ => Matrix.of fun (k : Fin 2) (c : Fin 2) => if k.1 = c.1 then (1 : ℂ) else 0, J0, ()⟩ with
      | error e => simp only [id] at h1; rw [hst] at h1; cases h1
      | ok st' =>
        simp only [id] at h1
        rw [hst] at h1
        simp only [Except.ok.injEq, Sigma.mk.injEq, heq_eq_eq, true_and] at h1
        exact ⟨J0, st', hst, by rw [← h0]; rfl, by rw [← h1]⟩
  have hn1 : ∀ k n, ‖X k 0 n‖ ^ 2 = 1 := fun k n => by
    fin_cases k
    · have := twins_norm hr hr1 1 0 n
      simpa using this
    · have := twins_norm hr hr1 0 1 n
      simpa using this
  have hfp : ∀ k n, framePower (X k) n = 1 := fun k n => by simp only [framePower, Fin.sum_univ_one, hn1]
  set g : ℝ := max 1 eps with hg
  have hg0 : 0 < g := lt_of_lt_of_le one_pos (le_max_left _ _)
  have hgain : ∀ k, sourceGain X eps k = g := fun k => by
    simp only [sourceGain, clampMin, magSq_eq, Fin.sum_univ_one, Fin.sum_univ_two, hn1, hg]
    norm_num
  obtain ⟨hsw, hY', -⟩ := ip_epoch X model eps _ st' hep
  obtain ⟨J, hJ⟩ := hsw 0
  have hwt : (fun (k : Fin 2) (n : Fin 2) => (model 2 () X).1 k 0 n * sourceGain X eps k) = fun _ _ => c * g := by
    funext k n
    rw [hgain, hM]
  set t : ℝ := max (√g) eps with ht
  have ht0 : 0 < t := lt_of_lt_of_le he (le_max_right _ _)
  have hstart : (Matrix.of fun (k c : Fin 2) => (Matrix.of fun (k : Fin 2) (c : Fin 2) => if k.1 = c.1 then (1 : ℂ) else 0) k c
      / (clampMin (√(sourceGain X eps k)) eps : ℝ)) = Matrix.of fun i j => ((if i = j then 1 / t else 0 : ℝ) : ℂ) := by
    ext i j
    rw [Matrix.of_apply, hgain, clampMin, ← ht]
    fin_cases i <;> fin_cases j <;> simp
  have hs : √(1 - r ^ 2) ^ 2 = 1 - r ^ 2 := Real.sq_sqrt (by nlinarith)
  simp only [] at hJ
  rw [hwt, hstart] at hJ
  obtain ⟨α, β, p, q, hα, hβ, hp, hq, hdet, hR⟩ := twins_sweep hr hr1 hre he (one_div_pos.2 ht0) (show 0 < 2 * (c * g) by positivity) (fun c => X c 0) (inputCov X 0)
    (fun _ _ => c * g) (fun k => by
      ext i j
      simp only [weightedCov, Matrix.of_apply, Fin.sum_univ_two]
      fin_cases i <;> fin_cases j <;> apply Complex.ext <;> simp [hX, nearTwins] <;>
        first | linear_combination (2 * (c * g)) * hs | nlinarith) _ _ hJ
  have hWv : ∀ f, st'.W f = Matrix.of fun i j => ((if i = 0 then if j = 0 then α else β else if j = 0 then p else q : ℝ) : ℂ) := fun f => by
    obtain rfl : f = 0 := Subsingleton.elim _ _
    exact hR
  have hWdet : ∀ f, (st'.W f).det = ((α * q - β * p : ℝ) : ℂ) := fun f => by
    rw [hWv, Matrix.det_fin_two]; simp
  have hfp' : ∀ k n, framePower (o'.Y k) n
      = if k = 0 then α ^ 2 + β ^ 2 + 2 * r * (α * β) else p ^ 2 + q ^ 2 + 2 * r * (p * q) := fun k n => by
    rw [ho'Y, hY']
    simp only [framePower, Fin.sum_univ_one, demix, Fin.sum_univ_two, hWv, Matrix.of_apply]
    fin_cases k
    · simpa using twins_norm hr hr1 α β n
    · simpa using twins_norm hr hr1 p q n
  have hA : 0 < α ^ 2 + β ^ 2 + 2 * r * (α * β) := by positivity
  have hB : 0 < p ^ 2 + q ^ 2 + 2 * r * (p * q) := by positivity
  refine ⟨o, o', st'.W, _, _, α * q - β * p, h0, h1, ?_, hoY, fun k n => by rw [hoY, hfp], fun k f n => by rw [ho'Y, hY']; rfl,
    hWdet, hdet, hfp', hA, hB, ?_⟩
  · rw [Matrix.det_fin_two]
    intro hz
    have := congrArg Complex.im hz
    simp [hX, nearTwins] at this
    have h2 : √(1 - r ^ 2) = 0 := by linarith
    rw [h2] at hs
    nlinarith
  · have hgt : (α * q - β * p) ^ 2 < (α ^ 2 + β ^ 2 + 2 * r * (α * β)) * (p ^ 2 + q ^ 2 + 2 * r * (p * q)) := by
      have e1 : (α ^ 2 + β ^ 2 + 2 * r * (α * β)) * (p ^ 2 + q ^ 2 + 2 * r * (p * q)) - (α * q - β * p) ^ 2
          = (α * p + β * q) ^ 2 + 2 * r * (α * β) * (p ^ 2 + q ^ 2) + 2 * r * (p * q) * (α ^ 2 + β ^ 2)
            + 4 * r ^ 2 * (α * β) * (p * q) := by ring
      have e2 : 0 < (α * p + β * q) ^ 2 + 2 * r * (α * β) * (p ^ 2 + q ^ 2) + 2 * r * (p * q) * (α ^ 2 + β ^ 2)
            + 4 * r ^ 2 * (α * β) * (p * q) := by positivity
      linarith
    have hlog := Real.log_lt_log (by positivity) hgt
    rw [Real.log_mul hA.ne' hB.ne', Real.log_pow] at hlog
    exact_mod_cast hlog

/-- **C149 (the objective can increase).**  Whatever the loading `eps` and the floor `e ≤ 2` of `LaplaceModel`, there is a recording
of two microphones, with independent channels and all frames above the floor, for which the first iteration of AuxIVA-IP strictly
increases the objective: two microphones that record almost the same. -/
theorem auxiva_laplace_increase (eps : ℝ) (he : 0 < eps) (e : ℝ) (hee : 0 < e) (he2 : e ≤ 2) :
    ∃ (X : Sig 2 1 2) (o o' : IpOut Unit 2 1 2) (W' : Fin 1 → Matrix (Fin 2) (Fin 2) ℂ),
      auxivaForward ⟨0, none, eps⟩ (some 2) X (laplaceModel e) id () = .ok ⟨2, o⟩ ∧
      auxivaForward ⟨1, none, eps⟩ (some 2) X (laplaceModel e) id () = .ok ⟨2, o'⟩ ∧
      (Matrix.of fun c n => X c 0 n).det ≠ 0 ∧ (∀ k n, e ≤ 2 * √(framePower (o.Y k) n)) ∧
      (∀ k f n, o.Y k f n = ∑ c, (1 : Matrix (Fin 2) (Fin 2) ℂ) k c * X c f n) ∧
      (∀ k f n, o'.Y k f n = ∑ c, W' f k c * X c f n) ∧ (∀ f, (W' f).det ≠ 0) ∧
      laplaceLoss o.Y + logdetTerm (fun _ : Fin 1 => (1 : Matrix (Fin 2) (Fin 2) ℂ)) < laplaceLoss o'.Y + logdetTerm W' := by
  obtain ⟨r, hr, hr1, hre⟩ := twins_correlation he
  have hn1 : ∀ k n, ‖nearTwins r k 0 n‖ ^ 2 = 1 := fun k n => by
    fin_cases k
    · simpa using twins_norm hr hr1 1 0 n
    · simpa using twins_norm hr hr1 0 1 n
  obtain ⟨o, o', W', A, B, D, h0, h1, hX, hoY, hfp, hY', hWdet, hD, hfp', hA, hB, hlog⟩ :=
    twins_iteration hr hr1 hre he (c := 1 / 2) (by norm_num) (laplaceModel e) (fun s ms Y k f n => by
      have : 0 < max (2 * √(∑ f, magSq (Y k f n))) e := lt_of_lt_of_le hee (le_max_right _ _)
      simp only [laplaceModel, laplaceForward, clampMin]
      positivity) (fun k n => by
      simp only [laplaceModel, laplaceForward, clampMin, magSq_eq, Fin.sum_univ_one, hn1, Real.sqrt_one, mul_one]
      rw [max_eq_left he2])
  refine ⟨nearTwins r, o, o', W', h0, h1, hX, fun k n => by rw [hfp, Real.sqrt_one]; linarith, fun k f n => by
    rw [hoY]; simp [Matrix.one_apply], hY', fun f => by rw [hWdet]; exact_mod_cast hD.ne', ?_⟩
  simp only [laplaceLoss, logdetTerm, meanNorm, hfp, hfp', hWdet, Fin.sum_univ_one, Fin.sum_univ_two, Matrix.det_one, norm_one,
    Real.log_one, Real.sqrt_one, one_ne_zero, if_true, if_false, Complex.norm_real, Real.norm_eq_abs, Real.log_abs]
  have half : ∀ y : ℝ, 0 < y → Real.log ((√y + √y) / (2 : ℕ)) = Real.log y / 2 := fun y hy => by
    rw [show (√y + √y) / ((2 : ℕ) : ℝ) = √y by push_cast; ring, Real.log_sqrt hy.le]
  rw [half _ hA, half _ hB]
  norm_num at hlog ⊢
  linarith

/-- **C149 (the objective can increase, `GaussModel`).**  The same for the Gaussian model, whatever its floor `e ≤ 1`. -/
theorem auxiva_gauss_increase (eps : ℝ) (he : 0 < eps) (e : ℝ) (hee : 0 < e) (he2 : e ≤ 1) :
    ∃ (X : Sig 2 1 2) (o o' : IpOut Unit 2 1 2) (W' : Fin 1 → Matrix (Fin 2) (Fin 2) ℂ),
      auxivaForward ⟨0, none, eps⟩ (some 2) X (gaussModel e) id () = .ok ⟨2, o⟩ ∧
      auxivaForward ⟨1, none, eps⟩ (some 2) X (gaussModel e) id () = .ok ⟨2, o'⟩ ∧
      (Matrix.of fun c n => X c 0 n).det ≠ 0 ∧ (∀ k n, e ≤ framePower (o.Y k) n / (1 : ℕ)) ∧
      (∀ k f n, o.Y k f n = ∑ c, (1 : Matrix (Fin 2) (Fin 2) ℂ) k c * X c f n) ∧
      (∀ k f n, o'.Y k f n = ∑ c, W' f k c * X c f n) ∧ (∀ f, (W' f).det ≠ 0) ∧
      gaussLoss o.Y + logdetTerm (fun _ : Fin 1 => (1 : Matrix (Fin 2) (Fin 2) ℂ)) < gaussLoss o'.Y + logdetTerm W' := by
  obtain ⟨r, hr, hr1, hre⟩ := twins_correlation he
  have hn1 : ∀ k n, ‖nearTwins r k 0 n‖ ^ 2 = 1 := fun k n => by
    fin_cases k
    · simpa using twins_norm hr hr1 1 0 n
    · simpa using twins_norm hr hr1 0 1 n
  obtain ⟨o, o', W', A, B, D, h0, h1, hX, hoY, hfp, hY', hWdet, hD, hfp', hA, hB, hlog⟩ :=
    twins_iteration hr hr1 hre he (c := 1) one_pos (gaussModel e) (fun s ms Y k f n => by
      have : 0 < max ((∑ f, magSq (Y k f n)) / (1 : ℕ)) e := lt_of_lt_of_le hee (le_max_right _ _)
      simp only [gaussModel, gaussForward, clampMin]
      positivity) (fun k n => by
      simp only [gaussModel, gaussForward, clampMin, magSq_eq, Fin.sum_univ_one, hn1]
      rw [max_eq_left (by simpa using he2)]
      norm_num)
  refine ⟨nearTwins r, o, o', W', h0, h1, hX, fun k n => by rw [hfp]; simpa using he2, fun k f n => by
    rw [hoY]; simp [Matrix.one_apply], hY', fun f => by rw [hWdet]; exact_mod_cast hD.ne', ?_⟩
  simp only [gaussLoss, logdetTerm, hfp, hfp', hWdet, Fin.sum_univ_one, Fin.sum_univ_two, Matrix.det_one, norm_one,
    Real.log_one, one_ne_zero, if_true, if_false, Complex.norm_real, Real.norm_eq_abs, Real.log_abs]
  norm_num at hlog ⊢
  linarith

/-- Both increases with the defaults of the package. -/
example := And.intro (auxiva_laplace_increase 1e-5 (by norm_num) 1e-5 (by norm_num) (by norm_num))
  (auxiva_gauss_increase 1e-5 (by norm_num) 1e-5 (by norm_num) (by norm_num))

end Torchiva.Props
