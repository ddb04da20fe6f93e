import Verif.Model.Wpe
import Verif.Spec.Wpe
import Verif.Proofs.TIss
import Verif.Props.Linalg
import Verif.Props.Hankel

/-!
# Properties C32-C35: WPE
-/

namespace Torchiva.Props

open Torchiva Matrix Spec
open scoped ComplexOrder

variable {σ : Type} {C F N T : ℕ}

private lemma taps_past (X : Sig C F N) (T D : ℕ) (c : Fin C) (f : Fin F) (t : Fin T) (n : Fin N) :
    delayedTaps X T D c f t n = past (X c f) n (D + T - t) := xbarRow_eq _ _ _ _ _

private lemma derev_residual (X : Sig C F N) (D : ℕ) (H : Fin F → Matrix (Fin C × Fin T) (Fin C) ℂ) (s f n) :
    wpeDerev H X (delayedTaps X T D) s f n = predResidual D (fun c => X c f) s (fun p => H f p s) n := by
  simp only [wpeDerev, predResidual, taps_past]

private lemma acm_psd (w : Fin F → Fin N → ℝ) (f : Fin F) (hw : ∀ n, 0 ≤ w f n) (Xbar : Taps C F T N) :
    (wpeAcm w Xbar f).PosSemidef := by
  have : wpeAcm w Xbar f = (Matrix.of fun (n : Fin N) (p : Fin C × Fin T) => (√(w f n) : ℂ) * star (Xbar p.1 f p.2 n))ᴴ
      * (Matrix.of fun (n : Fin N) (p : Fin C × Fin T) => (√(w f n) : ℂ) * star (Xbar p.1 f p.2 n)) := by
    ext p q
    simp only [wpeAcm, Matrix.of_apply, Matrix.mul_apply, Matrix.conjTranspose_apply, star_mul', star_star]
    refine Finset.sum_congr rfl fun n _ => ?_
    have : ((w f n : ℝ) : ℂ) = (√(w f n) : ℂ) * (√(w f n) : ℂ) := by
      rw [← Complex.ofReal_mul, Real.mul_self_sqrt (hw n)]
    rw [this, Complex.star_def, Complex.conj_ofReal]
    ring
  rw [this]
  exact Matrix.posSemidef_conjTranspose_mul_self _

private lemma filter_spec [NeZero C] [NeZero T] (D : ℕ) (eps : ℝ) (he : 0 < eps) (X : Sig C F N)
    (w : Fin F → Fin N → ℝ) (f : Fin F) (hw : ∀ n, 0 ≤ w f n) :
    ∃ H, solveLoaded (wpeAcm w (delayedTaps X T D) f) (wpeXcv w X (delayedTaps X T D) f) eps = .ok H ∧
      ∃ lam, IsLoad (pastCov T D (w f) fun c => X c f) eps lam ∧
        ∀ s, IsUniqueMin (predictionCost D (w f) lam (fun c => X c f) s) (fun p => H p s) := by
  obtain ⟨m, H, hm, hH, hs⟩ := solve_loaded_psd _ (acm_psd w f hw (delayedTaps X T D))
    (wpeXcv w X (delayedTaps X T D) f) eps he
  set lam : ℝ := max (eps * m) eps with hlam
  have hcov : wpeAcm w (delayedTaps X T D) f = pastCov T D (w f) fun c => X c f := by
    ext p q
    simp only [wpeAcm, pastCov, Matrix.of_apply, taps_past]
  refine ⟨H, hH, lam, ⟨m, hcov ▸ hm, rfl⟩, fun s => ?_⟩
  have hl : 0 < lam := lt_of_lt_of_le he (le_max_right _ _)
  set A : Matrix (Fin N) (Fin C × Fin T) ℂ := Matrix.of fun n p => star (delayedTaps X T D p.1 f p.2 n) with hA
  have hres : ∀ (g : Fin C × Fin T → ℂ) n, (A *ᵥ g) n - star (X s f n)
      = - star (predResidual D (fun c => X c f) s g n) := by
    intro g n
    simp only [predResidual, star_sub, star_sum, star_mul', star_star, hA, mulVec, dotProduct, Matrix.of_apply,
      taps_past]
    rw [Fintype.sum_prod_type, neg_sub]
    congr 1
    exact Finset.sum_congr rfl fun c _ => Finset.sum_congr rfl fun t _ => mul_comm _ _
  have hcost : predictionCost D (w f) lam (fun c => X c f) s
      = ridgeCost (fun n => √(w f n)) A (fun n => star (X s f n)) lam := by
    funext g
    simp only [predictionCost, ridgeCost, hres, norm_neg, norm_star]
    congr 1
    exact Finset.sum_congr rfl fun n _ => by rw [Real.sq_sqrt (hw n)]
  rw [hcost]
  refine ridge_min _ _ _ _ hl _ fun j => ?_
  have h1 := congrFun (congrFun hs j) s
  rw [Matrix.add_mul, Matrix.smul_mul, Matrix.one_mul, Matrix.add_apply, Matrix.smul_apply, smul_eq_mul,
    Matrix.mul_apply] at h1
  simp only [wpeAcm, wpeXcv, Matrix.of_apply] at h1
  have h2 : ∑ n, star (A n j) * (((√(w f n) : ℝ) : ℂ) ^ 2 * ((A *ᵥ fun p => H p s) n - star (X s f n)))
      = (∑ q, (∑ n, (w f n : ℂ) * delayedTaps X T D j.1 f j.2 n * star (delayedTaps X T D q.1 f q.2 n)) * H q s)
        - ∑ n, (w f n : ℂ) * delayedTaps X T D j.1 f j.2 n * star (X s f n) := by
    simp only [Finset.sum_mul]
    rw [Finset.sum_comm, ← Finset.sum_sub_distrib]
    refine Finset.sum_congr rfl fun n _ => ?_
    rw [← Complex.ofReal_pow, Real.sq_sqrt (hw n)]
    simp only [hA, Matrix.of_apply, mulVec, dotProduct, star_star]
    rw [mul_sub, mul_sub, Finset.mul_sum, Finset.mul_sum]
    congr 1
    · exact Finset.sum_congr rfl fun q _ => by ring
    · ring
  rw [h2, ← h1]
  ring

/-- **C35.** For every signal (silence included), at least one frame and `eps > 0`, the default weights are the
positive numbers summing to one over frames that are inversely proportional to the clamped mean power. -/
theorem wpe_default_weights (Y : Sig C F N) (hN : 0 < N) (eps : ℝ) (he : 0 < eps) :
    ∃ w, wpeDefaultWeights Y eps = .ok w ∧
      ∀ f, (∀ n, 0 < w f n) ∧ IsDefaultWeights eps (fun c => Y c f) (w f) := by
  have : Nonempty (Fin N) := ⟨⟨0, hN⟩⟩
  set d : Fin F → Fin N → ℝ := fun f n => clampMin ((∑ c, magSq (Y c f n)) / C) eps with hd
  have hd0 : ∀ f n, 0 < d f n := fun f n => lt_of_lt_of_le he (le_max_right _ _)
  have hw0 : ∀ f n, 0 < 1 / d f n := fun f n => one_div_pos.2 (hd0 f n)
  have hs0 : ∀ f, 0 < ∑ n, 1 / d f n := fun f => Finset.sum_pos (fun n _ => hw0 f n) Finset.univ_nonempty
  refine ⟨fun f n => 1 / d f n / ∑ n, 1 / d f n, ?_, fun f => ⟨fun n => div_pos (hw0 f n) (hs0 f), ?_, ?_⟩⟩
  · unfold wpeDefaultWeights
    rw [if_neg]
    rintro ⟨p, h | h⟩
    · exact (hd0 _ _).ne' h
    · exact (hs0 _).ne' h
  · rw [← Finset.sum_div, div_self (hs0 f).ne']
  · refine ⟨1 / ∑ n, 1 / d f n, fun n => ?_⟩
    have e : max ((∑ c, ‖Y c f n‖ ^ 2) / C) eps = d f n := by
      simp only [hd, clampMin, magSq_eq]
    rw [e]
    have := (hd0 f n).ne'
    field_simp

/-- Silence gets equal weights. -/
example : ∃ w, wpeDefaultWeights (fun _ _ _ => 0 : Sig 2 1 3) 1e-5 = .ok w ∧ ∀ n, 0 < w 0 n :=
  (wpe_default_weights _ (by norm_num) _ (by norm_num)).imp fun _ h => ⟨h.1, fun n => (h.2 0).1 n⟩

private lemma step_form {X : Sig C F N} {Xbar : Taps C F T N} {model : Option (WpeModel σ C F N)} {eps : ℝ}
    {st st' : WpeState σ C F N} (h : wpeStep X Xbar model eps st = .ok st') : ∃ H, st'.Y = wpeDerev H X Xbar := by
  unfold wpeStep at h
  cases model with
  | none =>
    simp only [bind, Except.bind, pure, Except.pure] at h
    split at h
    · cases h
    split at h
    · cases h
    cases h
    exact ⟨_, rfl⟩
  | some m =>
    simp only [bind, Except.bind, pure, Except.pure] at h
    split at h
    · cases h
    cases h
    exact ⟨_, rfl⟩

/-- **C32.** WPE never changes the frames `0 .. n_delay`, for every source model and all parameters. -/
theorem wpe_first_frames (nIter T D : ℕ) (eps : ℝ) (X : Sig C F N) (model : Option (WpeModel σ C F N)) (ms : σ)
    (Y : Sig C F N) (h : wpeForward nIter T D eps X model ms = .ok Y) (c : Fin C) (f : Fin F) (n : Fin N)
    (hn : n.1 ≤ D) : Y c f n = X c f n := by
  unfold wpeForward wpeRun at h
  cases hr : iterM (wpeStep X (delayedTaps X T D) model eps) nIter ⟨X, ms⟩ with
  | error e => rw [hr] at h; cases h
  | ok st =>
    rw [hr] at h
    cases h
    refine iterM_inv (fun st => st.Y c f n = X c f n) _ (fun a a' _ ha => ?_) nIter ⟨X, ms⟩ st rfl hr
    obtain ⟨H, hH⟩ := step_form ha
    rw [hH]
    simp only [wpeDerev, taps_past]
    rw [Finset.sum_eq_zero, sub_zero]
    intro c' _
    refine Finset.sum_eq_zero fun t _ => ?_
    rw [past, if_neg (by have := t.2; omega), mul_zero]

/-- **C32.** Without iterations WPE returns its input. -/
theorem wpe_zero_iterations (T D : ℕ) (eps : ℝ) (X : Sig C F N) (model : Option (WpeModel σ C F N)) (ms : σ) :
    wpeForward 0 T D eps X model ms = .ok X := rfl

/-- The weights of a source model are nonnegative. -/
def NonnegWpe (model : Option (WpeModel σ C F N)) : Prop :=
  ∀ m, model = some m → ∀ ms Y f n, 0 ≤ (m ms Y).1 f n

private lemma step_spec [NeZero C] [NeZero T] [NeZero N] (D : ℕ) (eps : ℝ) (he : 0 < eps) (X : Sig C F N)
    (model : Option (WpeModel σ C F N)) (hm : NonnegWpe model) (st : WpeState σ C F N) :
    ∃ st', wpeStep X (delayedTaps X T D) model eps st = .ok st' ∧ ∃ w : Fin F → Fin N → ℝ,
      (model = none → ∀ f, (∀ n, 0 < w f n) ∧ IsDefaultWeights eps (fun c => st.Y c f) (w f)) ∧
      (∀ m, model = some m → w = (m st.ms st.Y).1 ∧ st'.ms = (m st.ms st.Y).2) ∧ (∀ f n, 0 ≤ w f n) ∧
      ∀ f, ∃ lam, IsLoad (pastCov T D (w f) fun c => X c f) eps lam ∧ ∀ s, ∃ g : Fin C × Fin T → ℂ,
        IsUniqueMin (predictionCost D (w f) lam (fun c => X c f) s) g ∧
        ∀ n, st'.Y s f n = predResidual D (fun c => X c f) s g n := by
  have key : ∀ w : Fin F → Fin N → ℝ, (∀ f n, 0 ≤ w f n) → ∃ H, wpeFilter w X (delayedTaps X T D) eps = .ok H ∧
      ∀ f, ∃ lam, IsLoad (pastCov T D (w f) fun c => X c f) eps lam ∧ ∀ s, ∃ g : Fin C × Fin T → ℂ,
        IsUniqueMin (predictionCost D (w f) lam (fun c => X c f) s) g ∧
        ∀ n, wpeDerev H X (delayedTaps X T D) s f n = predResidual D (fun c => X c f) s g n := by
    intro w hw
    choose H hH hl using fun f => filter_spec (T := T) D eps he X w f (hw f)
    refine ⟨H, seqAll_ok_iff.2 hH, fun f => ?_⟩
    obtain ⟨lam, h1, h2⟩ := hl f
    exact ⟨lam, h1, fun s => ⟨_, h2 s, fun n => derev_residual _ _ _ _ _ _⟩⟩
  cases model with
  | none =>
    obtain ⟨w, hw, hd⟩ := wpe_default_weights st.Y (Nat.pos_of_ne_zero (NeZero.ne N)) eps he
    obtain ⟨H, hH, hf⟩ := key w fun f n => ((hd f).1 n).le
    refine ⟨⟨wpeDerev H X (delayedTaps X T D), st.ms⟩, ?_, w, fun _ => hd, fun m h => (by cases h),
      fun f n => ((hd f).1 n).le, hf⟩
    unfold wpeStep
    simp only [hw, Except.map, bind, Except.bind, hH]
    rfl
  | some m =>
    obtain ⟨H, hH, hf⟩ := key (m st.ms st.Y).1 (hm m rfl st.ms st.Y)
    refine ⟨⟨wpeDerev H X (delayedTaps X T D), (m st.ms st.Y).2⟩, ?_, (m st.ms st.Y).1, fun h => (by cases h),
      fun m' h => (by cases h; exact ⟨rfl, rfl⟩), hm m rfl st.ms st.Y, hf⟩
    unfold wpeStep
    simp only [bind, Except.bind, hH, pure, Except.pure]

/-- **C34.** With at least one channel, tap and frame, `eps > 0` and nonnegative weights, WPE always succeeds. -/
theorem wpe_total [NeZero C] [NeZero T] [NeZero N] (nIter D : ℕ) (eps : ℝ) (he : 0 < eps) (X : Sig C F N)
    (model : Option (WpeModel σ C F N)) (hm : NonnegWpe model) (ms : σ) :
    ∃ Y, wpeForward nIter T D eps X model ms = .ok Y := by
  obtain ⟨st, h, -⟩ := iterM_total (fun _ => True) (wpeStep X (delayedTaps X T D) model eps)
    (fun a _ => by obtain ⟨st', h, -⟩ := step_spec (T := T) D eps he X model hm a; exact ⟨st', h, trivial⟩)
    nIter ⟨X, ms⟩ trivial
  exact ⟨st.Y, by unfold wpeForward wpeRun; rw [h]; rfl⟩

/-- **C34.** With no taps any iteration raises an index error. -/
theorem wpe_no_taps_raises [NeZero F] [NeZero N] (nIter D : ℕ) (eps : ℝ) (he : 0 < eps) (X : Sig C F N)
    (model : Option (WpeModel σ C F N)) (ms : σ) :
    wpeForward (nIter + 1) 0 D eps X model ms = .error .indexError := by
  have h0 : ∀ w : Fin F → Fin N → ℝ, wpeFilter w X (delayedTaps X 0 D) eps = .error .indexError := by
    intro w
    refine seqAll_error fun f => ?_
    unfold solveLoaded maxAbs
    rw [dif_neg]
    · rfl
    · rintro ⟨⟨p⟩, -⟩
      exact p.2.elim0
  unfold wpeForward wpeRun
  rw [iterM]
  unfold wpeStep
  cases model with
  | none =>
    obtain ⟨w, hw, -⟩ := wpe_default_weights X (Nat.pos_of_ne_zero (NeZero.ne N)) eps he
    simp only [bind, Except.bind, pure, Except.pure, hw, Except.map, h0]
  | some m =>
    simp only [bind, Except.bind, pure, Except.pure, h0]
    rfl

/-- One iteration without taps. -/
example : wpeForward 1 0 3 1e-5 (fun _ _ _ => 1 : Sig 2 1 3) (none : Option (WpeModel Unit 2 1 3)) () = .error .indexError :=
  wpe_no_taps_raises 0 3 1e-5 (by norm_num) _ none ()

/-- **C33.** Every iteration of WPE outputs the predResidual of the prediction filter that is the unique minimiser, among
all filters, of the weighted prediction error plus ridge penalty (parameter `eps` times the
larger of one and the largest entry of the covariance of the past), for the weights computed
from the previous estimate.  In particular the weighted energy of the output does not exceed that of the input. -/
theorem wpe_iteration_optimal [NeZero C] [NeZero T] [NeZero N] (nIter D : ℕ) (eps : ℝ) (he : 0 < eps) (X : Sig C F N)
    (model : Option (WpeModel σ C F N)) (hm : NonnegWpe model) (ms : σ) :
    ∃ st st', wpeRun nIter T D eps X model ms = .ok st ∧ wpeRun (nIter + 1) T D eps X model ms = .ok st' ∧
      ∃ w : Fin F → Fin N → ℝ,
        (model = none → ∀ f, IsDefaultWeights eps (fun c => st.Y c f) (w f)) ∧
        (∀ m, model = some m → w = (m st.ms st.Y).1 ∧ st'.ms = (m st.ms st.Y).2) ∧
        ∀ f, (∃ lam, IsLoad (pastCov T D (w f) fun c => X c f) eps lam ∧ ∀ s, ∃ g : Fin C × Fin T → ℂ,
            IsUniqueMin (predictionCost D (w f) lam (fun c => X c f) s) g ∧
            ∀ n, st'.Y s f n = predResidual D (fun c => X c f) s g n) ∧
          ∀ s, ∑ n, w f n * ‖st'.Y s f n‖ ^ 2 ≤ ∑ n, w f n * ‖X s f n‖ ^ 2 := by
  obtain ⟨st, h, -⟩ := iterM_total (fun _ => True) (wpeStep X (delayedTaps X T D) model eps)
    (fun a _ => by obtain ⟨st', h, -⟩ := step_spec (T := T) D eps he X model hm a; exact ⟨st', h, trivial⟩)
    nIter ⟨X, ms⟩ trivial
  obtain ⟨st', h', w, hw1, hw2, hw0, hf⟩ := step_spec (T := T) D eps he X model hm st
  refine ⟨st, st', h, ?_, w, fun hn f => (hw1 hn f).2, hw2, fun f => ⟨hf f, fun s => ?_⟩⟩
  · unfold wpeRun
    rw [iterM_snoc, h]
    exact h'
  · obtain ⟨lam, ⟨m, -, hlm⟩, hs⟩ := hf f
    have hl : eps ≤ lam := hlm ▸ le_max_right _ _
    obtain ⟨g, hg, hy⟩ := hs s
    have h0 := (hg 0).1
    unfold predictionCost at h0
    have hr0 : ∀ n, predResidual D (fun c => X c f) s (0 : Fin C × Fin T → ℂ) n = X s f n := by
      intro n; simp [predResidual]
    simp only [hr0, Pi.zero_apply, norm_zero] at h0
    have h1 : 0 ≤ lam * ∑ p, ‖g p‖ ^ 2 := mul_nonneg (he.le.trans hl) (Finset.sum_nonneg fun _ _ => by positivity)
    simp only [hy]
    have h2 : lam * ∑ _p : Fin C × Fin T, (0 : ℝ) ^ 2 = 0 := by simp
    rw [h2, add_zero] at h0
    linarith

/-- **C17 (WPE).** Silence in, silence out. -/
theorem wpe_silence (nIter T D : ℕ) (eps : ℝ) (model : Option (WpeModel σ C F N)) (ms : σ)
    (Y : Sig C F N) (h : wpeForward nIter T D eps (fun _ _ _ => 0) model ms = .ok Y) : Y = fun _ _ _ => 0 := by
  unfold wpeForward wpeRun at h
  cases hr : iterM (wpeStep (fun _ _ _ => 0) (delayedTaps (fun _ _ _ => 0) T D) model eps) nIter ⟨fun _ _ _ => 0, ms⟩ with
  | error e => rw [hr] at h; cases h
  | ok st =>
    rw [hr] at h
    cases h
    refine iterM_inv (fun st => st.Y = fun _ _ _ => 0) _ (fun a a' _ ha => ?_) nIter ⟨fun _ _ _ => 0, ms⟩ st rfl hr
    obtain ⟨H, hH⟩ := step_form ha
    rw [hH]
    funext c f n
    simp only [wpeDerev, taps_past, past]
    simp

/-- **C75.** With the default weights the output at a frequency depends only on the input at that frequency. -/
theorem wpe_frequencies_independent (nIter T D : ℕ) (eps : ℝ) (X X' : Sig C F N) (f : Fin F)
    (hX : ∀ c n, X c f n = X' c f n) (ms : σ) (Y Y' : Sig C F N)
    (h : wpeForward nIter T D eps X none ms = .ok Y) (h' : wpeForward nIter T D eps X' none ms = .ok Y')
    (c : Fin C) (n : Fin N) : Y c f n = Y' c f n := by
  have hX' : (fun c => X c f) = fun c => X' c f := by funext c n; exact hX c n
  have hXc : ∀ c, X c f = X' c f := fun c => congrFun hX' c
  have hT : ∀ c t n, delayedTaps X T D c f t n = delayedTaps X' T D c f t n := by
    intro c t n; rw [taps_past, taps_past, hXc]
  have step : ∀ a b a' b' : WpeState σ C F N, (∀ c n, a.Y c f n = b.Y c f n) →
      wpeStep X (delayedTaps X T D) none eps a = .ok a' → wpeStep X' (delayedTaps X' T D) none eps b = .ok b' →
      ∀ c n, a'.Y c f n = b'.Y c f n := by
    intro a b a' b' hab ha hb c n
    unfold wpeStep at ha hb
    simp only [bind, Except.bind, pure, Except.pure] at ha hb
    cases hwa : wpeDefaultWeights a.Y eps with
    | error e => rw [hwa] at ha; cases ha
    | ok wa =>
    cases hwb : wpeDefaultWeights b.Y eps with
    | error e => rw [hwb] at hb; cases hb
    | ok wb =>
    rw [hwa] at ha
    rw [hwb] at hb
    simp only [Except.map] at ha hb
    split at ha
    · cases ha
    rename_i Ha hHa
    split at hb
    · cases hb
    rename_i Hb hHb
    cases ha
    cases hb
    have hw : wa f = wb f := by
      unfold wpeDefaultWeights at hwa hwb
      simp only at hwa hwb
      split at hwa
      · cases hwa
      split at hwb
      · cases hwb
      cases hwa
      cases hwb
      funext n
      simp only [hab]
    have h1 := seqAll_ok_iff.1 hHa f
    have h2 := seqAll_ok_iff.1 hHb f
    have e1 : wpeAcm wa (delayedTaps X T D) f = wpeAcm wb (delayedTaps X' T D) f := by
      ext p q; simp only [wpeAcm, Matrix.of_apply, hw, hT]
    have e2 : wpeXcv wa X (delayedTaps X T D) f = wpeXcv wb X' (delayedTaps X' T D) f := by
      ext p q; simp only [wpeXcv, Matrix.of_apply, hw, hT, hX]
    rw [e1, e2, h2] at h1
    have h3 : Hb f = Ha f := by simpa using h1
    simp only [wpeDerev, h3, hT, hX]
  have loop : ∀ m (a b a' b' : WpeState σ C F N), (∀ c n, a.Y c f n = b.Y c f n) →
      iterM (wpeStep X (delayedTaps X T D) none eps) m a = .ok a' →
      iterM (wpeStep X' (delayedTaps X' T D) none eps) m b = .ok b' → ∀ c n, a'.Y c f n = b'.Y c f n := by
    intro m
    induction m with
    | zero => intro a b a' b' hab ha hb; cases ha; cases hb; exact hab
    | succ m ih =>
      intro a b a' b' hab ha hb
      rw [iterM] at ha hb
      cases h1 : wpeStep X (delayedTaps X T D) none eps a with
      | error e => rw [h1] at ha; cases ha
      | ok a1 =>
      cases h2 : wpeStep X' (delayedTaps X' T D) none eps b with
      | error e => rw [h2] at hb; cases hb
      | ok b1 =>
      rw [h1] at ha
      rw [h2] at hb
      exact ih a1 b1 a' b' (step a b a1 b1 hab h1 h2) ha hb
  unfold wpeForward wpeRun at h h'
  cases hr : iterM (wpeStep X (delayedTaps X T D) none eps) nIter ⟨X, ms⟩ with
  | error e => rw [hr] at h; cases h
  | ok st =>
  cases hr' : iterM (wpeStep X' (delayedTaps X' T D) none eps) nIter ⟨X', ms⟩ with
  | error e => rw [hr'] at h'; cases h'
  | ok st' =>
  rw [hr] at h
  rw [hr'] at h'
  cases h
  cases h'
  exact loop nIter _ _ _ _ hX hr hr' c n

/-- The hypotheses of the WPE theorems (`wpe_first_frames`, `wpe_iteration_optimal`, `wpe_silence`, ...) are met, e.g. by the default parameters on any nonempty signal. -/
example (X : Sig 2 3 10) : ∃ Y, wpeForward 3 5 3 1e-5 X (none : Option (WpeModel Unit 2 3 10)) () = .ok Y :=
  wpe_total 3 3 1e-5 (by norm_num) X none (fun m h => by cases h) ()

end Torchiva.Props
