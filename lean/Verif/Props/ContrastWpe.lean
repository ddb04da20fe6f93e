import Verif.Props.Wpe
import Verif.Proofs.Contrast

/-!
# The objective of weighted prediction error dereverberation (C95)

With the default weights WPE models each frame, at each frequency, as Gaussian with one variance; the negative
log-likelihood minimised over the variances is the logarithm of the product over the frames of the mean power over the
channels.
-/

namespace Torchiva.Props

open Torchiva Matrix Spec

variable {σ : Type} {C F N T : ℕ}

/-- **C95 (every iteration).**  `Y` after `n` iterations, `Y'` after `n + 1`.  At every frequency the product over the frames of the
powers of `Y'` is at most the product of the (clamped) powers `l` of `Y`, times the `N`-th power of the average of
`power of X / l`. -/
theorem wpe_likelihood_bound [NeZero C] [NeZero T] [NeZero N] (nIter D : ℕ) (eps : ℝ) (he : 0 < eps) (X : Sig C F N)
    (ms : σ) (Y Y' : Sig C F N) (h : wpeForward nIter T D eps X none ms = .ok Y)
    (h' : wpeForward (nIter + 1) T D eps X none ms = .ok Y') (f : Fin F) :
    ∏ n, (∑ c, ‖Y' c f n‖ ^ 2) / C ≤ (∏ n, max ((∑ c, ‖Y c f n‖ ^ 2) / C) eps)
      * ((∑ n, (∑ c, ‖X c f n‖ ^ 2) / C / max ((∑ c, ‖Y c f n‖ ^ 2) / C) eps) / N) ^ N := by
  obtain ⟨st, st', hs, hs', w, hw, -, hf⟩ := wpe_iteration_optimal (T := T) nIter D eps he X
    (none : Option (WpeModel σ C F N)) (fun m h => by cases h) ms
  unfold wpeForward at h h'
  rw [hs] at h
  rw [hs'] at h'
  cases h
  cases h'
  obtain ⟨hw1, κ, hκ⟩ := hw rfl f
  have hen := (hf f).2
  set l : Fin N → ℝ := fun n => max ((∑ c, ‖st.Y c f n‖ ^ 2) / C) eps with hl
  have hl0 : ∀ n, 0 < l n := fun n => lt_of_lt_of_le he (le_max_right _ _)
  have hwn : ∀ n, w f n = κ / l n := fun n => by
    rw [eq_div_iff (hl0 n).ne']; exact hκ n
  have hC : (0 : ℝ) < C := by exact_mod_cast Nat.pos_of_ne_zero (NeZero.ne C)
  have hκ0 : 0 < κ := by
    have h1 : ∑ n, w f n = κ * ∑ n, 1 / l n := by
      rw [Finset.mul_sum]; exact Finset.sum_congr rfl fun n _ => by rw [hwn]; ring
    rw [h1] at hw1
    have h2 : 0 ≤ ∑ n, 1 / l n := Finset.sum_nonneg fun n _ => (one_div_pos.2 (hl0 n)).le
    by_contra hc
    have := mul_nonpos_of_nonpos_of_nonneg (not_lt.1 hc) h2
    linarith
  have hsum : ∀ Z : Sig C F N, ∑ s, ∑ n, w f n * ‖Z s f n‖ ^ 2
      = κ * C * ∑ n, (∑ c, ‖Z c f n‖ ^ 2) / C / l n := by
    intro Z
    rw [Finset.sum_comm, Finset.mul_sum]
    refine Finset.sum_congr rfl fun n _ => ?_
    rw [← Finset.mul_sum, hwn]
    have := (hl0 n).ne'
    field_simp
  have hle : ∑ n, (∑ c, ‖st'.Y c f n‖ ^ 2) / C / l n ≤ ∑ n, (∑ c, ‖X c f n‖ ^ 2) / C / l n := by
    have := Finset.sum_le_sum fun s (_ : s ∈ Finset.univ) => hen s
    rw [hsum, hsum] at this
    exact le_of_mul_le_mul_left this (mul_pos hκ0 hC)
  have hp0 : ∀ n, 0 ≤ (∑ c, ‖st'.Y c f n‖ ^ 2) / C / l n := fun n => by
    have := hl0 n; positivity
  have ham := prod_le_mean_pow (fun n => (∑ c, ‖st'.Y c f n‖ ^ 2) / C / l n) hp0
  have e1 : ∏ n, (∑ c, ‖st'.Y c f n‖ ^ 2) / C
      = (∏ n, l n) * ∏ n, (∑ c, ‖st'.Y c f n‖ ^ 2) / C / l n := by
    rw [← Finset.prod_mul_distrib]
    refine Finset.prod_congr rfl fun n _ => ?_
    rw [mul_div_cancel₀ _ (hl0 n).ne']
  rw [e1]
  refine mul_le_mul_of_nonneg_left (ham.trans ?_) (Finset.prod_nonneg fun n _ => (hl0 n).le)
  refine pow_le_pow_left₀ (div_nonneg (Finset.sum_nonneg fun n _ => hp0 n) (Nat.cast_nonneg _)) ?_ _
  exact div_le_div_of_nonneg_right hle (Nat.cast_nonneg _)

/-- **C95 (first iteration).**  If the frames of the input are above `eps`, one iteration of WPE does not increase the
product over the frames of the power, at any frequency. -/
theorem wpe_likelihood_descent [NeZero C] [NeZero T] [NeZero N] (D : ℕ) (eps : ℝ) (he : 0 < eps) (X : Sig C F N)
    (ms : σ) (Y : Sig C F N) (h : wpeForward 1 T D eps X none ms = .ok Y) (f : Fin F)
    (hloud : ∀ n, eps ≤ (∑ c, ‖X c f n‖ ^ 2) / C) :
    ∏ n, (∑ c, ‖Y c f n‖ ^ 2) / C ≤ ∏ n, (∑ c, ‖X c f n‖ ^ 2) / C := by
  have := wpe_likelihood_bound (T := T) 0 D eps he X ms X Y rfl h f
  simp only [max_eq_left (hloud _)] at this
  have e : ∀ n, (∑ c, ‖X c f n‖ ^ 2) / C / ((∑ c, ‖X c f n‖ ^ 2) / C) = 1 := fun n =>
    div_self (lt_of_lt_of_le he (hloud n)).ne'
  have hN : (N : ℝ) ≠ 0 := by exact_mod_cast NeZero.ne N
  simp only [e, Finset.sum_const, Finset.card_univ, Fintype.card_fin, nsmul_eq_mul, mul_one, div_self hN,
    one_pow] at this
  exact this

/-- Non-vacuity of `wpe_likelihood_descent` and (after `nIter = 0`, where `Y = X`) of `wpe_likelihood_bound`: one channel, four
frames, one tap. -/
example : ∃ (X Y : Sig 1 1 4), wpeForward 1 1 0 1e-5 X (none : Option (WpeModel Unit 1 1 4)) () = .ok Y ∧
    (∀ n, (1e-5 : ℝ) ≤ (∑ c, ‖X c 0 n‖ ^ 2) / (1 : ℕ)) ∧ X 0 0 0 ≠ X 0 0 1 := by
  obtain ⟨Y, hY⟩ := wpe_total (T := 1) 1 0 1e-5 (by norm_num) (fun _ _ n => if n = 0 then 1 else 2 : Sig 1 1 4)
    (none : Option (WpeModel Unit 1 1 4)) (fun m h => by cases h) ()
  refine ⟨_, Y, hY, fun n => ?_, by norm_num⟩
  simp only [Fin.sum_univ_one]
  split_ifs <;> norm_num

/-- **C95 (how much a later iteration can increase the objective).**  `Y` after `n` iterations, `Y'` after `n + 1`, `w` the weights
computed from `Y`, `lam` the diagonal loading in force.  `Y` is what some prediction filters leave of `X`, and for any such filters
`g` the product over the frames of the powers of `Y'` is at most the product of the clamped powers of `Y`, times a factor that differs
from one only by the ridge penalty on `g`. -/
theorem wpe_iteration_increase [NeZero C] [NeZero T] [NeZero N] (nIter D : ℕ) (eps : ℝ) (he : 0 < eps) (X : Sig C F N)
    (ms : σ) (Y Y' : Sig C F N) (h : wpeForward nIter T D eps X none ms = .ok Y)
    (h' : wpeForward (nIter + 1) T D eps X none ms = .ok Y') (f : Fin F) :
    ∃ (w : Fin N → ℝ) (lam : ℝ), IsDefaultWeights eps (fun c => Y c f) w ∧
      IsLoad (pastCov T D w fun c => X c f) eps lam ∧
      (∃ g : Fin C → Fin C × Fin T → ℂ, ∀ s n, Y s f n = predResidual D (fun c => X c f) s (g s) n) ∧
      ∀ g : Fin C → Fin C × Fin T → ℂ, (∀ s n, Y s f n = predResidual D (fun c => X c f) s (g s) n) →
        ∏ n, (∑ c, ‖Y' c f n‖ ^ 2) / C ≤ (∏ n, max ((∑ c, ‖Y c f n‖ ^ 2) / C) eps)
          * (1 + lam * (∑ n, 1 / max ((∑ c, ‖Y c f n‖ ^ 2) / C) eps) * (∑ s, ∑ p, ‖g s p‖ ^ 2) / (N * C)) ^ N := by
  have hfil : ∃ g : Fin C → Fin C × Fin T → ℂ, ∀ s n, Y s f n = predResidual D (fun c => X c f) s (g s) n := by
    cases nIter with
    | zero =>
      have : Y = X := by cases h; rfl
      subst this
      exact ⟨fun _ => 0, fun s n => by simp [predResidual]⟩
    | succ k =>
      obtain ⟨st, st', -, hs', w, -, -, hf⟩ := wpe_iteration_optimal (T := T) k D eps he X
        (none : Option (WpeModel σ C F N)) (fun m h => by cases h) ms
      unfold wpeForward at h
      rw [hs'] at h
      cases h
      obtain ⟨lam, -, hs⟩ := (hf f).1
      choose g hg using hs
      exact ⟨g, fun s n => (hg s).2 n⟩
  obtain ⟨st, st', hs, hs', w, hw, -, hf⟩ := wpe_iteration_optimal (T := T) nIter D eps he X
    (none : Option (WpeModel σ C F N)) (fun m h => by cases h) ms
  unfold wpeForward at h h'
  rw [hs] at h
  rw [hs'] at h'
  cases h
  cases h'
  obtain ⟨lam, hlam, hopt⟩ := (hf f).1
  refine ⟨w f, lam, hw rfl f, hlam, hfil, fun g hg => ?_⟩
  obtain ⟨hw1, κ, hκ⟩ := hw rfl f
  set l : Fin N → ℝ := fun n => max ((∑ c, ‖st.Y c f n‖ ^ 2) / C) eps with hl
  have hl0 : ∀ n, 0 < l n := fun n => lt_of_lt_of_le he (le_max_right _ _)
  have hwn : ∀ n, w f n = κ / l n := fun n => by
    rw [eq_div_iff (hl0 n).ne']; exact hκ n
  have hC : (0 : ℝ) < C := by exact_mod_cast Nat.pos_of_ne_zero (NeZero.ne C)
  have hN : (0 : ℝ) < N := by exact_mod_cast Nat.pos_of_ne_zero (NeZero.ne N)
  have hκ1 : κ * ∑ n, 1 / l n = 1 := by
    refine Eq.trans ?_ hw1
    rw [Finset.mul_sum]; exact Finset.sum_congr rfl fun n _ => by rw [hwn]; ring
  have hL0 : 0 ≤ ∑ n, 1 / l n := Finset.sum_nonneg fun n _ => (one_div_pos.2 (hl0 n)).le
  have hκ0 : 0 < κ := by
    by_contra hc
    have := mul_nonpos_of_nonpos_of_nonneg (not_lt.1 hc) hL0
    linarith
  have hsum : ∀ Z : Sig C F N, ∑ s, ∑ n, w f n * ‖Z s f n‖ ^ 2
      = κ * C * ∑ n, (∑ c, ‖Z c f n‖ ^ 2) / C / l n := by
    intro Z
    rw [Finset.sum_comm, Finset.mul_sum]
    refine Finset.sum_congr rfl fun n _ => ?_
    rw [← Finset.mul_sum, hwn]
    have := (hl0 n).ne'
    field_simp
  have hlam0 : 0 ≤ lam := by
    obtain ⟨m, -, hm⟩ := hlam
    exact he.le.trans (hm ▸ le_max_right _ _)
  have hen : ∀ s, ∑ n, w f n * ‖st'.Y s f n‖ ^ 2 ≤ ∑ n, w f n * ‖st.Y s f n‖ ^ 2 + lam * ∑ p, ‖g s p‖ ^ 2 := fun s => by
    obtain ⟨g', hg', hy⟩ := hopt s
    have h0 := (hg' (g s)).1
    unfold predictionCost at h0
    simp only [← hg, ← hy] at h0
    have h1 : 0 ≤ lam * ∑ p, ‖g' p‖ ^ 2 := mul_nonneg hlam0 (Finset.sum_nonneg fun _ _ => by positivity)
    linarith
  set G : ℝ := ∑ s, ∑ p, ‖g s p‖ ^ 2 with hG
  have hle : κ * C * ∑ n, (∑ c, ‖st'.Y c f n‖ ^ 2) / C / l n
      ≤ κ * C * ∑ n, (∑ c, ‖st.Y c f n‖ ^ 2) / C / l n + lam * G := by
    have := Finset.sum_le_sum fun s (_ : s ∈ Finset.univ) => hen s
    rw [Finset.sum_add_distrib, hsum, hsum, ← Finset.mul_sum] at this
    exact this
  have hone : ∑ n, (∑ c, ‖st.Y c f n‖ ^ 2) / C / l n ≤ N := by
    have : ∀ n ∈ Finset.univ, (∑ c, ‖st.Y c f n‖ ^ 2) / C / l n ≤ 1 := fun n _ =>
      (div_le_one (hl0 n)).2 (le_max_left _ _)
    simpa using Finset.sum_le_sum this
  have hmean : (∑ n, (∑ c, ‖st'.Y c f n‖ ^ 2) / C / l n) / N ≤ 1 + lam * (∑ n, 1 / l n) * G / (N * C) := by
    have h1 : κ * C * ∑ n, (∑ c, ‖st'.Y c f n‖ ^ 2) / C / l n ≤ κ * C * (N + lam * (∑ n, 1 / l n) * G / C) := by
      refine hle.trans ?_
      have e : κ * C * (N + lam * (∑ n, 1 / l n) * G / C) = κ * C * N + (κ * ∑ n, 1 / l n) * (lam * G) := by
        field_simp
      rw [e, hκ1, one_mul]
      exact add_le_add (mul_le_mul_of_nonneg_left hone (mul_pos hκ0 hC).le) le_rfl
    have h2 := le_of_mul_le_mul_left h1 (mul_pos hκ0 hC)
    rw [div_le_iff₀ hN]
    refine h2.trans (le_of_eq ?_)
    field_simp
  have hp0 : ∀ n, 0 ≤ (∑ c, ‖st'.Y c f n‖ ^ 2) / C / l n := fun n => by
    have := hl0 n; positivity
  have ham := prod_le_mean_pow (fun n => (∑ c, ‖st'.Y c f n‖ ^ 2) / C / l n) hp0
  have e1 : ∏ n, (∑ c, ‖st'.Y c f n‖ ^ 2) / C
      = (∏ n, l n) * ∏ n, (∑ c, ‖st'.Y c f n‖ ^ 2) / C / l n := by
    rw [← Finset.prod_mul_distrib]
    refine Finset.prod_congr rfl fun n _ => ?_
    rw [mul_div_cancel₀ _ (hl0 n).ne']
  rw [e1]
  refine mul_le_mul_of_nonneg_left (ham.trans ?_) (Finset.prod_nonneg fun n _ => (hl0 n).le)
  exact pow_le_pow_left₀ (div_nonneg (Finset.sum_nonneg fun n _ => hp0 n) (Nat.cast_nonneg _)) hmean _

/-- Two consecutive iterations to which `wpe_iteration_increase` applies, on two channels. -/
example : ∃ (X Y Y' : Sig 2 1 4), wpeForward 3 2 0 1e-5 X (none : Option (WpeModel Unit 2 1 4)) () = .ok Y ∧
    wpeForward 4 2 0 1e-5 X (none : Option (WpeModel Unit 2 1 4)) () = .ok Y' ∧ X 0 0 0 ≠ X 0 0 1 := by
  obtain ⟨Y, hY⟩ := wpe_total (T := 2) 3 0 1e-5 (by norm_num) (fun c _ n => if n = 0 then 1 else 2 + c : Sig 2 1 4)
    (none : Option (WpeModel Unit 2 1 4)) (fun m h => by cases h) ()
  obtain ⟨Y', hY'⟩ := wpe_total (T := 2) 4 0 1e-5 (by norm_num) (fun c _ n => if n = 0 then 1 else 2 + c : Sig 2 1 4)
    (none : Option (WpeModel Unit 2 1 4)) (fun m h => by cases h) ()
  exact ⟨_, Y, Y', hY, hY', by norm_num⟩

end Torchiva.Props
