import Verif.Props.Five
import Verif.Proofs.Contrast
import Verif.Model.Models

/-!
# C157: FIVE lowers its objective up to the scales of the frequencies

The projection back changes the level of every frequency after each iteration, so two successive results are compared at the
same levels: the later one is scaled, at each frequency, to the mean power of the earlier one.
-/

namespace Torchiva.Props

open Torchiva Spec

variable {C F N : ℕ} {σ : Type}

/-- One signal is a multiple of a unit-power signal at every frequency, and the other one of a unit-power signal with less
weighted energy. -/
private lemma energy_le {w : Fin N → ℝ} (Y Y' : Fin F → Fin N → ℂ) (hw : ∀ n, 0 ≤ w n)
    (h : ∀ f, ∃ (a b : ℂ) (y y' : Fin N → ℂ), meanPower y = 1 ∧ meanPower y' = 1 ∧ wPower w y' ≤ wPower w y ∧
      (Y f = fun n => a * y n) ∧ Y' f = fun n => b * y' n) :
    ∑ n, w n * ∑ f, meanPower (Y f) / meanPower (Y' f) * ‖Y' f n‖ ^ 2 ≤ ∑ n, w n * ∑ f, ‖Y f n‖ ^ 2 := by
  simp only [Finset.mul_sum]
  rw [Finset.sum_comm, Finset.sum_comm (f := fun n f => w n * ‖Y f n‖ ^ 2)]
  refine Finset.sum_le_sum fun f _ => ?_
  obtain ⟨a, b, y, y', h1, h2, h3, e, e'⟩ := h f
  have hp : ∀ (c : ℂ) (z : Fin N → ℂ), meanPower z = 1 → meanPower (fun n => c * z n) = ‖c‖ ^ 2 := fun c z hz => by
    have : meanPower (fun n => c * z n) = ‖c‖ ^ 2 * meanPower z := by
      simp only [meanPower, norm_mul, mul_pow, ← Finset.mul_sum, mul_div_assoc]
    rw [this, hz, mul_one]
  rw [e, e', hp a y h1, hp b y' h2]
  have hY : ∑ n, w n * ‖a * y n‖ ^ 2 = ‖a‖ ^ 2 * wPower w y := by
    simp only [wPower, Finset.mul_sum, norm_mul, mul_pow]
    exact Finset.sum_congr rfl fun n _ => by ring
  have hY' : ∑ n, w n * (‖a‖ ^ 2 / ‖b‖ ^ 2 * ‖b * y' n‖ ^ 2) = ‖a‖ ^ 2 / ‖b‖ ^ 2 * ‖b‖ ^ 2 * wPower w y' := by
    simp only [wPower, Finset.mul_sum, norm_mul, mul_pow]
    exact Finset.sum_congr rfl fun n _ => by ring
  have hw' : 0 ≤ wPower w y' := Finset.sum_nonneg fun n _ => mul_nonneg (hw n) (sq_nonneg _)
  rw [hY, hY']
  refine le_trans ?_ (mul_le_mul_of_nonneg_left h3 (sq_nonneg _))
  refine mul_le_mul_of_nonneg_right ?_ hw'
  rcases eq_or_ne b 0 with rfl | hb
  · simp
  · rw [div_mul_cancel₀ _ (pow_ne_zero 2 (norm_ne_zero_iff.2 hb))]

/-- Every result of a run is a multiple of a unit-power signal extracted from the recording. -/
private lemma run_unit {x : Fin F → Fin C → Fin N → ℂ} (hx : ∀ f, WellConditioned (x f)) {ref : Fin C}
    {model : σ → (Fin F → Fin N → ℂ) → (Fin F → Fin N → ℝ) × σ} {ms0 : σ} {k : ℕ} {Y : Fin F → Fin N → ℂ} {ms : σ}
    (h : FiveRun x ref model ms0 k Y ms) (f : Fin F) :
    ∃ (a : ℂ) (u : Fin C → ℂ), meanPower (filt u (x f)) = 1 ∧ Y f = fun n => a * filt u (x f) n := by
  cases h with
  | init u hu =>
    refine ⟨_, u f, ?_, rfl⟩
    obtain ⟨v, hv, -, e⟩ := hu f
    have hp : 0 < meanPower (filt v (x f)) := lt_of_lt_of_le (by rw [hv]; norm_num) (hx f v)
    have hs : (0 : ℝ) < √(meanPower (filt v (x f))) := Real.sqrt_pos.2 hp
    have : filt (u f) (x f) = fun n => filt v (x f) n / ((√(meanPower (filt v (x f))) : ℝ) : ℂ) := by
      funext n
      rw [e]
      simp only [filt, star_div₀, Complex.star_def, Complex.conj_ofReal, Finset.sum_div]
      exact Finset.sum_congr rfl fun c _ => by ring
    have h2 : meanPower (fun n => filt v (x f) n / ((√(meanPower (filt v (x f))) : ℝ) : ℂ))
        = meanPower (filt v (x f)) / √(meanPower (filt v (x f))) ^ 2 := by
      simp only [meanPower, norm_div, div_pow, ← Finset.sum_div, Complex.norm_real, Real.norm_eq_abs, sq_abs]
      ring
    rw [this, h2, Real.sq_sqrt hp.le, div_self hp.ne']
  | step k Y ms u h hu => exact ⟨_, u f, (hu f).1, rfl⟩

/-- The comparison of two successive results with the weights computed from the earlier one. -/
private lemma five_energy [NeZero C] (hC : C ≠ 2) (solver) (hc : EighContract C solver) (nIter : ℕ) (ref : Fin C)
    (X : Sig C (F + 1) N) (hX : ∀ f : Fin F, WellConditioned fun c => X c f.succ)
    (model : SourceModel Unit F N) (reset : Unit → Unit) (Y Y' : Sig 1 (F + 1) N)
    (h : fiveForward solver nIter ref none X model reset () = .ok Y)
    (h' : fiveForward solver (nIter + 1) ref none X model reset () = .ok Y') (w : Fin N → ℝ) (hw : ∀ n, 0 ≤ w n)
    (hm : ∀ f, (model 1 () fun _ f n => Y 0 f.succ n).1 0 f = w) :
    ∑ n, w n * ∑ f, meanPower (Y 0 f) / meanPower (Y' 0 f) * ‖Y' 0 f n‖ ^ 2 ≤ ∑ n, w n * ∑ f, ‖Y 0 f n‖ ^ 2 := by
  have hd := five_dc_bin solver nIter ref none X model reset () Y h 0
  have hd' := five_dc_bin solver (nIter + 1) ref none X model reset () Y' h' 0
  obtain ⟨Z, Z', hZ, hZ', -, ms', u, hr, hu, hs⟩ := five_next hC solver hc nIter ref X hX model reset ()
  obtain rfl : Y = Z := by rw [h] at hZ; exact Except.ok.inj hZ
  obtain rfl : Y' = Z' := by rw [h'] at hZ'; exact Except.ok.inj hZ'
  have := energy_le (w := w) (fun f n => Y 0 f.succ n) (fun f n => Y' 0 f.succ n) hw fun f => by
    obtain ⟨a, v, h1, h2⟩ := run_unit hX hr f
    have hf := hu f
    rw [show ms' = () from rfl, hm f] at hf
    exact ⟨a, _, _, _, h1, hf.1, hf.2 v h1, h2, funext fun n => hs f n⟩
  simpa [Fin.sum_univ_succ, hd, hd'] using this

/-- **C157 (Laplace model).**  One more iteration of FIVE, brought back at every frequency to the mean power of the previous
result, does not increase the sum over the frames of the norm over the frequencies, if no frame is below the floor of the model. -/
theorem five_laplace_descent [NeZero C] (hC : C ≠ 2) (solver) (hc : EighContract C solver) (nIter : ℕ) (ref : Fin C)
    (X : Sig C (F + 1) N) (hX : ∀ f : Fin F, WellConditioned fun c => X c f.succ) (e : ℝ) (he : 0 < e)
    (reset : Unit → Unit) (Y Y' : Sig 1 (F + 1) N)
    (h : fiveForward solver nIter ref none X (laplaceModel e) reset () = .ok Y)
    (h' : fiveForward solver (nIter + 1) ref none X (laplaceModel e) reset () = .ok Y')
    (hloud : ∀ n, e ≤ 2 * √(∑ f, ‖Y 0 f n‖ ^ 2)) :
    ∑ n, √(∑ f, meanPower (Y 0 f) / meanPower (Y' 0 f) * ‖Y' 0 f n‖ ^ 2) ≤ ∑ n, √(∑ f, ‖Y 0 f n‖ ^ 2) := by
  have hd := five_dc_bin solver nIter ref none X _ reset () Y h 0
  set r : Fin N → ℝ := fun n => √(∑ f, ‖Y 0 f n‖ ^ 2) with hr
  have hr0 : ∀ n, 0 < r n := fun n => by have := hloud n; change e ≤ 2 * r n at this; linarith
  have hr2 : ∀ n, r n ^ 2 = ∑ f, ‖Y 0 f n‖ ^ 2 := fun n => Real.sq_sqrt (Finset.sum_nonneg fun _ _ => sq_nonneg _)
  have key := five_energy hC solver hc nIter ref X hX (laplaceModel e) reset Y Y' h h' (fun n => 1 / (2 * r n))
    (fun n => by have := hr0 n; positivity) (fun f => funext fun n => by
      have : √(∑ f : Fin F, magSq (Y 0 f.succ n)) = r n := by
        simp only [hr, Fin.sum_univ_succ, hd, magSq_eq]
        simp
      simp only [laplaceModel, laplaceForward, this, clampMin]
      rw [max_eq_left (hloud n)])
  set q : Fin N → ℝ := fun n => ∑ f, meanPower (Y 0 f) / meanPower (Y' 0 f) * ‖Y' 0 f n‖ ^ 2 with hq
  have hmp : ∀ y : Fin N → ℂ, 0 ≤ meanPower y := fun y => div_nonneg (Finset.sum_nonneg fun _ _ => sq_nonneg _) (Nat.cast_nonneg _)
  have hq0 : ∀ n, 0 ≤ q n := fun n => Finset.sum_nonneg fun f _ => mul_nonneg (div_nonneg (hmp _) (hmp _)) (sq_nonneg _)
  have h1 : ∀ n, √(q n) ≤ 1 / (2 * r n) * q n + r n / 2 := fun n => by
    have h2 := Real.sq_sqrt (hq0 n)
    have h3 := hr0 n
    have : 1 / (2 * r n) * q n + r n / 2 - √(q n) = (√(q n) - r n) ^ 2 / (2 * r n) := by
      rw [sub_sq, h2]
      field_simp
      ring
    have : 0 ≤ (√(q n) - r n) ^ 2 / (2 * r n) := by positivity
    linarith
  calc ∑ n, √(q n) ≤ ∑ n, (1 / (2 * r n) * q n + r n / 2) := Finset.sum_le_sum fun n _ => h1 n
    _ ≤ ∑ n, (1 / (2 * r n) * r n ^ 2 + r n / 2) := by
        rw [Finset.sum_add_distrib, Finset.sum_add_distrib]
        simp only [hr2]
        exact add_le_add_left key _
    _ = ∑ n, r n := Finset.sum_congr rfl fun n _ => by have := (hr0 n).ne'; field_simp; ring

/-- **C157 (Gauss model).**  The same for the product over the frames of the power over the frequencies. -/
theorem five_gauss_descent [NeZero C] (hC : C ≠ 2) (solver) (hc : EighContract C solver) (nIter : ℕ) (ref : Fin C)
    (X : Sig C (F + 1) N) (hX : ∀ f : Fin F, WellConditioned fun c => X c f.succ) (e : ℝ) (he : 0 < e)
    (reset : Unit → Unit) (Y Y' : Sig 1 (F + 1) N)
    (h : fiveForward solver nIter ref none X (gaussModel e) reset () = .ok Y)
    (h' : fiveForward solver (nIter + 1) ref none X (gaussModel e) reset () = .ok Y')
    (hloud : ∀ n, e ≤ (∑ f, ‖Y 0 f n‖ ^ 2) / F) :
    ∏ n, ∑ f, meanPower (Y 0 f) / meanPower (Y' 0 f) * ‖Y' 0 f n‖ ^ 2 ≤ ∏ n, ∑ f, ‖Y 0 f n‖ ^ 2 := by
  have hd := five_dc_bin solver nIter ref none X _ reset () Y h 0
  set R : Fin N → ℝ := fun n => ∑ f, ‖Y 0 f n‖ ^ 2 with hR
  rcases Nat.eq_zero_or_pos N with rfl | hN
  · simp
  have hF : (0 : ℝ) < F := by
    rcases Nat.eq_zero_or_pos F with h0 | h0
    · have := hloud ⟨0, hN⟩
      have hz : (F : ℝ) = 0 := by exact_mod_cast h0
      rw [hz, div_zero] at this
      linarith
    · exact_mod_cast h0
  have hR0 : ∀ n, 0 < R n := fun n => by
    have h1 := lt_of_lt_of_le he (hloud n)
    exact (div_pos_iff_of_pos_right hF).1 h1
  have key := five_energy hC solver hc nIter ref X hX (gaussModel e) reset Y Y' h h' (fun n => 1 / (R n / F))
    (fun n => by have := hR0 n; positivity) (fun f => funext fun n => by
      have : ∑ f : Fin F, magSq (Y 0 f.succ n) = R n := by
        simp only [hR, Fin.sum_univ_succ, hd, magSq_eq]
        simp
      simp only [gaussModel, gaussForward, this, clampMin]
      rw [max_eq_left (hloud n)])
  set q : Fin N → ℝ := fun n => ∑ f, meanPower (Y 0 f) / meanPower (Y' 0 f) * ‖Y' 0 f n‖ ^ 2 with hq
  have hmp : ∀ y : Fin N → ℂ, 0 ≤ meanPower y := fun y => div_nonneg (Finset.sum_nonneg fun _ _ => sq_nonneg _) (Nat.cast_nonneg _)
  have hq0 : ∀ n, 0 ≤ q n := fun n => Finset.sum_nonneg fun f _ => mul_nonneg (div_nonneg (hmp _) (hmp _)) (sq_nonneg _)
  have hsum : ∑ n, q n / R n ≤ N := by
    have e1 : ∑ n, 1 / (R n / F) * q n = F * ∑ n, q n / R n := by
      rw [Finset.mul_sum]
      exact Finset.sum_congr rfl fun n _ => by have := (hR0 n).ne'; field_simp
    have e2 : ∑ n, 1 / (R n / F) * R n = F * N := by
      rw [Finset.sum_congr rfl fun n _ => (by have := (hR0 n).ne'; field_simp : 1 / (R n / F) * R n = F)]
      simp [mul_comm]
    rw [e1, e2] at key
    exact le_of_mul_le_mul_left key hF
  have hprod := prod_le_mean_pow (fun n => q n / R n) fun n => div_nonneg (hq0 n) (hR0 n).le
  have h1 : ((∑ n, q n / R n) / N) ^ N ≤ 1 := by
    refine pow_le_one₀ (div_nonneg (Finset.sum_nonneg fun n _ => div_nonneg (hq0 n) (hR0 n).le) (Nat.cast_nonneg _)) ?_
    exact (div_le_one (by exact_mod_cast hN)).2 hsum
  rw [Finset.prod_div_distrib] at hprod
  exact (div_le_one (Finset.prod_pos fun n _ => hR0 n)).1 (hprod.trans h1)

/-- Three microphones, two frequencies, four frames: orthogonal signals of powers 9, 4 and 1 without silent frames. -/
private def tones : Sig 3 (1 + 1) 4 := fun c _ n =>
  (![![3, 3, 3, 3], ![2, -2, 2, -2], ![1, 1, -1, -1]] : Fin 3 → Fin 4 → ℂ) c n

private lemma tones_power (f : Fin (1 + 1)) (v : Fin 3 → ℂ) :
    meanPower (filt v fun c => tones c f) = 9 * ‖v 0‖ ^ 2 + 4 * ‖v 1‖ ^ 2 + ‖v 2‖ ^ 2 := by
  simp only [meanPower, filt, tones, Fin.sum_univ_four, Fin.sum_univ_three]
  simp only [← Complex.normSq_eq_norm_sq, Complex.normSq_apply]
  simp
  ring

private lemma tones_ok (f : Fin 1) : WellConditioned fun c => tones c f.succ := fun v => by
  rw [tones_power, Fin.sum_univ_three]
  nlinarith [sq_nonneg ‖v 0‖, sq_nonneg ‖v 1‖, sq_nonneg ‖v 2‖]

private lemma tones_loud {model : Unit → (Fin 1 → Fin 4 → ℂ) → (Fin 1 → Fin 4 → ℝ) × Unit} {Y : Fin 1 → Fin 4 → ℂ} {ms : Unit}
    (h : FiveRun (fun (f : Fin 1) c => tones c f.succ) 0 model () 0 Y ms) (n : Fin 4) : ‖Y 0 n‖ = 3 := by
  cases h with
  | init u hu =>
    obtain ⟨v, hv, hm, e⟩ := hu 0
    have h1 := hm ![1, 0, 0] (by simp [Fin.sum_univ_three])
    rw [tones_power, tones_power] at h1
    simp at h1
    rw [Fin.sum_univ_three] at hv
    have h2 : ‖v 1‖ ^ 2 = 0 := by nlinarith [sq_nonneg ‖v 1‖, sq_nonneg ‖v 2‖]
    have h3 : ‖v 2‖ ^ 2 = 0 := by nlinarith [sq_nonneg ‖v 1‖, sq_nonneg ‖v 2‖]
    have h0 : ‖v 0‖ = 1 := by
      have : ‖v 0‖ ^ 2 = 1 := by linarith
      nlinarith [norm_nonneg (v 0)]
    have v1 : v 1 = 0 := by simpa using h2
    have v2 : v 2 = 0 := by simpa using h3
    have hp : √(meanPower (filt v fun c => tones c (Fin.succ 0))) = 3 := by
      rw [tones_power, h2, h3, h0, show (9 * 1 ^ 2 + 4 * 0 + 0 : ℝ) = 3 ^ 2 by norm_num]
      exact Real.sqrt_sq (by norm_num)
    have hf : ∀ n, filt (u 0) (fun c => tones c (Fin.succ 0)) n = star (v 0) := fun n => by
      rw [e, hp]
      simp only [filt, Fin.sum_univ_three, v1, v2]
      fin_cases n <;> simp [tones]
    have hn : ‖star (v 0)‖ = 1 := by rw [norm_star, h0]
    simp only [hf, xcorr, Fin.sum_univ_four]
    have : ∀ n, tones 0 (Fin.succ 0) n = 3 := fun n => by fin_cases n <;> simp [tones]
    simp only [this]
    rw [norm_mul, hn, mul_one, show (star (v 0) * star 3 + star (v 0) * star 3 + star (v 0) * star 3 + star (v 0) * star 3) /
      ((4 : ℕ) : ℂ) = star (v 0) * 3 by simp; ring, norm_mul, hn]
    simp

/-- A case that meets the hypotheses of both theorems. -/
example : ∃ (solver : Matrix (Fin 3) (Fin 3) ℂ → EigRes (Fin 3)) (Y Y' Z Z' : Sig 1 (1 + 1) 4), EighContract 3 solver ∧
    (∀ f : Fin 1, WellConditioned fun c => tones c f.succ) ∧
    fiveForward solver 0 0 none tones (laplaceModel 1e-5) id () = .ok Y ∧
    fiveForward solver 1 0 none tones (laplaceModel 1e-5) id () = .ok Y' ∧ (∀ n, 1e-5 ≤ 2 * √(∑ f, ‖Y 0 f n‖ ^ 2)) ∧
    fiveForward solver 0 0 none tones (gaussModel 1e-5) id () = .ok Z ∧
    fiveForward solver 1 0 none tones (gaussModel 1e-5) id () = .ok Z' ∧ ∀ n, 1e-5 ≤ (∑ f, ‖Z 0 f n‖ ^ 2) / (1 : ℕ) := by
  obtain ⟨solver, hc⟩ := eighContract_exists 3
  obtain ⟨Y, Y', h1, h2, h3, ms, u, h4, -⟩ := five_next (by norm_num) solver hc 0 0 tones tones_ok (laplaceModel 1e-5) id ()
  obtain ⟨Z, Z', k1, k2, k3, ms', u', k4, -⟩ := five_next (by norm_num) solver hc 0 0 tones tones_ok (gaussModel 1e-5) id ()
  have hY : ∀ n, ∑ f, ‖Y 0 f n‖ ^ 2 = 3 ^ 2 := fun n => by
    have := tones_loud h4 n
    rw [Fin.sum_univ_succ, h3, Fin.sum_univ_one, this]
    simp
  have hZ : ∀ n, ∑ f, ‖Z 0 f n‖ ^ 2 = 3 ^ 2 := fun n => by
    have := tones_loud k4 n
    rw [Fin.sum_univ_succ, k3, Fin.sum_univ_one, this]
    simp
  exact ⟨solver, Y, Y', Z, Z', hc, tones_ok, h1, h2, fun n => by rw [hY, Real.sqrt_sq (by norm_num)]; norm_num, k1, k2,
    fun n => by rw [hZ]; norm_num⟩

end Torchiva.Props
