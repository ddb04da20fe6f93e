import Verif.Props.Level
import Verif.Props.ContrastWpe

/-!
# C95: a later iteration of WPE can increase the objective
-/

namespace Torchiva.Props

open Torchiva Matrix

private def delayed (u : Fin 4 → ℝ) : Fin 4 → ℝ := ![0, u 0, u 1, u 2]

/-- One iteration on a recording of one microphone, four frames and real values in units of `√eps`. -/
private lemma wpe_step_real {eps : ℝ} (he : 0 < eps) (u y : Fin 4 → ℝ) (hy : ∀ n, 1 ≤ y n ^ 2) (S a b : ℝ)
    (hS : ∑ n, 1 / y n ^ 2 = S) (ha : (∑ n, 1 / y n ^ 2 * delayed u n ^ 2) / S = a)
    (hb : (∑ n, 1 / y n ^ 2 * (delayed u n * u n)) / S = b) (ha1 : eps * a ≤ 1) :
    wpeStep (fun _ _ n => ((√eps * u n : ℝ) : ℂ)) (delayedTaps (fun _ _ n => ((√eps * u n : ℝ) : ℂ)) 1 0)
      (none : Option (WpeModel Unit 1 1 4)) eps ⟨fun _ _ n => ((√eps * y n : ℝ) : ℂ), ()⟩
      = .ok ⟨fun _ _ n => ((√eps * (u n - b / (a + 1) * delayed u n) : ℝ) : ℂ), ()⟩ := by
  have hs : √eps ^ 2 = eps := Real.sq_sqrt he.le
  have hs0 : 0 < √eps := Real.sqrt_pos.2 he
  have hy0 : ∀ n, 0 < y n ^ 2 := fun n => lt_of_lt_of_le one_pos (hy n)
  have hS0 : 0 < S := by rw [← hS]; exact Finset.sum_pos (fun n _ => one_div_pos.2 (hy0 n)) Finset.univ_nonempty
  have hd : ∀ n, clampMin ((∑ c : Fin 1, magSq ((√eps * y n : ℝ) : ℂ)) / (1 : ℕ)) eps = eps * y n ^ 2 := fun n => by
    rw [Fin.sum_univ_one, magSq_eq, Complex.norm_real, Real.norm_eq_abs, sq_abs, mul_pow, hs, Nat.cast_one, div_one, clampMin]
    exact max_eq_left (by nlinarith [hy n])
  have hSe : ∑ n, 1 / (eps * y n ^ 2) = S / eps := by
    rw [← hS, Finset.sum_div]
    refine Finset.sum_congr rfl fun n _ => ?_
    have := hy0 n
    field_simp
  have hw : wpeDefaultWeights (fun (_ : Fin 1) (_ : Fin 1) n => ((√eps * y n : ℝ) : ℂ)) eps
      = .ok fun _ n => 1 / y n ^ 2 / S := by
    unfold wpeDefaultWeights
    simp only [hd, hSe]
    rw [if_neg]
    · congr 1
      funext f n
      have := hy0 n
      field_simp
    · rintro ⟨p, hp | hp⟩
      · exact (mul_pos he (hy0 _)).ne' hp
      · exact (div_pos hS0 he).ne' hp
  have hbar : ∀ c f t n, delayedTaps (fun (_ : Fin 1) (_ : Fin 1) n => ((√eps * u n : ℝ) : ℂ)) 1 0 c f t n
      = ((√eps * delayed u n : ℝ) : ℂ) := fun c f t n => by
    fin_cases t
    simp only [delayedTaps, xbarRow_eq]
    fin_cases n <;> simp [delayed]
  have ha0 : 0 ≤ a := by
    rw [← ha]
    exact div_nonneg (Finset.sum_nonneg fun n _ => mul_nonneg (one_div_pos.2 (hy0 n)).le (sq_nonneg _)) hS0.le
  have hfil : wpeFilter (fun (_ : Fin 1) n => 1 / y n ^ 2 / S) (fun (_ : Fin 1) _ n => ((√eps * u n : ℝ) : ℂ))
      (delayedTaps (fun _ _ n => ((√eps * u n : ℝ) : ℂ)) 1 0) eps
      = .ok fun _ => Matrix.of fun (_ : Fin 1 × Fin 1) (_ : Fin 1) => ((b / (a + 1) : ℝ) : ℂ) := by
    refine seqAll_ok_iff.2 fun f => ?_
    letI : Unique (Fin 1 × Fin 1) := ⟨⟨(0, 0)⟩, fun a => Subsingleton.elim _ _⟩
    rw [solveLoaded_single _ _ (eps * a) eps ?_ (by positivity) he]
    · congr 1
      ext p s
      rw [max_eq_right (by nlinarith), Matrix.of_apply, Matrix.of_apply]
      have : wpeXcv (fun (_ : Fin 1) n => 1 / y n ^ 2 / S) (fun (_ : Fin 1) _ n => ((√eps * u n : ℝ) : ℂ))
          (delayedTaps (fun _ _ n => ((√eps * u n : ℝ) : ℂ)) 1 0) f p s = ((eps * b : ℝ) : ℂ) := by
        simp only [wpeXcv, Matrix.of_apply, hbar, Complex.star_def, Complex.conj_ofReal, ← Complex.ofReal_mul, ← Complex.ofReal_sum]
        congr 1
        rw [← hb, Finset.sum_div, Finset.mul_sum]
        refine Finset.sum_congr rfl fun n _ => ?_
        linear_combination (1 / y n ^ 2 / S * (delayed u n * u n)) * hs
      rw [this, ← Complex.ofReal_div]
      congr 1
      have : a + 1 ≠ 0 := by positivity
      field_simp
    · ext p q
      simp only [wpeAcm, Matrix.of_apply, hbar, Complex.star_def, Complex.conj_ofReal, ← Complex.ofReal_mul, ← Complex.ofReal_sum]
      congr 1
      rw [← ha, Finset.sum_div, Finset.mul_sum]
      refine Finset.sum_congr rfl fun n _ => ?_
      linear_combination (1 / y n ^ 2 / S * delayed u n ^ 2) * hs
  unfold wpeStep
  simp only [hw, Except.map, bind, Except.bind, hfil, pure, Except.pure]
  congr 2
  funext c f n
  simp only [wpeDerev, Fin.sum_univ_one, hbar, Matrix.of_apply, Complex.star_def, Complex.conj_ofReal]
  push_cast
  ring

/-- **C95 (a later iteration can increase the objective).**  For every `eps ≤ 1/64`, and so for the default `1e-5`, there is a
recording of one microphone for which the second iteration of WPE strictly increases the product over the frames of the power,
although all frames are above `eps` throughout. -/
theorem wpe_later_increase (eps : ℝ) (he : 0 < eps) (he1 : eps ≤ 1 / 64) :
    ∃ X Y Y' : Sig 1 1 4, wpeForward 1 1 0 eps X (none : Option (WpeModel Unit 1 1 4)) () = .ok Y ∧
      wpeForward 2 1 0 eps X (none : Option (WpeModel Unit 1 1 4)) () = .ok Y' ∧
      (∀ n, eps ≤ ‖X 0 0 n‖ ^ 2) ∧ (∀ n, eps ≤ ‖Y 0 0 n‖ ^ 2) ∧ (∀ n, eps ≤ ‖Y' 0 0 n‖ ^ 2) ∧
      ∏ n, ‖Y 0 0 n‖ ^ 2 < ∏ n, ‖Y' 0 0 n‖ ^ 2 := by
  have hs : √eps ^ 2 = eps := Real.sq_sqrt he.le
  obtain ⟨u, u0, u1, u2, u3⟩ : ∃ u : Fin 4 → ℝ, u 0 = 5 ∧ u 1 = 6 ∧ u 2 = 8 ∧ u 3 = 6 := ⟨![5, 6, 8, 6], rfl, rfl, rfl, rfl⟩
  have d0 : delayed u 0 = 0 := rfl
  have d1 : delayed u 1 = 5 := u0
  have d2 : delayed u 2 = 6 := u1
  have d3 : delayed u 3 = 8 := u2
  obtain ⟨y, hyd⟩ : ∃ y : Fin 4 → ℝ, y = fun n => u n - 42000 / 45301 * delayed u n := ⟨_, rfl⟩
  obtain ⟨z, hzd⟩ : ∃ z : Fin 4 → ℝ, z = fun n =>
    u n - 1602455957156028603197696442000 / 1752542942552962124788552937101 * delayed u n := ⟨_, rfl⟩
  have y0 : y 0 = 5 := by rw [hyd]; norm_num [u0, d0]
  have y1 : y 1 = 6 - 42000 / 45301 * 5 := by rw [hyd]; simp only [u1, d1]
  have y2 : y 2 = 8 - 42000 / 45301 * 6 := by rw [hyd]; simp only [u2, d2]
  have y3 : y 3 = 6 - 42000 / 45301 * 8 := by rw [hyd]; simp only [u3, d3]
  have z0 : z 0 = 5 := by rw [hzd]; norm_num [u0, d0]
  have z1 : z 1 = 6 - 1602455957156028603197696442000 / 1752542942552962124788552937101 * 5 := by rw [hzd]; simp only [u1, d1]
  have z2 : z 2 = 8 - 1602455957156028603197696442000 / 1752542942552962124788552937101 * 6 := by rw [hzd]; simp only [u2, d2]
  have z3 : z 3 = 6 - 1602455957156028603197696442000 / 1752542942552962124788552937101 * 8 := by rw [hzd]; simp only [u3, d3]
  have hun : ∀ n, 1 ≤ u n ^ 2 := by
    rw [Fin.forall_fin_succ, Fin.forall_fin_succ, Fin.forall_fin_succ, Fin.forall_fin_one]
    refine ⟨?_, ?_, ?_, ?_⟩
    · show 1 ≤ u 0 ^ 2; rw [u0]; norm_num
    · show 1 ≤ u 1 ^ 2; rw [u1]; norm_num
    · show 1 ≤ u 2 ^ 2; rw [u2]; norm_num
    · show 1 ≤ u 3 ^ 2; rw [u3]; norm_num
  have hyn : ∀ n, 1 ≤ y n ^ 2 := by
    rw [Fin.forall_fin_succ, Fin.forall_fin_succ, Fin.forall_fin_succ, Fin.forall_fin_one]
    refine ⟨?_, ?_, ?_, ?_⟩
    · show 1 ≤ y 0 ^ 2; rw [y0]; norm_num
    · show 1 ≤ y 1 ^ 2; rw [y1]; norm_num
    · show 1 ≤ y 2 ^ 2; rw [y2]; norm_num
    · show 1 ≤ y 3 ^ 2; rw [y3]; norm_num
  have hzn : ∀ n, 1 ≤ z n ^ 2 := by
    rw [Fin.forall_fin_succ, Fin.forall_fin_succ, Fin.forall_fin_succ, Fin.forall_fin_one]
    refine ⟨?_, ?_, ?_, ?_⟩
    · show 1 ≤ z 0 ^ 2; rw [z0]; norm_num
    · show 1 ≤ z 1 ^ 2; rw [z1]; norm_num
    · show 1 ≤ z 2 ^ 2; rw [z2]; norm_num
    · show 1 ≤ z 3 ^ 2; rw [z3]; norm_num
  have h1 := wpe_step_real he u u hun _ _ _ rfl rfl rfl (by
    simp only [Fin.sum_univ_four, u0, u1, u2, u3, d0, d1, d2, d3]; norm_num; linarith)
  have h2 := wpe_step_real he u y hyn _ _ _ rfl rfl rfl (by
    simp only [Fin.sum_univ_four, y0, y1, y2, y3, d0, d1, d2, d3]; norm_num; linarith)
  have e1 : (fun n => u n - (∑ n, 1 / u n ^ 2 * (delayed u n * u n)) / (∑ n, 1 / u n ^ 2) /
      ((∑ n, 1 / u n ^ 2 * delayed u n ^ 2) / (∑ n, 1 / u n ^ 2) + 1) * delayed u n) = y := by
    rw [hyd]
    funext n
    congr 2
    simp only [Fin.sum_univ_four, u0, u1, u2, u3, d0, d1, d2, d3]
    norm_num
  have e2 : (fun n => u n - (∑ n, 1 / y n ^ 2 * (delayed u n * u n)) / (∑ n, 1 / y n ^ 2) /
      ((∑ n, 1 / y n ^ 2 * delayed u n ^ 2) / (∑ n, 1 / y n ^ 2) + 1) * delayed u n) = z := by
    rw [hzd]
    funext n
    congr 2
    simp only [Fin.sum_univ_four, y0, y1, y2, y3, u0, u1, u2, u3, d0, d1, d2, d3]
    norm_num
  have e1' := fun n => congrFun e1 n
  have e2' := fun n => congrFun e2 n
  simp only [e1'] at h1
  simp only [e2'] at h2
  have hnorm : ∀ v : ℝ, ‖((√eps * v : ℝ) : ℂ)‖ ^ 2 = eps * v ^ 2 := fun v => by
    rw [Complex.norm_real, Real.norm_eq_abs, sq_abs, mul_pow, hs]
  refine ⟨fun _ _ n => ((√eps * u n : ℝ) : ℂ), fun _ _ n => ((√eps * y n : ℝ) : ℂ), fun _ _ n => ((√eps * z n : ℝ) : ℂ), ?_, ?_,
    fun n => ?_, fun n => ?_, fun n => ?_, ?_⟩
  · simp only [wpeForward, wpeRun, iterM, h1, bind, Except.bind, pure, Except.pure, Except.map]
  · simp only [wpeForward, wpeRun, iterM, h1, h2, bind, Except.bind, pure, Except.pure, Except.map]
  · rw [hnorm]; nlinarith [hun n]
  · rw [hnorm]; nlinarith [hyn n]
  · rw [hnorm]; nlinarith [hzn n]
  · simp only [hnorm, Finset.prod_mul_distrib]
    refine mul_lt_mul_of_pos_left ?_ (Finset.prod_pos fun _ _ => he)
    simp only [Fin.prod_univ_four, y0, y1, y2, y3, z0, z1, z2, z3]
    norm_num

/-- The default `eps` of `WPE`. -/
example := wpe_later_increase 1e-5 (by norm_num) (by norm_num)

end Torchiva.Props
