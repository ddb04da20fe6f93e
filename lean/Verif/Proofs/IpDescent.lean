import Verif.Props.AuxIva
import Verif.Spec.IpDescent
import Verif.Spec.Ip2
import Mathlib.Analysis.InnerProductSpace.PiL2
import Mathlib.LinearAlgebra.Matrix.Adjugate

/-!
# Lemmas for C149: the effect of the diagonal loading on the row update of AuxIVA-IP
-/

namespace Torchiva

open Matrix Spec

/-- Close vectors have a small angle. -/
lemma angle_bound {E : Type} [NormedAddCommGroup E] [InnerProductSpace ℂ E] (z v : E) :
    ‖v‖ ^ 2 * ‖z‖ ^ 2 - ‖v - z‖ ^ 2 * ‖z‖ ^ 2 ≤ ‖inner ℂ z v‖ ^ 2 := by
  have h1 : inner ℂ z v = inner ℂ z (v - z) + ((‖z‖ ^ 2 : ℝ) : ℂ) := by
    rw [inner_sub_right, inner_self_eq_norm_sq_to_K]
    push_cast
    simp
  have h2 : ‖v‖ ^ 2 = ‖v - z‖ ^ 2 + 2 * (inner ℂ z (v - z) : ℂ).re + ‖z‖ ^ 2 := by
    have := norm_add_sq (𝕜 := ℂ) z (v - z)
    rw [add_sub_cancel] at this
    simp only [RCLike.re_eq_complex_re] at this
    linarith
  rw [h1, h2, ← Complex.normSq_eq_norm_sq, Complex.normSq_apply]
  simp only [Complex.add_re, Complex.add_im, Complex.ofReal_re, Complex.ofReal_im, add_zero]
  nlinarith [sq_nonneg (inner ℂ z (v - z) : ℂ).im, sq_nonneg (inner ℂ z (v - z) : ℂ).re]

variable {C N : ℕ}

/-- The frames seen through the filter `v`, weighted. -/
noncomputable def wframes (x : Fin C → Fin N → ℂ) (w : Fin N → ℝ) (v : Fin C → ℂ) : EuclideanSpace ℂ (Fin N) :=
  WithLp.toLp 2 fun n => (√(w n) : ℂ) * ∑ c, v c * star (x c n)

lemma wframes_sub (x : Fin C → Fin N → ℂ) (w : Fin N → ℝ) (u v : Fin C → ℂ) :
    wframes x w (u - v) = wframes x w u - wframes x w v := by
  ext n
  simp only [wframes, PiLp.sub_apply, Pi.sub_apply, sub_mul, Finset.sum_sub_distrib, mul_sub]

lemma wframes_norm (x : Fin C → Fin N → ℂ) (w : Fin N → ℝ) (hw : ∀ n, 0 ≤ w n) (v : Fin C → ℂ) :
    ‖wframes x w v‖ ^ 2 = ∑ n, w n * ‖∑ c, star (v c) * x c n‖ ^ 2 := by
  rw [EuclideanSpace.norm_sq_eq]
  refine Finset.sum_congr rfl fun n _ => ?_
  simp only [wframes]
  rw [norm_mul, mul_pow, Complex.norm_of_nonneg (Real.sqrt_nonneg _), Real.sq_sqrt (hw n), ← norm_star, star_sum]
  congr 3
  exact Finset.sum_congr rfl fun c _ => by rw [star_mul', star_star]

lemma wframes_inner (x : Fin C → Fin N → ℂ) (w : Fin N → ℝ) (hw : ∀ n, 0 ≤ w n) (u v : Fin C → ℂ) :
    inner ℂ (wframes x w u) (wframes x w v) = ∑ c, star (u c) * (weightedCov x w *ᵥ v) c := by
  have hs : ∀ n, ((√(w n) : ℝ) : ℂ) * ((√(w n) : ℝ) : ℂ) = (w n : ℂ) := fun n => by
    rw [← Complex.ofReal_mul, Real.mul_self_sqrt (hw n)]
  have e : inner ℂ (wframes x w u) (wframes x w v)
      = ∑ n, (w n : ℂ) * ((∑ c, star (u c) * x c n) * ∑ d, v d * star (x d n)) := by
    rw [PiLp.inner_apply]
    refine Finset.sum_congr rfl fun n _ => ?_
    simp only [wframes, RCLike.inner_apply]
    rw [map_mul, Complex.conj_ofReal, map_sum, ← hs n]
    have : ∑ c, (starRingEnd ℂ) (u c * star (x c n)) = ∑ c, star (u c) * x c n :=
      Finset.sum_congr rfl fun c _ => by rw [← Complex.star_def, star_mul', star_star]
    rw [this]
    ring
  rw [e]
  have e2 : ∀ n : Fin N, (w n : ℂ) * ((∑ c, star (u c) * x c n) * ∑ d, v d * star (x d n))
      = ∑ c, ∑ d, star (u c) * (x c n * (w n : ℂ) * star (x d n) * v d) := by
    intro n
    rw [Finset.sum_mul_sum, Finset.mul_sum]
    refine Finset.sum_congr rfl fun c _ => ?_
    rw [Finset.mul_sum]
    exact Finset.sum_congr rfl fun d _ => by ring
  simp only [e2]
  rw [Finset.sum_comm]
  refine Finset.sum_congr rfl fun c _ => ?_
  rw [Finset.sum_comm]
  simp only [mulVec, dotProduct, weightedCov, Matrix.of_apply, Finset.sum_mul, Finset.mul_sum]

/-- The normal equations of a loaded system put the solution close to the exact one. -/
lemma ridge_close (A : Matrix (Fin C) (Fin C) ℂ) (d : Fin C → ℝ) (v z : Fin C → ℂ) {eps μ : ℝ} (he : 0 < eps) (hμ : 0 < μ)
    (hn : ∀ j, ∑ i, star (A i j) * ((d i : ℂ) ^ 2 * ((A *ᵥ z) i - (A *ᵥ v) i)) + (eps : ℂ) * z j = 0)
    (hm : ∀ u : Fin C → ℂ, μ * ∑ c, ‖u c‖ ^ 2 ≤ ∑ i, d i ^ 2 * ‖(A *ᵥ u) i‖ ^ 2) :
    ∑ c, ‖(v - z) c‖ ^ 2 ≤ (eps / (μ + eps)) ^ 2 * ∑ c, ‖v c‖ ^ 2 := by
  set e := v - z with hee
  have hA : ∀ i, (A *ᵥ z) i - (A *ᵥ v) i = -(A *ᵥ e) i := fun i => by
    rw [hee, Matrix.mulVec_sub, Pi.sub_apply]; ring
  have h1 : ∑ i, d i ^ 2 * ‖(A *ᵥ e) i‖ ^ 2 + eps * ∑ c, ‖e c‖ ^ 2 = eps * (∑ j, star (e j) * v j).re := by
    have h2 : ∑ j, star (e j) * (∑ i, star (A i j) * ((d i : ℂ) ^ 2 * ((A *ᵥ z) i - (A *ᵥ v) i)) + (eps : ℂ) * z j) = 0 :=
      Finset.sum_eq_zero fun j _ => by rw [hn j, mul_zero]
    have h3 : ∑ j, star (e j) * (∑ i, star (A i j) * ((d i : ℂ) ^ 2 * ((A *ᵥ z) i - (A *ᵥ v) i)))
        = -((∑ i, d i ^ 2 * ‖(A *ᵥ e) i‖ ^ 2 : ℝ) : ℂ) := by
      simp only [Finset.mul_sum]
      rw [Finset.sum_comm]
      push_cast
      rw [← Finset.sum_neg_distrib]
      refine Finset.sum_congr rfl fun i _ => ?_
      rw [hA i, ← Complex.conj_mul', ← Complex.star_def]
      have : star ((A *ᵥ e) i) = ∑ j, star (e j) * star (A i j) := by
        simp only [mulVec, dotProduct, star_sum]
        exact Finset.sum_congr rfl fun j _ => by rw [star_mul']; ring
      rw [this, Finset.sum_mul, Finset.mul_sum, ← Finset.sum_neg_distrib]
      exact Finset.sum_congr rfl fun j _ => by ring
    have h4 : ∑ j, star (e j) * ((eps : ℂ) * z j) = (eps : ℂ) * ((∑ j, star (e j) * v j) - ((∑ c, ‖e c‖ ^ 2 : ℝ) : ℂ)) := by
      push_cast
      rw [mul_sub, Finset.mul_sum, Finset.mul_sum, ← Finset.sum_sub_distrib]
      refine Finset.sum_congr rfl fun j _ => ?_
      have : z j = v j - e j := by rw [hee, Pi.sub_apply]; ring
      rw [this, ← Complex.conj_mul', ← Complex.star_def]
      ring
    simp only [mul_add, Finset.sum_add_distrib, h3, h4] at h2
    have := congrArg Complex.re h2
    simp only [Complex.add_re, Complex.neg_re, Complex.ofReal_re, Complex.mul_re, Complex.ofReal_im, zero_mul, sub_zero,
      Complex.sub_re, Complex.zero_re] at this
    linarith
  set S := ∑ c, ‖e c‖ ^ 2 with hS
  set T := ∑ c, ‖v c‖ ^ 2 with hT
  have hS0 : 0 ≤ S := Finset.sum_nonneg fun c _ => by positivity
  have hT0 : 0 ≤ T := Finset.sum_nonneg fun c _ => by positivity
  have hcs : (∑ j, star (e j) * v j).re ≤ √S * √T := by
    refine (Complex.re_le_norm _).trans ((norm_sum_le _ _).trans ?_)
    have := Real.sum_mul_le_sqrt_mul_sqrt Finset.univ (fun j => ‖e j‖) fun j => ‖v j‖
    refine le_trans (le_of_eq (Finset.sum_congr rfl fun j _ => ?_)) this
    rw [norm_mul, norm_star]
  have h5 : (μ + eps) * S ≤ eps * (√S * √T) := by
    have := hm e
    nlinarith
  have hk : 0 < μ + eps := by linarith
  have h6 : (μ + eps) * √S ≤ eps * √T := by
    rcases hS0.eq_or_lt with h | h
    · rw [← h, Real.sqrt_zero, mul_zero]; positivity
    · have hp := Real.sqrt_pos.2 h
      have : (μ + eps) * (√S * √S) ≤ eps * (√S * √T) := by rwa [Real.mul_self_sqrt hS0]
      nlinarith
  have h7 : √S ≤ eps / (μ + eps) * √T := by
    rw [div_mul_eq_mul_div, le_div_iff₀ hk]; linarith
  calc S = √S ^ 2 := (Real.sq_sqrt hS0).symm
    _ ≤ (eps / (μ + eps) * √T) ^ 2 := pow_le_pow_left₀ (Real.sqrt_nonneg _) h7 2
    _ = _ := by rw [mul_pow, Real.sq_sqrt hT0]

lemma det_updateRow_eq (W : Matrix (Fin C) (Fin C) ℂ) (k : Fin C) (r α : Fin C → ℂ) (hα : W *ᵥ α = Pi.single k 1) :
    (W.updateRow k r).det = W.det * ∑ c, r c * α c := by
  have h : W.det • α = W.adjugate *ᵥ Pi.single k 1 := by
    rw [← hα, Matrix.mulVec_mulVec, Matrix.adjugate_mul, Matrix.smul_mulVec, Matrix.one_mulVec]
  rw [← Matrix.cramer_transpose_apply, Matrix.cramer_eq_adjugate_mulVec, ← Matrix.adjugate_transpose]
  simp only [mulVec, dotProduct, Matrix.transpose_apply]
  rw [Finset.mul_sum]
  refine Finset.sum_congr rfl fun c _ => ?_
  have hc := congrFun h c
  simp only [Pi.smul_apply, smul_eq_mul] at hc
  rw [Matrix.mulVec_single_one] at hc
  simp only [Matrix.col_apply] at hc
  rw [← hc]
  ring

/-- One row update: what the objective gains, up to the effect of the loading. -/
lemma row_gain (x : Fin C → Fin N → ℂ) (w : Fin N → ℝ) (hw : ∀ n, 0 ≤ w n) (W : Matrix (Fin C) (Fin C) ℂ) (k : Fin C)
    {eps κ μ a : ℝ} (he : 0 < eps) (hμ : 0 < μ) (ha : 0 < a) (hδ : κ * (eps / (μ + eps)) ^ 2 < 1)
    (hcov : ∀ v : Fin C → ℂ, a * ∑ c, ‖v c‖ ^ 2 ≤ ∑ n, w n * ‖∑ c, v c * x c n‖ ^ 2 ∧
      ∑ n, w n * ‖∑ c, v c * x c n‖ ^ 2 ≤ κ * (a * ∑ c, ‖v c‖ ^ 2))
    (hsys : ∀ v : Fin C → ℂ, μ * ∑ c, ‖v c‖ ^ 2 ≤
      ∑ i, (1 / max (l2 ((W * covSum x w) i)) eps) ^ 2 * ‖((W * covSum x w).mulVec v) i‖ ^ 2)
    (hW : W.det ≠ 0) (row : Fin C → ℂ) (hrow : ipNewRow le_rfl W none (weightedCov x w) k eps = .ok row)
    (hunit : ∑ n, w n * ‖∑ c, row c * x c n‖ ^ 2 = 1) :
    (1 - κ * (eps / (μ + eps)) ^ 2) * ‖W.det‖ ^ 2
      ≤ ‖(W.updateRow k row).det‖ ^ 2 * ∑ n, w n * ‖∑ c, W k c * x c n‖ ^ 2 := by
  have hcv : covSum x w = weightedCov x w := by
    ext c d
    simp only [covSum, weightedCov, Matrix.of_apply]
    exact Finset.sum_congr rfl fun n _ => by ring
  rw [hcv] at hsys
  set V := weightedCov x w with hV
  -- the solution of the loaded system and the row
  have hst : stackWV le_rfl W none V = W * V := by
    ext i d
    simp [stackWV]
  unfold ipNewRow at hrow
  rw [hst] at hrow
  obtain ⟨sol, hsol, hnorm⟩ := solveLoadedGeneral_normal (W * V) (Matrix.of fun (i : Fin C) (_ : Fin 1) => if i.1 = k.1 then (1 : ℂ) else 0) eps he
  simp only [hsol] at hrow
  simp only [bind, Except.bind, pure, Except.pure, Except.ok.injEq] at hrow
  set z : Fin C → ℂ := fun c => sol c 0 with hz
  -- the weighted energy of a filter
  have hQ : ∀ v : Fin C → ℂ, ‖wframes x w v‖ ^ 2 = ∑ n, w n * ‖∑ c, star (v c) * x c n‖ ^ 2 := wframes_norm x w hw
  have hn : ∀ v : Fin C → ℂ, ∑ c, ‖star (v c)‖ ^ 2 = ∑ c, ‖v c‖ ^ 2 := fun v => by simp only [norm_star]
  have hlow : ∀ v : Fin C → ℂ, a * ∑ c, ‖v c‖ ^ 2 ≤ ‖wframes x w v‖ ^ 2 := fun v => by
    rw [hQ, ← hn v]; exact (hcov fun c => star (v c)).1
  have hup : ∀ v : Fin C → ℂ, ‖wframes x w v‖ ^ 2 ≤ κ * (a * ∑ c, ‖v c‖ ^ 2) := fun v => by
    rw [hQ, ← hn v]; exact (hcov fun c => star (v c)).2
  -- the exact solution
  have hVdet : V.det ≠ 0 := by
    intro h0
    obtain ⟨v, hv0, hv⟩ := Matrix.exists_mulVec_eq_zero_iff.2 h0
    have h1 := hlow v
    have h2 : ‖wframes x w v‖ ^ 2 = 0 := by
      have := wframes_inner x w hw v v
      rw [← hV, hv] at this
      simp only [Pi.zero_apply, mul_zero, Finset.sum_const_zero, inner_self_eq_zero] at this
      rw [this]; simp
    rw [h2] at h1
    obtain ⟨c, hc⟩ := Function.ne_iff.1 hv0
    have : 0 < ∑ c, ‖v c‖ ^ 2 := Finset.sum_pos' (fun c _ => by positivity) ⟨c, Finset.mem_univ c, by
      have := norm_pos_iff.2 hc; positivity⟩
    nlinarith
  have hAdet : IsUnit (W * V).det := by
    rw [Matrix.det_mul]; exact (mul_ne_zero hW hVdet).isUnit
  set v : Fin C → ℂ := (W * V)⁻¹ *ᵥ Pi.single k 1 with hv
  have hAv : (W * V) *ᵥ v = Pi.single k 1 := by
    rw [hv, Matrix.mulVec_mulVec, Matrix.mul_nonsing_inv _ hAdet, Matrix.one_mulVec]
  have hα : W *ᵥ (V *ᵥ v) = Pi.single k 1 := by rw [Matrix.mulVec_mulVec]; exact hAv
  have hclose := ridge_close (W * V) (fun i => rowWeight (W * V) eps i) v z he hμ (fun j => by
      have := hnorm 0 j
      rw [← this]
      congr 1
      refine Finset.sum_congr rfl fun i _ => ?_
      rw [hAv]
      congr 3
      simp [Pi.single_apply, Fin.ext_iff]) (fun u => hsys u)
  -- the angle between the two
  have hang := angle_bound (wframes x w z) (wframes x w v)
  have hd : ‖wframes x w v - wframes x w z‖ ^ 2 ≤ κ * (eps / (μ + eps)) ^ 2 * ‖wframes x w v‖ ^ 2 := by
    rw [← wframes_sub]
    have hκ : 0 ≤ κ := by
      have h1 := hlow v
      have h2 := hup v
      by_contra hc
      have : 0 < ∑ c, ‖v c‖ ^ 2 := by
        have hv0 : v ≠ 0 := by
          intro h0
          rw [h0, Matrix.mulVec_zero] at hAv
          have := congrFun hAv k
          simp at this
        obtain ⟨c, hc⟩ := Function.ne_iff.1 hv0
        exact Finset.sum_pos' (fun c _ => by positivity) ⟨c, Finset.mem_univ c, by
          have := norm_pos_iff.2 hc; positivity⟩
      have := mul_pos ha this
      nlinarith
    calc ‖wframes x w (v - z)‖ ^ 2 ≤ κ * (a * ∑ c, ‖(v - z) c‖ ^ 2) := hup _
      _ ≤ κ * (a * ((eps / (μ + eps)) ^ 2 * ∑ c, ‖v c‖ ^ 2)) := by gcongr
      _ = κ * (eps / (μ + eps)) ^ 2 * (a * ∑ c, ‖v c‖ ^ 2) := by ring
      _ ≤ _ := mul_le_mul_of_nonneg_left (hlow v) (by positivity)
  -- the energy of the new row is one
  set E := ‖wframes x w z‖ ^ 2 with hE
  have hscale : (∑ c, ∑ d, star (sol c 0) * star (star (sol d 0)) * V c d).re = E := by
    have : ∑ c, ∑ d, star (sol c 0) * star (star (sol d 0)) * V c d = inner ℂ (wframes x w z) (wframes x w z) := by
      rw [wframes_inner x w hw]
      refine Finset.sum_congr rfl fun c _ => ?_
      simp only [mulVec, dotProduct, Finset.mul_sum, star_star]
      exact Finset.sum_congr rfl fun d _ => by simp only [hz]; ring
    rw [this, inner_self_eq_norm_sq_to_K, hE]
    norm_cast
  rw [hscale] at hrow
  have hr : ∀ c, row c = star (z c) / ((√(clampMin E eps) : ℝ) : ℂ) := fun c => by rw [← hrow]
  have hm0 : 0 < clampMin E eps := lt_of_lt_of_le he (le_max_right _ _)
  have hEm : E = clampMin E eps := by
    have : ∑ n, w n * ‖∑ c, row c * x c n‖ ^ 2 = E / clampMin E eps := by
      rw [hE, hQ, Finset.sum_div]
      refine Finset.sum_congr rfl fun n _ => ?_
      have : ∑ c, row c * x c n = (∑ c, star (z c) * x c n) / (√(clampMin E eps) : ℝ) := by
        rw [Finset.sum_div]; exact Finset.sum_congr rfl fun c _ => by rw [hr]; ring
      rw [← hQ, ← hE, this, norm_div, Complex.norm_of_nonneg (Real.sqrt_nonneg _), div_pow, Real.sq_sqrt hm0.le]
      ring
    rw [this, div_eq_one_iff_eq hm0.ne'] at hunit
    exact hunit
  have hE0 : 0 < E := by rw [hEm]; exact hm0
  -- the determinant
  have hdet : ‖(W.updateRow k row).det‖ ^ 2 = ‖W.det‖ ^ 2 * (‖inner ℂ (wframes x w z) (wframes x w v)‖ ^ 2 / E) := by
    rw [det_updateRow_eq W k row (V *ᵥ v) hα, norm_mul, mul_pow, wframes_inner x w hw]
    have : ∑ c, row c * (V *ᵥ v) c = (∑ c, star (z c) * (V *ᵥ v) c) / ((√E : ℝ) : ℂ) := by
      rw [Finset.sum_div]
      refine Finset.sum_congr rfl fun c _ => ?_
      rw [hr, ← hEm]; ring
    rw [this, norm_div, Complex.norm_of_nonneg (Real.sqrt_nonneg _), div_pow, Real.sq_sqrt hE0.le]
  -- Cauchy-Schwarz for the old row
  have hold : 1 ≤ (∑ n, w n * ‖∑ c, W k c * x c n‖ ^ 2) * ‖wframes x w v‖ ^ 2 := by
    set u : Fin C → ℂ := fun c => star (W k c) with hu
    have h1 : ∑ n, w n * ‖∑ c, W k c * x c n‖ ^ 2 = ‖wframes x w u‖ ^ 2 := by
      rw [hQ]; simp only [hu, star_star]
    have h2 : inner ℂ (wframes x w u) (wframes x w v) = 1 := by
      rw [wframes_inner x w hw]
      have := congrFun hα k
      simp only [hu, star_star]
      rw [Pi.single_eq_same] at this
      exact this
    have h3 := norm_inner_le_norm (𝕜 := ℂ) (wframes x w u) (wframes x w v)
    rw [h2, norm_one] at h3
    rw [h1, ← mul_pow]
    nlinarith
  rw [hdet]
  set δ := κ * (eps / (μ + eps)) ^ 2 with hδd
  set Q := ∑ n, w n * ‖∑ c, W k c * x c n‖ ^ 2 with hQd
  set I := ‖inner ℂ (wframes x w z) (wframes x w v)‖ ^ 2 with hI
  set G := ‖wframes x w v‖ ^ 2 with hG
  have hG0 : 0 ≤ G := by positivity
  have hQ0 : 0 ≤ Q := Finset.sum_nonneg fun n _ => mul_nonneg (hw n) (by positivity)
  have h1 : (1 - δ) * G ≤ I / E := by
    rw [le_div_iff₀ hE0]
    nlinarith
  have h2 : (1 - δ) ≤ I / E * Q := by
    have h3 : (1 - δ) * 1 ≤ (1 - δ) * (Q * G) := mul_le_mul_of_nonneg_left hold (by linarith)
    have h4 := mul_le_mul_of_nonneg_right h1 hQ0
    nlinarith
  have hD : 0 ≤ ‖W.det‖ ^ 2 := by positivity
  nlinarith [mul_le_mul_of_nonneg_left h2 hD]

private lemma step_eq (x : Fin C → Fin N → ℂ) (Cx : Matrix (Fin C) (Fin C) ℂ) (w : Fin C → Fin N → ℝ) (eps : ℝ)
    (W : Matrix (Fin C) (Fin C) ℂ) (k : Fin C) (r) (h : ipSrcUpdate le_rfl x Cx w eps W k = .ok r) :
    ∃ row, ipNewRow le_rfl W none (weightedCov x (w k)) k eps = .ok row ∧ r = (W.updateRow k row, none) := by
  unfold ipSrcUpdate at h
  rw [Props.orthogonal_constraint_square] at h
  simp only [bind, Except.bind] at h
  cases hr : ipNewRow le_rfl W none (weightedCov x (w k)) k eps with
  | error e => rw [hr] at h; cases h
  | ok row =>
    rw [hr] at h
    simp only [pure, Except.pure, Except.ok.injEq] at h
    exact ⟨row, rfl, h.symm⟩

private lemma sweep_other (x : Fin C → Fin N → ℂ) (Cx : Matrix (Fin C) (Fin C) ℂ) (w : Fin C → Fin N → ℝ) (eps : ℝ)
    (l : List (Fin C)) (st r) (h : ipSweep le_rfl x Cx w eps l st = .ok r) (i : Fin C) (hi : i ∉ l) : r.1 i = st.1 i := by
  induction l generalizing st with
  | nil => cases h; rfl
  | cons k l ih =>
    simp only [ipSweep] at h
    cases h1 : ipSrcUpdate le_rfl x Cx w eps st.1 k with
    | error e => rw [h1] at h; cases h
    | ok st1 =>
      rw [h1] at h
      obtain ⟨row, -, rfl⟩ := step_eq x Cx w eps st.1 k st1 h1
      rw [List.mem_cons, not_or] at hi
      rw [ih _ h hi.2]
      exact Matrix.updateRow_ne hi.1

/-- All the row updates of one sweep at one frequency. -/
private lemma sweep_gain (x : Fin C → Fin N → ℂ) (Cx : Matrix (Fin C) (Fin C) ℂ) (w : Fin C → Fin N → ℝ) (hw : ∀ k n, 0 ≤ w k n)
    {eps κ μ : ℝ} (he : 0 < eps) (hμ : 0 < μ) (hδ : κ * (eps / (μ + eps)) ^ 2 < 1)
    (hcov : ∀ k, ∃ a : ℝ, 0 < a ∧ ∀ v : Fin C → ℂ, a * ∑ c, ‖v c‖ ^ 2 ≤ ∑ n, w k n * ‖∑ c, v c * x c n‖ ^ 2 ∧
      ∑ n, w k n * ‖∑ c, v c * x c n‖ ^ 2 ≤ κ * (a * ∑ c, ‖v c‖ ^ 2))
    (l : List (Fin C)) (hnd : l.Nodup) (st r) (h : ipSweep le_rfl x Cx w eps l st = .ok r)
    (hsys : ∀ l1 k l3, l = l1 ++ k :: l3 → ∀ v : Fin C → ℂ, μ * ∑ c, ‖v c‖ ^ 2 ≤
      ∑ i, (1 / max (l2 ((Matrix.of (fun i c => if i ∈ l1 then r.1 i c else st.1 i c) * covSum x (w k)) i)) eps) ^ 2
        * ‖((Matrix.of (fun i c => if i ∈ l1 then r.1 i c else st.1 i c) * covSum x (w k)).mulVec v) i‖ ^ 2)
    (hunit : ∀ k ∈ l, ∑ n, w k n * ‖∑ c, r.1 k c * x c n‖ ^ 2 = 1) (hdet : st.1.det ≠ 0) :
    r.1.det ≠ 0 ∧ (1 - κ * (eps / (μ + eps)) ^ 2) ^ l.length * ‖st.1.det‖ ^ 2
      ≤ ‖r.1.det‖ ^ 2 * (l.map fun k => ∑ n, w k n * ‖∑ c, st.1 k c * x c n‖ ^ 2).prod := by
  induction l generalizing st with
  | nil => cases h; exact ⟨hdet, by simp⟩
  | cons k l ih =>
    have h' := h
    simp only [ipSweep] at h
    cases h1 : ipSrcUpdate le_rfl x Cx w eps st.1 k with
    | error e => rw [h1] at h; cases h
    | ok st1 =>
      rw [h1] at h
      obtain ⟨row, hrow, rfl⟩ := step_eq x Cx w eps st.1 k st1 h1
      have hk : k ∉ l := (List.nodup_cons.1 hnd).1
      have hrk : r.1 k = row := by
        rw [sweep_other x Cx w eps l _ r h k hk]
        exact Matrix.updateRow_self
      obtain ⟨a, ha, hca⟩ := hcov k
      have hg := row_gain x (w k) (hw k) st.1 k he hμ ha hδ hca (fun v => by
        have := hsys [] k l rfl v
        have e : (Matrix.of fun i c => if i ∈ ([] : List (Fin C)) then r.1 i c else st.1 i c) = st.1 := by
          ext i c; simp
        rw [e] at this
        exact this) hdet row hrow (by rw [← hrk]; exact hunit k (by simp))
      have h1δ : 0 < 1 - κ * (eps / (μ + eps)) ^ 2 := by linarith
      have hd1 : (st.1.updateRow k row).det ≠ 0 := by
        intro h0
        rw [h0, norm_zero] at hg
        have := norm_pos_iff.2 hdet
        have : 0 < (1 - κ * (eps / (μ + eps)) ^ 2) * ‖st.1.det‖ ^ 2 := by positivity
        norm_num at hg
        linarith
      obtain ⟨hrd, hi⟩ := ih (List.nodup_cons.1 hnd).2 (st.1.updateRow k row, none) h (fun l1 j l3 hl v => by
        have := hsys (k :: l1) j l3 (by rw [hl]; rfl) v
        have e : (Matrix.of fun i c => if i ∈ l1 then r.1 i c else (st.1.updateRow k row) i c)
            = Matrix.of fun i c => if i ∈ k :: l1 then r.1 i c else st.1 i c := by
          ext i c
          simp only [Matrix.of_apply, List.mem_cons]
          by_cases hik : i = k
          · subst hik
            have : i ∉ l1 := fun hm => hk (by rw [hl]; exact List.mem_append_left _ hm)
            simp [this, hrk]
          · simp [hik]
        rw [e]
        exact this) (fun j hj => hunit j (List.mem_cons_of_mem _ hj)) hd1
      refine ⟨hrd, ?_⟩
      have e : (l.map fun j => ∑ n, w j n * ‖∑ c, (st.1.updateRow k row) j c * x c n‖ ^ 2)
          = l.map fun j => ∑ n, w j n * ‖∑ c, st.1 j c * x c n‖ ^ 2 := by
        refine List.map_congr_left fun j hj => ?_
        have : j ≠ k := fun h => hk (h ▸ hj)
        rw [Matrix.updateRow_ne this]
      simp only [e] at hi
      rw [List.length_cons, pow_succ, List.map_cons, List.prod_cons]
      set P := (l.map fun j => ∑ n, w j n * ‖∑ c, st.1 j c * x c n‖ ^ 2).prod
      set Q := ∑ n, w k n * ‖∑ c, st.1 k c * x c n‖ ^ 2
      have hQ : 0 ≤ Q := Finset.sum_nonneg fun n _ => mul_nonneg (hw k n) (by positivity)
      calc _ = (1 - κ * (eps / (μ + eps)) ^ 2) ^ l.length * ((1 - κ * (eps / (μ + eps)) ^ 2) * ‖st.1.det‖ ^ 2) := by ring
        _ ≤ (1 - κ * (eps / (μ + eps)) ^ 2) ^ l.length * (‖(st.1.updateRow k row).det‖ ^ 2 * Q) :=
          mul_le_mul_of_nonneg_left hg (by positivity)
        _ = ((1 - κ * (eps / (μ + eps)) ^ 2) ^ l.length * ‖(st.1.updateRow k row).det‖ ^ 2) * Q := by ring
        _ ≤ (‖r.1.det‖ ^ 2 * P) * Q := mul_le_mul_of_nonneg_right hi hQ
        _ = _ := by ring

private lemma finRange_split (l1 l2 : List (Fin C)) (k : Fin C) (h : List.finRange C = l1 ++ k :: l2) (i : Fin C) : i ∈ l1 ↔ i < k := by
  have hp : (l1 ++ k :: l2).Pairwise (· < ·) := h ▸ List.pairwise_lt_finRange C
  rw [List.pairwise_append] at hp
  refine ⟨fun hi => hp.2.2 i hi k (by simp), fun hi => ?_⟩
  have hm : i ∈ l1 ++ k :: l2 := h ▸ List.mem_finRange i
  rcases List.mem_append.1 hm with h1 | h1
  · exact h1
  · rcases List.mem_cons.1 h1 with h1 | h1
    · omega
    · have := (List.pairwise_cons.1 hp.2.1).1 i h1
      omega

/-- One sweep at one frequency, in terms of the demixing matrices before and after. -/
lemma sweep_det (x : Fin C → Fin N → ℂ) (Cx : Matrix (Fin C) (Fin C) ℂ) (w : Fin C → Fin N → ℝ) (hw : ∀ k n, 0 ≤ w k n)
    {eps κ μ : ℝ} (he : 0 < eps) (hμ : 0 < μ) (hδ : κ * (eps / (μ + eps)) ^ 2 < 1) (W : Matrix (Fin C) (Fin C) ℂ)
    (level : Fin C → ℝ) (hl : ∀ k, 0 < level k) (J0 r)
    (h : ipSweep le_rfl x Cx w eps (List.finRange C) (Matrix.of fun k c => W k c / (level k : ℂ), J0) = .ok r)
    (hc : IpConditioned x w (ipStage W r.1 level) eps κ μ)
    (hunit : ∀ k, ∑ n, w k n * ‖∑ c, r.1 k c * x c n‖ ^ 2 = 1) (hdet : W.det ≠ 0) :
    r.1.det ≠ 0 ∧ (1 - κ * (eps / (μ + eps)) ^ 2) ^ C * ‖W.det‖ ^ 2
      ≤ ‖r.1.det‖ ^ 2 * ∏ k, ∑ n, w k n * ‖∑ c, W k c * x c n‖ ^ 2 := by
  set W0 : Matrix (Fin C) (Fin C) ℂ := Matrix.of fun k c => W k c / (level k : ℂ) with hW0
  have hd0 : W0.det = (∏ k, ((level k : ℝ) : ℂ)⁻¹) * W.det := by
    rw [← Matrix.det_mul_column (fun k => ((level k : ℝ) : ℂ)⁻¹) W]
    congr 1
    ext k c
    simp only [hW0, Matrix.of_apply]
    ring
  have hL : 0 < ∏ k, (level k)⁻¹ ^ 2 := Finset.prod_pos fun k _ => by have := hl k; positivity
  have hn0 : ‖W0.det‖ ^ 2 = (∏ k, (level k)⁻¹ ^ 2) * ‖W.det‖ ^ 2 := by
    rw [hd0, norm_mul, mul_pow, norm_prod, Finset.prod_pow]
    congr 2
    refine Finset.prod_congr rfl fun k _ => ?_
    rw [norm_inv, Complex.norm_of_nonneg (hl k).le]
  have hne : W0.det ≠ 0 := by
    intro h0
    rw [h0] at hn0
    have := norm_pos_iff.2 hdet
    have : 0 < (∏ k, (level k)⁻¹ ^ 2) * ‖W.det‖ ^ 2 := by positivity
    norm_num at hn0
    rcases hn0 with h | h
    · exact absurd h (by rw [Finset.prod_eq_zero_iff]; simp [(hl _).ne'])
    · exact hdet h
  obtain ⟨h1, h2⟩ := sweep_gain x Cx w hw he hμ hδ hc.cov (List.finRange C) (List.nodup_finRange C) (W0, J0) r h
    (fun l1 k l3 hl v => by
      have := hc.sys k v
      have e : (Matrix.of fun i c => if i ∈ l1 then r.1 i c else W0 i c) = ipStage W r.1 level k := by
        ext i c
        simp only [Matrix.of_apply, ipStage, finRange_split l1 l3 k hl i, hW0]
      rw [e]
      exact this) (fun k _ => hunit k) hne
  refine ⟨h1, ?_⟩
  rw [List.length_finRange, hn0] at h2
  have e : ((List.finRange C).map fun k => ∑ n, w k n * ‖∑ c, W0 k c * x c n‖ ^ 2).prod
      = (∏ k, (level k)⁻¹ ^ 2) * ∏ k, ∑ n, w k n * ‖∑ c, W k c * x c n‖ ^ 2 := by
    rw [← Finset.prod_mul_distrib, ← List.ofFn_eq_map, List.prod_ofFn]
    refine Finset.prod_congr rfl fun k _ => ?_
    rw [Finset.mul_sum]
    refine Finset.sum_congr rfl fun n _ => ?_
    have : ∑ c, W0 k c * x c n = ((level k : ℝ) : ℂ)⁻¹ * ∑ c, W k c * x c n := by
      rw [Finset.mul_sum]
      exact Finset.sum_congr rfl fun c _ => by simp only [hW0, Matrix.of_apply]; ring
    rw [this, norm_mul, mul_pow, norm_inv, Complex.norm_of_nonneg (hl k).le]
    ring
  rw [e] at h2
  refine le_of_mul_le_mul_left ?_ hL
  calc _ = (1 - κ * (eps / (μ + eps)) ^ 2) ^ C * ((∏ k, (level k)⁻¹ ^ 2) * ‖W.det‖ ^ 2) := by ring
    _ ≤ _ := h2
    _ = _ := by ring

end Torchiva
