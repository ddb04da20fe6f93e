import Verif.Proofs.Checkpoint
import Verif.Proofs.Eig2
import Mathlib.Analysis.SpecialFunctions.Pow.Deriv

/-!
# Lemmas for C103: one iteration of T-ISS with `NMFModel` on a single coefficient
-/

namespace Torchiva

lemma nmf_one {eps T V P : ℝ} (hT : 0 < T) (hV : 0 < V) (hP : 0 < P) (h1 : eps ≤ T * √(P / (T * V))) (h2 : eps ≤ √(P * (T * V)))
    (h3 : eps ≤ V * √(P / √(P * (T * V)))) (h4 : eps ≤ √(P * √(P * (T * V)))) (uT uV) (y : Sig 1 1 1) (hy : magSq (y 0 0 0) = P) :
    nmfForward (K := 1) eps uT uV (some ⟨fun _ _ _ => T, fun _ _ _ => V, fun _ _ _ => (T * V)⁻¹⟩) y =
      .ok (fun _ _ _ => (√(P * √(P * (T * V))))⁻¹, some ⟨fun _ _ _ => T * √(P / (T * V)), fun _ _ _ => V * √(P / √(P * (T * V))),
        fun _ _ _ => (√(P * √(P * (T * V))))⁻¹⟩) := by
  have hy' : ∀ b f n : Fin 1, magSq (y b f n) = P := by
    intro b f n
    rw [Subsingleton.elim b 0, Subsingleton.elim f 0, Subsingleton.elim n 0, hy]
  have hTV : 0 < T * V := mul_pos hT hV
  have hq : 0 < √(P * (T * V)) := Real.sqrt_pos.2 (mul_pos hP hTV)
  have e1 : T * √(P / (T * V)) * V = √(P * (T * V)) := by
    rw [Real.sqrt_div hP.le, Real.sqrt_mul hP.le]
    have := Real.mul_self_sqrt hTV.le
    field_simp
    nlinarith [Real.sqrt_pos.2 hTV]
  have hT1 : 0 < T * √(P / (T * V)) := mul_pos hT (Real.sqrt_pos.2 (div_pos hP hTV))
  have e2 : T * √(P / (T * V)) * (V * √(P / √(P * (T * V)))) = √(P * √(P * (T * V))) := by
    rw [← mul_assoc, e1, Real.sqrt_div hP.le, Real.sqrt_mul hP.le (√(P * (T * V)))]
    generalize √(P * (T * V)) = Q at hq
    have := Real.sq_sqrt hq.le
    have h' := Real.sqrt_pos.2 hq
    field_simp
    rw [this]
  have n1 : nmfUpdateT (K := 1) eps (fun b f n => magSq (y b f n)) ⟨fun _ _ _ => T, fun _ _ _ => V, fun _ _ _ => (T * V)⁻¹⟩ =
      .ok ⟨fun _ _ _ => T * √(P / (T * V)), fun _ _ _ => V, fun _ _ _ => (√(P * (T * V)))⁻¹⟩ := by
    unfold nmfUpdateT
    rw [if_neg]
    · congr 1
      simp only [nmfRecompute, Finset.univ_unique, Finset.sum_singleton, hy']
      have e : P * (T * V)⁻¹ ^ 2 * V / ((T * V)⁻¹ * V) = P / (T * V) := by field_simp
      have m1 : clampMin (T * √(P / (T * V))) eps = T * √(P / (T * V)) := max_eq_left h1
      have m2 : clampMin (√(P * (T * V))) eps = √(P * (T * V)) := max_eq_left h2
      simp only [e, m1, e1, m2]
    · simp only [Finset.univ_unique, Finset.sum_singleton]
      push Not
      intro _ _ _
      positivity
  have n2 : nmfUpdateV (K := 1) eps (fun b f n => magSq (y b f n)) ⟨fun _ _ _ => T * √(P / (T * V)), fun _ _ _ => V, fun _ _ _ => (√(P * (T * V)))⁻¹⟩ =
      .ok ⟨fun _ _ _ => T * √(P / (T * V)), fun _ _ _ => V * √(P / √(P * (T * V))), fun _ _ _ => (√(P * √(P * (T * V))))⁻¹⟩ := by
    unfold nmfUpdateV
    rw [if_neg]
    · congr 1
      simp only [nmfRecompute, Finset.univ_unique, Finset.sum_singleton, hy']
      have e : P * (√(P * (T * V)))⁻¹ ^ 2 * (T * √(P / (T * V))) / ((√(P * (T * V)))⁻¹ * (T * √(P / (T * V)))) = P / √(P * (T * V)) := by
        field_simp
      have m1 : clampMin (V * √(P / √(P * (T * V)))) eps = V * √(P / √(P * (T * V))) := max_eq_left h3
      have m2 : clampMin (√(P * √(P * (T * V)))) eps = √(P * √(P * (T * V))) := max_eq_left h4
      simp only [e, m1, e2, m2]
    · simp only [Finset.univ_unique, Finset.sum_singleton]
      push Not
      intro _ _ _
      positivity
  simp only [nmfForward, Option.getD_some, n1, bind, Except.bind, n2]


namespace Demo

noncomputable def nmfStep (ms : Option (NmfState 1 1 1 1)) (p : Sig 1 1 1 × (Fin 0 → ℝ)) (x : Filters 1 1 1 0)
    (q : (Sig 1 1 1 × (Fin 0 → ℝ)) × Filters 1 1 1 0) : Filters 1 1 1 0 :=
  (tissDmcLive le_rfl 0 (nmfNet 1e-5 (fun _ _ _ => 1) fun _ _ _ => 1) 1e-3 ms (p, x) q).1

end Demo

lemma rpow_identity {P R : ℝ} (hP : 0 < P) (hR : 0 < R) :
    1 / √P * (1 / √((√(P * √(P * R)))⁻¹ * P * 1)) = R ^ (1 / 8 : ℝ) * P ^ (-(5 / 8) : ℝ) := by
  have e : (√(P * √(P * R)))⁻¹ * P * 1 = P ^ (1 / 4 : ℝ) * R ^ (-(1 / 4) : ℝ) := by
    rw [Real.sqrt_eq_rpow, Real.sqrt_eq_rpow, Real.mul_rpow hP.le hR.le, ← mul_assoc, Real.mul_rpow (by positivity) (by positivity),
      Real.mul_rpow (by positivity) (by positivity), ← Real.rpow_mul hP.le, ← Real.rpow_mul hR.le, mul_inv, mul_inv, ← Real.rpow_neg hP.le,
      ← Real.rpow_neg hP.le, ← Real.rpow_neg hR.le, mul_one]
    have : P ^ (-(1 / 2 : ℝ)) * P ^ (-(1 / 2 * (1 / 2) : ℝ)) * P = P ^ (1 / 4 : ℝ) := by
      nth_rewrite 3 [← Real.rpow_one P]
      rw [← Real.rpow_add hP, ← Real.rpow_add hP]
      norm_num
    rw [mul_right_comm, this]
    norm_num
  rw [e, Real.sqrt_eq_rpow, Real.sqrt_eq_rpow, Real.mul_rpow (by positivity) (by positivity), ← Real.rpow_mul hP.le, ← Real.rpow_mul hR.le,
    one_div (P ^ _), one_div (_ * _), mul_inv, ← Real.rpow_neg hP.le, ← Real.rpow_neg hP.le, ← Real.rpow_neg hR.le, ← mul_assoc, ← Real.rpow_add hP, mul_comm]
  norm_num

open Filter Topology Demo

lemma nmf_local {T V : ℝ} (hT : 1 ≤ T) (hV : 1 ≤ V) (hTV : T * V ≤ 8) (p : Sig 1 1 1 × (Fin 0 → ℝ)) (x : Filters 1 1 1 0)
    (hp : p.1 = fun _ _ _ => 4) (hx : x.1 = fun _ _ _ => 1) :
    (fun q => nmfStep (some ⟨fun _ _ _ => T, fun _ _ _ => V, fun _ _ _ => (T * V)⁻¹⟩) p x q) =ᶠ[𝓝 (p, x)] fun q =>
      (fun _ _ _ => q.2.1 0 0 0 * (((T * V) ^ (1 / 8 : ℝ) * magSq (q.2.1 0 0 0 * q.1.1 0 0 0) ^ (-(5 / 8) : ℝ) : ℝ) : ℂ), 0) := by
  have hc : ContinuousAt (fun q : (Sig 1 1 1 × (Fin 0 → ℝ)) × Filters 1 1 1 0 => magSq (q.2.1 0 0 0 * q.1.1 0 0 0)) (p, x) := by
    refine (differentiableAt_magSq ?_).continuousAt (𝕜 := ℝ)
    fun_prop
  have h16 : magSq (x.1 0 0 0 * p.1 0 0 0) = 16 := by rw [hx, hp]; norm_num [magSq, magSqE]
  have h1 : ∀ᶠ q in 𝓝 (p, x), (8 : ℝ) < magSq (q.2.1 0 0 0 * q.1.1 0 0 0) :=
    hc.eventually (lt_mem_nhds (by show _ < magSq (x.1 0 0 0 * p.1 0 0 0); rw [h16]; norm_num))
  filter_upwards [h1] with q hq
  generalize hP : magSq (q.2.1 0 0 0 * q.1.1 0 0 0) = P at hq
  have hTVpos : 0 < T * V := by positivity
  have hT0 : 0 < T := by linarith
  have hV0 : 0 < V := by linarith
  have b0 : 1 ≤ P / (T * V) := by rw [le_div_iff₀ hTVpos]; linarith
  have b1 : 1 ≤ √(P / (T * V)) := Real.one_le_sqrt.2 b0
  have b2 : 1 ≤ √(P * (T * V)) := Real.one_le_sqrt.2 (by nlinarith)
  have b2' : √(P * (T * V)) ≤ P := by
    rw [Real.sqrt_le_left (by linarith)]
    nlinarith
  have b3 : 1 ≤ √(P / √(P * (T * V))) := Real.one_le_sqrt.2 (by rw [le_div_iff₀ (by linarith)]; linarith)
  have b4 : 1 ≤ √(P * √(P * (T * V))) := Real.one_le_sqrt.2 (by nlinarith)
  have hf := nmf_one (eps := 1e-5) (P := P) hT0 hV0 (by linarith) (by nlinarith) (by linarith) (by nlinarith) (by linarith) (fun _ _ _ => 1) (fun _ _ _ => 1)
    (fun _ _ _ => q.2.1 0 0 0 * q.1.1 0 0 0) hP
  refine Prod.ext ?_ (Prod.ext (funext fun a => funext fun b => funext fun c => funext fun t => t.elim0) (funext fun a => ?_))
  · funext a b c
    simp only [nmfStep]
    rw [one_step]
    simp only [nmfNet, hf]
    have c1 : clampMin P 1e-3 = P := max_eq_left (by linarith)
    have c2 : clampMin (√P) 1e-3 = √P := max_eq_left (by nlinarith [Real.one_le_sqrt.2 (show 1 ≤ P by linarith)])
    have hPp : 0 < P := by linarith
    have c3 : magSq (divide (q.2.1 0 0 0 * q.1.1 0 0 0) √P 1e-3) = 1 := by
      rw [divide, c2]
      simp only [magSq_eq] at hP ⊢
      rw [norm_div, div_pow, hP, Complex.norm_real, Real.norm_eq_abs, sq_abs, Real.sq_sqrt hPp.le, div_self hPp.ne']
    rw [hP, c1, c3]
    have c4 : clampMin ((√(P * √(P * (T * V))))⁻¹ * P * 1) 1e-3 = (√(P * √(P * (T * V))))⁻¹ * P * 1 := by
      refine max_eq_left ?_
      have : √(P * √(P * (T * V))) ≤ P := by
        rw [Real.sqrt_le_left (by linarith)]
        nlinarith
      have : 1 ≤ (√(P * √(P * (T * V))))⁻¹ * P := by
        rw [inv_mul_eq_div, le_div_iff₀ (by linarith)]
        linarith
      linarith
    rw [c4, divide, c2, ← rpow_identity hPp hTVpos]
    push_cast
    ring
  · exact (Nat.not_lt_zero _ a.2).elim


namespace Demo

/-- Real part of the only coefficient of the demixing filter. -/
noncomputable def outW : Filters 1 1 1 0 →L[ℝ] ℝ where
  toFun x := (x.1 0 0 0).re
  map_add' _ _ := rfl
  map_smul' c x := by simp
  cont := Complex.continuous_re.comp (by fun_prop)

lemma outW_apply (x : Filters 1 1 1 0) : outW x = (x.1 0 0 0).re := rfl

end Demo

lemma nmf_deriv {T V : ℝ} (hT : 1 ≤ T) (hV : 1 ≤ V) (hTV : T * V ≤ 8) (p : Sig 1 1 1 × (Fin 0 → ℝ)) (x : Filters 1 1 1 0)
    (hp : p.1 = fun _ _ _ => 4) (hx : x.1 = fun _ _ _ => 1) :
    DifferentiableAt ℝ (nmfStep (some ⟨fun _ _ _ => T, fun _ _ _ => V, fun _ _ _ => (T * V)⁻¹⟩) p x) (p, x) ∧
    outW (fderiv ℝ (nmfStep (some ⟨fun _ _ _ => T, fun _ _ _ => V, fun _ _ _ => (T * V)⁻¹⟩) p x) (p, x) ((fun _ _ _ => 1, 0), 0)) =
      (T * V) ^ (1 / 8 : ℝ) * ((-(5 / 8) : ℝ) * 16 ^ (-(5 / 8) - 1 : ℝ) * 8) := by
  have hl := nmf_local hT hV hTV p x hp hx
  have hd : DifferentiableAt ℝ (nmfStep (some ⟨fun _ _ _ => T, fun _ _ _ => V, fun _ _ _ => (T * V)⁻¹⟩) p x) (p, x) := by
    refine DifferentiableAt.congr_of_eventuallyEq ?_ hl
    refine DifferentiableAt.prodMk ?_ (differentiableAt_const _)
    refine differentiableAt_pi.2 fun _ => differentiableAt_pi.2 fun _ => differentiableAt_pi.2 fun _ => ?_
    refine DifferentiableAt.mul (by fun_prop) (differentiableAt_ofReal (DifferentiableAt.const_mul (DifferentiableAt.rpow_const
      (differentiableAt_magSq (by fun_prop)) (Or.inl ?_)) _))
    rw [hx, hp]
    norm_num [magSq, magSqE]
  refine ⟨hd, ?_⟩
  set w : (Sig 1 1 1 × (Fin 0 → ℝ)) × Filters 1 1 1 0 := ((fun _ _ _ => 1, 0), 0) with hw
  have hline : HasDerivAt (fun t : ℝ => (p, x) + t • w) w 0 := by
    simpa using ((hasDerivAt_id (0 : ℝ)).smul_const w).const_add (p, x)
  have h0 : (p, x) + (0 : ℝ) • w = (p, x) := by simp
  have h1 : HasDerivAt (fun t : ℝ => outW (nmfStep (some ⟨fun _ _ _ => T, fun _ _ _ => V, fun _ _ _ => (T * V)⁻¹⟩) p x ((p, x) + t • w)))
      (outW (fderiv ℝ (nmfStep (some ⟨fun _ _ _ => T, fun _ _ _ => V, fun _ _ _ => (T * V)⁻¹⟩) p x) (p, x) w)) 0 := by
    have := (hd.hasFDerivAt.comp_hasDerivAt_of_eq (0 : ℝ) hline h0.symm)
    exact outW.hasFDerivAt.comp_hasDerivAt (0 : ℝ) this
  have h2 : HasDerivAt (fun t : ℝ => (T * V) ^ (1 / 8 : ℝ) * ((4 + t) ^ 2) ^ (-(5 / 8) : ℝ))
      ((T * V) ^ (1 / 8 : ℝ) * ((-(5 / 8) : ℝ) * 16 ^ (-(5 / 8) - 1 : ℝ) * 8)) 0 := by
    refine HasDerivAt.const_mul _ ?_
    have e : HasDerivAt (fun t : ℝ => (4 + t) ^ 2) 8 0 := by
      have := ((hasDerivAt_id (0 : ℝ)).const_add 4).pow 2
      norm_num at this
      exact this
    have := e.rpow_const (p := -(5 / 8)) (Or.inl (by norm_num))
    refine this.congr_deriv ?_
    norm_num
    ring
  refine h1.unique (h2.congr_of_eventuallyEq ?_)
  have ht0 := hline.continuousAt.tendsto
  rw [h0] at ht0
  have hl' := ht0.eventually hl
  filter_upwards [hl'] with t ht
  rw [ht, outW_apply]
  have e1 : ((p, x) + t • w).2.1 0 0 0 = 1 := by simp [hw, hx]
  have e2 : ((p, x) + t • w).1.1 0 0 0 = ((4 + t : ℝ) : ℂ) := by simp [hw, hp]
  simp only [e1, e2, one_mul, Complex.ofReal_re]
  congr 2
  simp [magSq, magSqE]

end Torchiva
