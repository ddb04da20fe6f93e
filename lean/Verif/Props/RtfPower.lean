import Verif.Props.Beamformer
import Mathlib.Analysis.Matrix.Order
import Mathlib.Analysis.SpecificLimits.Basic

/-!
# C96: what the power iterations of the MVDR beamformer compute
-/

namespace Torchiva.Props

open Torchiva Matrix Spec
open scoped ComplexOrder

variable {C : ℕ}

/-- `L` is `R + lam I`, where `lam` is `1e-5` times the largest entry of `R`, at least `1e-5`. -/
def IsLoaded (R L : Matrix (Fin C) (Fin C) ℂ) : Prop :=
  ∃ m : ℝ, IsGreatest (Set.range fun p : Fin C × Fin C => ‖R p.1 p.2‖) m ∧
    L = R + ((max (1e-5 * m) 1e-5 : ℝ) : ℂ) • (1 : Matrix (Fin C) (Fin C) ℂ)

private lemma loaded_pd {R L : Matrix (Fin C) (Fin C) ℂ} (hR : R.PosSemidef) (h : IsLoaded R L) : L.PosDef := by
  obtain ⟨m, -, rfl⟩ := h
  exact Matrix.PosDef.posSemidef_add hR (posDef_load (lt_of_lt_of_le (by norm_num) (le_max_right _ _)))

private lemma loaded_unique {R L L' : Matrix (Fin C) (Fin C) ℂ} (h : IsLoaded R L) (h' : IsLoaded R L') : L = L' := by
  obtain ⟨m, hm, rfl⟩ := h
  obtain ⟨m', hm', rfl⟩ := h'
  rw [hm.unique hm']

private lemma loaded_exists [NeZero C] {R : Matrix (Fin C) (Fin C) ℂ} (hR : R.PosSemidef) : ∃ L, IsLoaded R L := by
  obtain ⟨m, x, hm, -, -⟩ := solve_loaded_psd R hR R 1e-5 (by norm_num)
  exact ⟨_, m, hm, rfl⟩

/-- The first unit vector. -/
private def e0 [NeZero C] : Fin C → ℂ := Pi.single 0 1

private lemma mulVec_e0 [NeZero C] (A : Matrix (Fin C) (Fin C) ℂ) : A *ᵥ (e0 : Fin C → ℂ) = fun c => A c 0 := by
  unfold e0
  rw [Matrix.mulVec_single_one]
  rfl

private lemma normalize_iter (P : Matrix (Fin C) (Fin C) ℂ) (m : ℕ) (x : Fin C → ℂ) :
    ∃ r : ℝ, 0 < r ∧ (fun v => nnNormalize (P *ᵥ v))^[m] x = (r : ℂ) • (P ^ m *ᵥ x) := by
  induction m with
  | zero => exact ⟨1, one_pos, by simp⟩
  | succ m ih =>
    obtain ⟨r, hr, h⟩ := ih
    rw [Function.iterate_succ_apply', h]
    set q := clampMin (√(∑ c, ‖(P *ᵥ ((r : ℂ) • (P ^ m *ᵥ x))) c‖ ^ 2)) 1e-12 with hq
    have hq0 : 0 < q := lt_of_lt_of_le (by norm_num) (le_max_right _ _)
    refine ⟨r / q, div_pos hr hq0, ?_⟩
    funext c
    show (P *ᵥ ((r : ℂ) • (P ^ m *ᵥ x))) c / (q : ℂ) = _
    rw [Matrix.mulVec_smul, Matrix.mulVec_mulVec, ← pow_succ']
    simp only [Pi.smul_apply, smul_eq_mul]
    push_cast
    ring

/-- **C96.**  With a positive semi-definite noise covariance, `n ≥ 1` power iterations always return a positive multiple of
`(L⁻¹ Rt)^n e₀`, where `L` is the loaded noise covariance and `e₀` selects the first microphone (whatever the reference). -/
theorem rtf_power_form [NeZero C] (solver) (Rt Rn L : Matrix (Fin C) (Fin C) ℂ) (hn : Rn.PosSemidef) (hL : IsLoaded Rn L)
    (n : ℕ) (h1 : 1 ≤ n) :
    ∃ (v : Fin C → ℂ) (r : ℝ), rtfVector solver Rt Rn (some n) = .ok v ∧ 0 < r ∧
      ∀ c, v c = r * ((L⁻¹ * Rt) ^ n) c 0 := by
  obtain ⟨m, P, hm, hP, hLP⟩ := solve_loaded_psd Rn hn Rt 1e-5 (by norm_num)
  have hL' : L = Rn + ((max (1e-5 * m) 1e-5 : ℝ) : ℂ) • (1 : Matrix (Fin C) (Fin C) ℂ) :=
    loaded_unique hL ⟨m, hm, rfl⟩
  rw [← hL'] at hLP
  have hPL : P = L⁻¹ * Rt := by
    rw [← hLP, Matrix.nonsing_inv_mul_cancel_left _ _ (isUnit_det_of_posDef (loaded_pd hn hL))]
  obtain ⟨r, hr, h⟩ := normalize_iter P (n - 1) fun c => P c 0
  refine ⟨_, r, by simp only [rtfVector, hP, bind, Except.bind]; rfl, hr, fun c => ?_⟩
  rw [h, ← mulVec_e0, Matrix.mulVec_mulVec, ← pow_succ, show n - 1 + 1 = n by omega, mulVec_e0, hPL]
  rfl

/-- Noise of equal power in three microphones, five iterations. -/
example (solver) (Rt : Matrix (Fin 3) (Fin 3) ℂ) : ∃ (v : Fin 3 → ℂ) (r : ℝ), rtfVector solver Rt 1 (some 5) = .ok v ∧ 0 < r ∧
    ∀ c, v c = r * (((((1 + 1e-5 : ℝ) : ℂ) • (1 : Matrix (Fin 3) (Fin 3) ℂ))⁻¹ * Rt) ^ 5) c 0 := by
  refine rtf_power_form solver Rt 1 _ PosSemidef.one ⟨1, ⟨⟨(0, 0), by simp⟩, ?_⟩, ?_⟩ 5 (by norm_num)
  · rintro _ ⟨⟨i, j⟩, rfl⟩
    by_cases h : i = j <;> simp [h, Matrix.one_apply]
  · ext i j
    by_cases h : i = j <;> simp [h, Matrix.one_apply]
    all_goals norm_num

/-- **C96, C40.**  The relative transfer function computed with `n ≥ 1` power iterations: the call returns iff the reference entry
of `Rn (L⁻¹ Rt)^n e₀` is nonzero, and then it returns that vector divided by its reference entry. -/
theorem rtf_power_value [NeZero C] (solver) (Rt Rn L : Matrix (Fin C) (Fin C) ℂ) (hn : Rn.PosSemidef) (hL : IsLoaded Rn L)
    (n : ℕ) (h1 : 1 ≤ n) (ref : Fin C) (d : Fin C → ℂ) :
    mvdrRtf solver Rt Rn ref (some n) = .ok d ↔
      (Rn * (L⁻¹ * Rt) ^ n) ref 0 ≠ 0 ∧ ∀ c, d c = (Rn * (L⁻¹ * Rt) ^ n) c 0 / (Rn * (L⁻¹ * Rt) ^ n) ref 0 := by
  obtain ⟨v, r, hv, hr, hc⟩ := rtf_power_form solver Rt Rn L hn hL n h1
  have hrc : (r : ℂ) ≠ 0 := by exact_mod_cast hr.ne'
  have hRv : ∀ c, (Rn *ᵥ v) c = r * (Rn * (L⁻¹ * Rt) ^ n) c 0 := by
    intro c
    simp only [Matrix.mulVec, dotProduct, Matrix.mul_apply (M := Rn), hc, Finset.mul_sum]
    exact Finset.sum_congr rfl fun _ _ => by ring
  have hdiv : ∀ c, (Rn *ᵥ v) c / (Rn *ᵥ v) ref = (Rn * (L⁻¹ * Rt) ^ n) c 0 / (Rn * (L⁻¹ * Rt) ^ n) ref 0 := by
    intro c
    rw [hRv, hRv, mul_div_mul_left _ _ hrc]
  unfold mvdrRtf
  simp only [hv, bind, Except.bind]
  by_cases h0 : (Rn *ᵥ v) ref = 0
  · have : (Rn * (L⁻¹ * Rt) ^ n) ref 0 = 0 := by
      rw [hRv] at h0
      exact (mul_eq_zero.1 h0).resolve_left hrc
    rw [if_pos h0]
    simp [this]
  · have : (Rn * (L⁻¹ * Rt) ^ n) ref 0 ≠ 0 := by
      intro h
      rw [hRv, h, mul_zero] at h0
      exact h0 rfl
    rw [if_neg h0]
    constructor
    · intro h
      cases h
      exact ⟨this, hdiv⟩
    · rintro ⟨-, h⟩
      show Except.ok _ = Except.ok _
      congr 1
      funext c
      rw [hdiv, h]

/-! ## More power iterations never lower the signal-to-noise ratio -/

/-- `xᴴ L (L⁻¹ A)ᵏ x`. -/
private noncomputable def gmom (L P : Matrix (Fin C) (Fin C) ℂ) (x : Fin C → ℂ) (k : ℕ) : ℝ :=
  power (L * P ^ k) x

section moments
variable {L A P : Matrix (Fin C) (Fin C) ℂ} (hL : L.PosDef) (hA : A.PosSemidef) (hP : L * P = A)
include hL hA hP

private lemma comm : Pᴴ * L = L * P := by
  have : (L * P)ᴴ = L * P := by rw [hP]; exact hA.isHermitian.eq
  rwa [Matrix.conjTranspose_mul, hL.isHermitian.eq] at this

private lemma comm_pow (k : ℕ) : (P ^ k)ᴴ * L = L * P ^ k := by
  induction k with
  | zero => simp
  | succ k ih =>
    rw [pow_succ, Matrix.conjTranspose_mul, Matrix.mul_assoc, ih, ← Matrix.mul_assoc, comm hL hA hP, Matrix.mul_assoc,
      ← pow_succ', pow_succ]

private lemma split_pow (i j : ℕ) : (P ^ i)ᴴ * (L * P ^ j) = L * P ^ (i + j) := by
  rw [← Matrix.mul_assoc, comm_pow hL hA hP, Matrix.mul_assoc, ← pow_add]

private lemma psd_pow (k : ℕ) : (L * P ^ k).PosSemidef := by
  rcases Nat.even_or_odd' k with ⟨j, rfl | rfl⟩
  · rw [show 2 * j = j + j by ring, ← split_pow hL hA hP, ← Matrix.mul_assoc]
    exact hL.posSemidef.conjTranspose_mul_mul_same _
  · rw [show 2 * j + 1 = j + (1 + j) by ring, ← split_pow hL hA hP, pow_add, pow_one, ← Matrix.mul_assoc L, hP,
      ← Matrix.mul_assoc]
    exact hA.conjTranspose_mul_mul_same _

private lemma gmom_nonneg (x : Fin C → ℂ) (k : ℕ) : 0 ≤ gmom L P x k :=
  (Complex.le_def.1 ((psd_pow hL hA hP k).dotProduct_mulVec_nonneg x)).1

private lemma gmom_even (x : Fin C → ℂ) (k : ℕ) : power L (P ^ k *ᵥ x) = gmom L P x (2 * k) := by
  unfold gmom power
  rw [Matrix.star_mulVec, Matrix.mulVec_mulVec, ← Matrix.dotProduct_mulVec, Matrix.mulVec_mulVec, split_pow hL hA hP,
    two_mul]

private lemma gmom_odd (x : Fin C → ℂ) (k : ℕ) : power A (P ^ k *ᵥ x) = gmom L P x (2 * k + 1) := by
  unfold gmom power
  rw [Matrix.star_mulVec, Matrix.mulVec_mulVec, ← Matrix.dotProduct_mulVec, Matrix.mulVec_mulVec, ← hP,
    Matrix.mul_assoc L, ← pow_succ', split_pow hL hA hP, show k + (k + 1) = 2 * k + 1 by ring]

private lemma gmom_logconvex (x : Fin C → ℂ) (k : ℕ) :
    gmom L P x (k + 1) ^ 2 ≤ gmom L P x k * gmom L P x (k + 2) := by
  have hq : ∀ t : ℝ, 0 ≤ gmom L P x (k + 2) * (t * t) + 2 * gmom L P x (k + 1) * t + gmom L P x k := by
    intro t
    have h := (psd_pow hL hA hP k).dotProduct_mulVec_nonneg (x + (t : ℂ) • (P *ᵥ x))
    have e1 : star x ⬝ᵥ (L * P ^ k) *ᵥ (P *ᵥ x) = star x ⬝ᵥ (L * P ^ (k + 1)) *ᵥ x := by
      rw [Matrix.mulVec_mulVec, Matrix.mul_assoc, ← pow_succ]
    have e2 : star (P *ᵥ x) ⬝ᵥ (L * P ^ k) *ᵥ x = star x ⬝ᵥ (L * P ^ (k + 1)) *ᵥ x := by
      have := split_pow hL hA hP 1 k
      rw [pow_one] at this
      rw [Matrix.star_mulVec, ← Matrix.dotProduct_mulVec, Matrix.mulVec_mulVec, this, add_comm]
    have e3 : star (P *ᵥ x) ⬝ᵥ (L * P ^ k) *ᵥ (P *ᵥ x) = star x ⬝ᵥ (L * P ^ (k + 2)) *ᵥ x := by
      have := split_pow hL hA hP 1 (k + 1)
      rw [pow_one] at this
      rw [Matrix.mulVec_mulVec, Matrix.mul_assoc L, ← pow_succ, Matrix.star_mulVec, ← Matrix.dotProduct_mulVec,
        Matrix.mulVec_mulVec, this, show 1 + (k + 1) = k + 2 by ring]
    have h1 : star (x + (t : ℂ) • (P *ᵥ x)) ⬝ᵥ (L * P ^ k) *ᵥ (x + (t : ℂ) • (P *ᵥ x))
        = star x ⬝ᵥ (L * P ^ k) *ᵥ x + 2 * (t : ℂ) * (star x ⬝ᵥ (L * P ^ (k + 1)) *ᵥ x)
          + (t : ℂ) * t * (star x ⬝ᵥ (L * P ^ (k + 2)) *ᵥ x) := by
      rw [star_add, star_smul, Matrix.mulVec_add, Matrix.mulVec_smul, add_dotProduct, dotProduct_add, dotProduct_add,
        smul_dotProduct, smul_dotProduct, dotProduct_smul, dotProduct_smul, e1, e2, e3]
      simp only [Complex.star_def, Complex.conj_ofReal, smul_eq_mul]
      ring
    rw [h1] at h
    have h2 := (Complex.le_def.1 h).1
    simp only [Complex.zero_re, Complex.add_re, mul_assoc, Complex.re_ofReal_mul] at h2
    rw [show (2 : ℂ) = ((2 : ℝ) : ℂ) by norm_num, Complex.re_ofReal_mul, Complex.re_ofReal_mul] at h2
    unfold gmom power
    linarith
  have := discrim_le_zero hq
  unfold discrim at this
  nlinarith

/-- Either all moments are positive, or `P x = 0`. -/
private lemma gmom_pos (x : Fin C → ℂ) : P *ᵥ x = 0 ∨ ∀ k, 0 < gmom L P x k := by
  by_cases hx : x = 0
  · left; rw [hx, Matrix.mulVec_zero]
  by_cases h1 : gmom L P x 1 = 0
  · left
    have h2 := gmom_logconvex hL hA hP x 1
    have h2' := gmom_logconvex hL hA hP x 0
    have h3 : gmom L P x 2 = 0 := by
      rw [h1, zero_mul] at h2
      exact pow_eq_zero_iff (two_ne_zero) |>.1 (le_antisymm h2 (sq_nonneg _))
    by_contra hne
    have h4 := (Complex.lt_def.1 (hL.dotProduct_mulVec_pos hne)).1
    have h5 := gmom_even hL hA hP x 1
    rw [pow_one, mul_one, h3] at h5
    unfold power at h5
    rw [h5] at h4
    exact lt_irrefl _ h4
  · right
    have h0 : 0 < gmom L P x 0 := by
      have h4 := (Complex.lt_def.1 (hL.dotProduct_mulVec_pos hx)).1
      have h5 := gmom_even hL hA hP x 0
      rw [pow_zero, Matrix.one_mulVec, mul_zero] at h5
      rw [← h5]
      exact h4
    have hs : ∀ k, 0 < gmom L P x k ∧ 0 < gmom L P x (k + 1) := by
      intro k
      induction k with
      | zero => exact ⟨h0, lt_of_le_of_ne (gmom_nonneg hL hA hP x 1) (Ne.symm h1)⟩
      | succ k ih =>
        refine ⟨ih.2, lt_of_le_of_ne (gmom_nonneg hL hA hP x _) fun h => ?_⟩
        have h2 := gmom_logconvex hL hA hP x k
        rw [show k + 2 = k + 1 + 1 by ring, ← h, mul_zero] at h2
        have := pow_pos ih.2 2
        linarith
    exact fun k => (hs k).1

private lemma gmom_ratio {x : Fin C → ℂ} (hx : ∀ k, 0 < gmom L P x k) {i j : ℕ} (hij : i ≤ j) :
    gmom L P x (i + 1) / gmom L P x i ≤ gmom L P x (j + 1) / gmom L P x j := by
  induction j, hij using Nat.le_induction with
  | base => exact le_rfl
  | succ j _ ih =>
    refine ih.trans ?_
    rw [div_le_div_iff₀ (hx _) (hx _)]
    have := gmom_logconvex hL hA hP x j
    rw [show j + 1 + 1 = j + 2 by ring]
    nlinarith

omit hA hP in
private lemma power_cs (u v : Fin C → ℂ) : ‖star u ⬝ᵥ L *ᵥ v‖ ^ 2 ≤ power L u * power L v := by
  by_cases hu : u = 0
  · subst hu; simp [power]
  have ha : 0 < power L u := (Complex.lt_def.1 (hL.dotProduct_mulVec_pos hu)).1
  set s := star u ⬝ᵥ L *ᵥ v with hs
  have h := power_nonneg hL.posSemidef (v + (-(s / power L u)) • u)
  rw [power_add hL.isHermitian, power_smul_vec, star_smul, smul_dotProduct, ← hs, smul_eq_mul, star_neg, star_div₀,
    Complex.star_def, Complex.conj_ofReal, neg_mul, div_mul_eq_mul_div, Complex.conj_mul', norm_neg, norm_div,
    Complex.norm_real, Real.norm_of_nonneg ha.le, ← Complex.ofReal_pow, ← Complex.ofReal_div, ← Complex.ofReal_neg,
    Complex.ofReal_re] at h
  have e : (‖s‖ / power L u) ^ 2 * power L u = ‖s‖ ^ 2 / power L u := by field_simp
  rw [e] at h
  have h2 : ‖s‖ ^ 2 / power L u ≤ power L v := by linarith
  rw [div_le_iff₀ ha] at h2
  linarith

private lemma gmom_lower (x u : Fin C → ℂ) (mu : ℝ) (hu : A *ᵥ u = (mu : ℂ) • (L *ᵥ u)) (n : ℕ) :
    mu ^ (2 * n) * ‖star u ⬝ᵥ L *ᵥ x‖ ^ 2 ≤ power L u * gmom L P x (2 * n) := by
  have hpow : ∀ n, L *ᵥ (P ^ n *ᵥ u) = ((mu : ℂ) ^ n) • (L *ᵥ u) := by
    intro n
    induction n with
    | zero => simp
    | succ n ih =>
      have : P *ᵥ u = (mu : ℂ) • u := by
        have h1 : L *ᵥ (P *ᵥ u) = L *ᵥ ((mu : ℂ) • u) := by
          rw [Matrix.mulVec_mulVec, hP, hu, Matrix.mulVec_smul]
        have h2 := congrArg (fun v => L⁻¹ *ᵥ v) h1
        simp only [Matrix.mulVec_mulVec _ L⁻¹ L, Matrix.nonsing_inv_mul _ (isUnit_det_of_posDef hL), Matrix.one_mulVec] at h2
        exact h2
      rw [pow_succ, ← Matrix.mulVec_mulVec, this, Matrix.mulVec_smul, Matrix.mulVec_smul, ih, smul_smul, pow_succ,
        mul_comm]
  have hip : star u ⬝ᵥ L *ᵥ (P ^ n *ᵥ x) = (mu : ℂ) ^ n * (star u ⬝ᵥ L *ᵥ x) := by
    have h1 : star u ⬝ᵥ L *ᵥ (P ^ n *ᵥ x) = star (L *ᵥ (P ^ n *ᵥ u)) ⬝ᵥ x := by
      rw [Matrix.mulVec_mulVec, ← comm_pow hL hA hP, Matrix.star_mulVec, Matrix.star_mulVec, hL.isHermitian.eq,
        Matrix.vecMul_vecMul, ← Matrix.dotProduct_mulVec]
    rw [h1, hpow, star_smul, smul_dotProduct, smul_eq_mul, star_pow, Complex.star_def, Complex.conj_ofReal,
      Matrix.star_mulVec, hL.isHermitian.eq, ← Matrix.dotProduct_mulVec]
  have h := power_cs hL u (P ^ n *ᵥ x)
  rw [hip, gmom_even hL hA hP, norm_mul, norm_pow, mul_pow, ← pow_mul, mul_comm n 2, Complex.norm_real, pow_mul,
    Real.norm_eq_abs, sq_abs, ← pow_mul] at h
  exact h

end moments

private lemma power_real_smul (M : Matrix (Fin C) (Fin C) ℂ) (P : Matrix (Fin C) (Fin C) ℂ) [NeZero C] (v : Fin C → ℂ)
    (r : ℝ) (n : ℕ) (hv : ∀ c, v c = r * (P ^ n) c 0) : power M v = r ^ 2 * power M (P ^ n *ᵥ e0) := by
  have : v = (r : ℂ) • (P ^ n *ᵥ e0) := by
    funext c
    rw [mulVec_e0, hv]
    rfl
  rw [this, power_smul_vec, Complex.norm_real, Real.norm_eq_abs, sq_abs]

/-- **C96 (more iterations).**  One more power iteration never lowers the ratio of target power to loaded noise power of the
vector (cross-multiplied, so that it also covers a zero vector). -/
theorem rtf_power_monotone [NeZero C] (solver) (Rt Rn L : Matrix (Fin C) (Fin C) ℂ) (ht : Rt.PosSemidef)
    (hn : Rn.PosSemidef) (hL : IsLoaded Rn L) (n : ℕ) (h1 : 1 ≤ n) (v v' : Fin C → ℂ)
    (hv : rtfVector solver Rt Rn (some n) = .ok v) (hv' : rtfVector solver Rt Rn (some (n + 1)) = .ok v') :
    power Rt v * power L v' ≤ power Rt v' * power L v := by
  have hpd := loaded_pd hn hL
  have hP : L * (L⁻¹ * Rt) = Rt := Matrix.mul_nonsing_inv_cancel_left _ _ (isUnit_det_of_posDef hpd)
  obtain ⟨w, r, hw, hr, hc⟩ := rtf_power_form solver Rt Rn L hn hL n h1
  obtain rfl := Except.ok.inj (hv.symm.trans hw)
  obtain ⟨w', r', hw', hr', hc'⟩ := rtf_power_form solver Rt Rn L hn hL (n + 1) (by omega)
  obtain rfl := Except.ok.inj (hv'.symm.trans hw')
  rw [power_real_smul _ _ _ _ _ hc, power_real_smul _ _ _ _ _ hc, power_real_smul _ _ _ _ _ hc',
    power_real_smul _ _ _ _ _ hc', gmom_even hpd ht hP, gmom_even hpd ht hP, gmom_odd hpd ht hP, gmom_odd hpd ht hP]
  rcases gmom_pos hpd ht hP e0 with h0 | hpos
  · have hz : ∀ k, 1 ≤ k → gmom L (L⁻¹ * Rt) e0 k = 0 := by
      intro k hk
      obtain ⟨j, rfl⟩ : ∃ j, k = j + 1 := ⟨k - 1, by omega⟩
      unfold gmom power
      rw [pow_succ, ← Matrix.mul_assoc, ← Matrix.mulVec_mulVec, h0]
      simp
    rw [hz _ (by omega : 1 ≤ 2 * n), hz _ (by omega : 1 ≤ 2 * n + 1)]
    simp
  · have := gmom_ratio hpd ht hP hpos (show 2 * n ≤ 2 * (n + 1) by omega)
    rw [div_le_div_iff₀ (hpos _) (hpos _)] at this
    have hrr : 0 ≤ r ^ 2 * r' ^ 2 := by positivity
    nlinarith [mul_le_mul_of_nonneg_left this hrr]

example (solver) : ∃ v v' : Fin 2 → ℂ, rtfVector solver !![2, 1; 1, 2] 1 (some 1) = .ok v ∧ rtfVector solver !![2, 1; 1, 2] 1 (some 2) = .ok v' ∧
    v ≠ 0 ∧ power !![2, 1; 1, 2] v * power (((1 + 1e-5 : ℝ) : ℂ) • 1) v' ≤ power !![2, 1; 1, 2] v' * power (((1 + 1e-5 : ℝ) : ℂ) • 1) v := by
  have hL : IsLoaded (1 : Matrix (Fin 2) (Fin 2) ℂ) (((1 + 1e-5 : ℝ) : ℂ) • 1) := by
    refine ⟨1, ⟨⟨(0, 0), by simp⟩, ?_⟩, ?_⟩
    · rintro _ ⟨⟨i, j⟩, rfl⟩
      by_cases h : i = j <;> simp [h, Matrix.one_apply]
    · ext i j
      by_cases h : i = j <;> simp [h, Matrix.one_apply]
      all_goals norm_num
  have ht : (!![2, 1; 1, 2] : Matrix (Fin 2) (Fin 2) ℂ).PosSemidef := by
    have : (!![2, 1; 1, 2] : Matrix (Fin 2) (Fin 2) ℂ) = 1 + (Matrix.of fun (_ : Unit) (_ : Fin 2) => (1 : ℂ))ᴴ * Matrix.of fun (_ : Unit) (_ : Fin 2) => (1 : ℂ) := by
      ext i j; fin_cases i <;> fin_cases j <;> simp [Matrix.mul_apply] <;> norm_num
    rw [this]
    exact Matrix.PosSemidef.one.add (Matrix.posSemidef_conjTranspose_mul_self _)
  obtain ⟨v, r, hv, hr, hvc⟩ := rtf_power_form solver !![2, 1; 1, 2] 1 _ PosSemidef.one hL 1 le_rfl
  obtain ⟨v', -, hv', -, -⟩ := rtf_power_form solver !![2, 1; 1, 2] 1 _ PosSemidef.one hL 2 (by norm_num)
  refine ⟨v, v', hv, hv', fun h0 => ?_, rtf_power_monotone solver _ 1 _ ht PosSemidef.one hL 1 le_rfl v v' hv hv'⟩
  have hb : ((1 + 1e-5 : ℝ) : ℂ) ≠ 0 := by exact_mod_cast (by norm_num : (1 + 1e-5 : ℝ) ≠ 0)
  have hinv : (((1 + 1e-5 : ℝ) : ℂ) • (1 : Matrix (Fin 2) (Fin 2) ℂ))⁻¹ = ((1 + 1e-5 : ℝ) : ℂ)⁻¹ • 1 := by
    refine Matrix.inv_eq_right_inv ?_
    rw [Matrix.smul_mul, Matrix.one_mul, smul_smul, mul_inv_cancel₀ hb, one_smul]
  have h1 := hvc 0
  rw [h0, hinv, pow_one, Matrix.smul_mul, Matrix.one_mul] at h1
  simp only [Pi.zero_apply, Matrix.smul_apply, smul_eq_mul] at h1
  have hrc : (r : ℂ) ≠ 0 := by exact_mod_cast hr.ne'
  exact (mul_ne_zero hrc (mul_ne_zero (inv_ne_zero hb) (by simp))) h1.symm

/-- **C96 (convergence).**  Let `u` be a generalised eigenvector, `Rt u = mu L u`, for instance of the largest generalised eigenvalue
`mu`, with a component along the first microphone (`(L u)₀ ≠ 0`).  For every `d > 0`, with enough power iterations the ratio of
target power to loaded noise power of the (nonzero) vector is at least `mu - d`. -/
theorem rtf_power_converges [NeZero C] (solver) (Rt Rn L : Matrix (Fin C) (Fin C) ℂ) (ht : Rt.PosSemidef)
    (hn : Rn.PosSemidef) (hL : IsLoaded Rn L) (u : Fin C → ℂ) (mu : ℝ) (hmu : 0 < mu)
    (hu : Rt *ᵥ u = (mu : ℂ) • (L *ᵥ u)) (hu0 : (L *ᵥ u) 0 ≠ 0) (d : ℝ) (hd : 0 < d) :
    ∃ n₀, ∀ n ≥ n₀, ∀ v, rtfVector solver Rt Rn (some n) = .ok v →
      0 < power L v ∧ (mu - d) * power L v ≤ power Rt v := by
  have hpd := loaded_pd hn hL
  set P := L⁻¹ * Rt with hPd
  have hP : L * P = Rt := Matrix.mul_nonsing_inv_cancel_left _ _ (isUnit_det_of_posDef hpd)
  have hs0 : star u ⬝ᵥ L *ᵥ (e0 : Fin C → ℂ) ≠ 0 := by
    rw [herm_swap hpd.isHermitian]
    unfold e0
    simpa [Pi.star_single] using hu0
  have hs : 0 < ‖star u ⬝ᵥ L *ᵥ (e0 : Fin C → ℂ)‖ ^ 2 := by have := norm_pos_iff.2 hs0; positivity
  have hpos : ∀ k, 0 < gmom L P e0 k := by
    rcases gmom_pos hpd ht hP e0 with h0 | hpos
    · exfalso
      have h1 := gmom_lower hpd ht hP e0 u mu hu 1
      have h2 : gmom L P e0 (2 * 1) = 0 := by
        rw [← gmom_even hpd ht hP, pow_one, h0]; simp [power]
      rw [h2, mul_zero] at h1
      have : 0 < mu ^ (2 * 1) := by positivity
      nlinarith
    · exact hpos
  have key : ∀ n, ∀ v r, (∀ c, v c = (r : ℝ) * (P ^ n) c 0) → 0 < r →
      (0 < power L v ∧ ∀ q, q ≤ gmom L P e0 (2 * n + 1) / gmom L P e0 (2 * n) → q * power L v ≤ power Rt v) := by
    intro n v r hv hr
    rw [power_real_smul _ _ _ _ _ hv, power_real_smul _ _ _ _ _ hv, gmom_even hpd ht hP, gmom_odd hpd ht hP]
    refine ⟨mul_pos (by positivity) (hpos _), fun q hq => ?_⟩
    rw [le_div_iff₀ (hpos _)] at hq
    have : 0 ≤ r ^ 2 := by positivity
    nlinarith
  have hex : ∃ j, mu - d ≤ gmom L P e0 (2 * j + 1) / gmom L P e0 (2 * j) := by
    by_contra hc
    push Not at hc
    set q := mu - d with hq
    have hq0 : 0 < q := lt_of_le_of_lt (div_nonneg (hpos _).le (hpos _).le) (hc 0)
    have hstep : ∀ j, gmom L P e0 (j + 1) ≤ q * gmom L P e0 j := by
      intro j
      have h3 := gmom_ratio hpd ht hP hpos (show j ≤ 2 * j by omega)
      have h4 := h3.trans (hc j).le
      rwa [div_le_iff₀ (hpos _)] at h4
    have hup : ∀ j, gmom L P e0 j ≤ q ^ j * gmom L P e0 0 := by
      intro j
      induction j with
      | zero => simp
      | succ j ih =>
        refine (hstep j).trans ?_
        rw [pow_succ]
        nlinarith
    have hr : 1 < mu / q := by
      rw [one_lt_div hq0, hq]
      linarith
    have hlim := tendsto_pow_atTop_atTop_of_one_lt hr
    obtain ⟨j, hj⟩ := (hlim.eventually_gt_atTop (power L u * gmom L P e0 0 /
      ‖star u ⬝ᵥ L *ᵥ (e0 : Fin C → ℂ)‖ ^ 2)).exists_forall_of_atTop
    have h5 := hj (2 * j) (by omega)
    have h6 := (gmom_lower hpd ht hP e0 u mu hu j).trans
      (mul_le_mul_of_nonneg_left (hup (2 * j)) (power_nonneg hpd.posSemidef u))
    rw [div_lt_iff₀ hs, div_pow, div_mul_eq_mul_div, lt_div_iff₀ (pow_pos hq0 _)] at h5
    nlinarith
  obtain ⟨j, hj⟩ := hex
  refine ⟨j + 1, fun n hn' v hv => ?_⟩
  obtain ⟨w, r, hw, hr, hc⟩ := rtf_power_form solver Rt Rn L hn hL n (by omega)
  obtain rfl := Except.ok.inj (hv.symm.trans hw)
  obtain ⟨h1, h2⟩ := key n v r hc hr
  exact ⟨h1, h2 _ (hj.trans (gmom_ratio hpd ht hP hpos (show 2 * j ≤ 2 * n by omega)))⟩

/-- A concrete case: target covariance `[[1, 1], [1, 1]]`, noise covariance `2 I`, two microphones.  The loaded noise covariance is
`(2 + 2e-5) I`, the dominant generalised eigenvector is `(1, 1)` and the relative transfer function of both microphones is one, for
every number of iterations (`rtf_power_value`). -/
example (solver) (n : ℕ) (hn : 1 ≤ n) : ∃ (Rt Rn L : Matrix (Fin 2) (Fin 2) ℂ) (u : Fin 2 → ℂ) (mu : ℝ),
    Rt.PosSemidef ∧ Rn.PosSemidef ∧ IsLoaded Rn L ∧ 0 < mu ∧ Rt *ᵥ u = (mu : ℂ) • (L *ᵥ u) ∧ (L *ᵥ u) 0 ≠ 0 ∧
    mvdrRtf solver Rt Rn 1 (some n) = .ok fun _ => 1 := by
  set Rt : Matrix (Fin 2) (Fin 2) ℂ := Matrix.of fun _ _ => 1 with hRt
  set Rn : Matrix (Fin 2) (Fin 2) ℂ := (2 : ℂ) • 1 with hRn
  set b : ℝ := 2 + 2e-5 with hb
  have hb0 : 0 < b := by rw [hb]; norm_num
  have hbc : (b : ℂ) ≠ 0 := by exact_mod_cast hb0.ne'
  have hL : IsLoaded Rn ((b : ℂ) • 1) := by
    refine ⟨2, ⟨⟨(0, 0), by simp [hRn]⟩, ?_⟩, ?_⟩
    · rintro _ ⟨⟨i, j⟩, rfl⟩
      fin_cases i <;> fin_cases j <;> simp [hRn]
    · rw [max_eq_left (by norm_num), hRn, ← add_smul, hb]
      congr 1
      push_cast
      norm_num
  have hn0 : Rn.PosSemidef := Matrix.PosSemidef.one.smul (by norm_num)
  have ht : Rt.PosSemidef := by
    have : Rt = (Matrix.of fun (_ : Unit) (_ : Fin 2) => (1 : ℂ))ᴴ * Matrix.of fun (_ : Unit) (_ : Fin 2) => (1 : ℂ) := by
      ext i j; simp [hRt, Matrix.mul_apply]
    rw [this]
    exact Matrix.posSemidef_conjTranspose_mul_self _
  have hinv : ((b : ℂ) • (1 : Matrix (Fin 2) (Fin 2) ℂ))⁻¹ = (b : ℂ)⁻¹ • 1 := by
    refine Matrix.inv_eq_right_inv ?_
    rw [Matrix.smul_mul, Matrix.mul_smul, one_mul, smul_smul, mul_inv_cancel₀ hbc, one_smul]
  have hpow : ∀ m, ∃ r : ℂ, r ≠ 0 ∧ (((b : ℂ) • (1 : Matrix (Fin 2) (Fin 2) ℂ))⁻¹ * Rt) ^ (m + 1) = r • Rt := by
    intro m
    have hR2 : Rt * Rt = (2 : ℂ) • Rt := by
      ext i j; simp [hRt, Matrix.mul_apply, Fin.sum_univ_two]
    rw [hinv, Matrix.smul_mul, one_mul]
    induction m with
    | zero => exact ⟨(b : ℂ)⁻¹, inv_ne_zero hbc, by rw [zero_add, pow_one]⟩
    | succ m ih =>
      obtain ⟨r, hr, h⟩ := ih
      refine ⟨r * (b : ℂ)⁻¹ * 2, mul_ne_zero (mul_ne_zero hr (inv_ne_zero hbc)) two_ne_zero, ?_⟩
      rw [pow_succ, h, Matrix.smul_mul, Matrix.mul_smul, hR2, smul_smul, smul_smul]
  refine ⟨Rt, Rn, (b : ℂ) • 1, fun _ => 1, 2 / b, ht, hn0, hL, by positivity, ?_, ?_, ?_⟩
  · funext c
    simp [hRt, Matrix.smul_mulVec, Matrix.mulVec, dotProduct, hbc]
  · simpa [Matrix.smul_mulVec] using hb0.ne'
  · obtain ⟨r, hr, h⟩ := hpow (n - 1)
    rw [show n - 1 + 1 = n by omega] at h
    have h2 : ∀ c, (Rn * (((b : ℂ) • (1 : Matrix (Fin 2) (Fin 2) ℂ))⁻¹ * Rt) ^ n) c 0 = 2 * r := by
      intro c
      rw [h, hRn, Matrix.smul_mul, one_mul]
      simp [hRt]
    have h2r : 2 * r ≠ 0 := mul_ne_zero two_ne_zero hr
    refine (rtf_power_value solver Rt Rn _ hn0 hL n hn 1 _).2 ⟨by rw [h2]; exact h2r, fun c => ?_⟩
    rw [h2, h2, div_self h2r]

end Torchiva.Props
