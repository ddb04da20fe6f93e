import Verif.Props.Five
import Mathlib.Analysis.Matrix.Order
import Mathlib.Analysis.SpecificLimits.Basic

/-!
# C29: what the power method of FIVE computes
-/

namespace Torchiva.Props

open Torchiva Matrix Spec
open scoped ComplexOrder

variable {C F N : ℕ}

/-- `B` is the inverse of `V + lam I`, where `lam` is `1e-5` times the largest entry of `V`, at least `1e-5`. -/
def IsLoadedInverse (V B : Matrix (Fin C) (Fin C) ℂ) : Prop :=
  ∃ m : ℝ, IsGreatest (Set.range fun p : Fin C × Fin C => ‖V p.1 p.2‖) m ∧
    (V + ((max (1e-5 * m) 1e-5 : ℝ) : ℂ) • (1 : Matrix (Fin C) (Fin C) ℂ)) * B = 1

private lemma loaded_pd {V B : Matrix (Fin C) (Fin C) ℂ} (hV : V.PosSemidef) (h : IsLoadedInverse V B) :
    B.PosDef := by
  obtain ⟨m, -, hB⟩ := h
  have hpos : (0 : ℝ) < max (1e-5 * m) 1e-5 := lt_of_lt_of_le (by norm_num) (le_max_right _ _)
  have hA := Matrix.PosDef.posSemidef_add hV (posDef_load (ι := Fin C) hpos)
  have : B = (V + ((max (1e-5 * m) 1e-5 : ℝ) : ℂ) • (1 : Matrix (Fin C) (Fin C) ℂ))⁻¹ :=
    (Matrix.inv_eq_right_inv hB).symm
  rw [this]
  exact hA.inv

/-- One power step, when it returns: a positive multiple of `B x`. -/
private lemma powerStep_ok {B : Fin F → Matrix (Fin C) (Fin C) ℂ} {x y : Fin F → Fin C → ℂ}
    (h : powerStep B x = .ok y) (f : Fin F) :
    0 < √(∑ c, ‖(B f *ᵥ x f) c‖ ^ 2) ∧ y f = fun c => (B f *ᵥ x f) c / (√(∑ c, ‖(B f *ᵥ x f) c‖ ^ 2) : ℝ) := by
  unfold powerStep at h
  dsimp only at h
  split at h
  · cases h
  · rename_i hne
    cases h
    push Not at hne
    exact ⟨lt_of_le_of_ne (Real.sqrt_nonneg _) (Ne.symm (hne f)), rfl⟩

private lemma power_iter {B : Fin F → Matrix (Fin C) (Fin C) ℂ} (m : ℕ) (x y : Fin F → Fin C → ℂ)
    (h : iterM (powerStep B) m x = .ok y) (f : Fin F) :
    ∃ r : ℝ, 0 < r ∧ y f = fun c => (r : ℂ) * ((B f) ^ m *ᵥ x f) c := by
  induction m generalizing x with
  | zero =>
    cases h
    exact ⟨1, one_pos, by simp⟩
  | succ m ih =>
    rw [iterM] at h
    cases hs : powerStep B x with
    | error e => rw [hs] at h; cases h
    | ok z =>
      rw [hs] at h
      obtain ⟨r, hr, hy⟩ := ih z h
      obtain ⟨hq, hz⟩ := powerStep_ok hs f
      set q := √(∑ c, ‖(B f *ᵥ x f) c‖ ^ 2) with hqd
      refine ⟨r / q, div_pos hr hq, ?_⟩
      rw [hy, hz]
      funext c
      have : (fun c => (B f *ᵥ x f) c / (q : ℂ)) = ((q : ℂ)⁻¹) • (B f *ᵥ x f) := by
        funext c; simp only [Pi.smul_apply, smul_eq_mul]; ring
      rw [this, Matrix.mulVec_smul, Matrix.mulVec_mulVec, ← pow_succ]
      simp only [Pi.smul_apply, smul_eq_mul]
      push_cast
      ring

/-- **C29 (partial: the vectors, when the call returns).**  `n` power iterations return, at every frequency and up to a scalar, the
vector `B^(n-1) D B e₀` with `B` the loaded inverse at that frequency; `D` is the diagonal matrix that divides channel `c` by its
norm *over the frequencies* (the initial normalisation runs over the wrong axis).  The scalar, and with it the whole filter, is zero
exactly when the first entry of that vector is zero. -/
theorem five_power_form_partial [NeZero C] (V : Fin F → Matrix (Fin C) (Fin C) ℂ) (hV : ∀ f, (V f).PosSemidef) (n : ℕ)
    (y : Fin F → Fin C → ℂ) (h : smallestPower V n = .ok y) :
    ∃ B : Fin F → Matrix (Fin C) (Fin C) ℂ, (∀ f, IsLoadedInverse (V f) (B f)) ∧
      ∀ f, ∃ k : ℂ, (k = 0 ↔ ((B f) ^ (n - 1) *ᵥ fun c => B f c 0 / (√(∑ f, ‖B f c 0‖ ^ 2) : ℝ)) 0 = 0) ∧ ∀ c, y f c
        = k * ((B f) ^ (n - 1) *ᵥ fun c => B f c 0 / (√(∑ f, ‖B f c 0‖ ^ 2) : ℝ)) c := by
  choose m B hm hB1 hB using fun f => inv_loaded_psd (V f) (hV f) 1e-5 (by norm_num)
  have hseq : (seqAll fun f => invLoaded (V f) 1e-5) = .ok B := seqAll_ok_iff.2 hB1
  refine ⟨B, fun f => ⟨m f, hm f, hB f⟩, fun f => ?_⟩
  unfold smallestPower at h
  rw [hseq] at h
  simp only [bind, Except.bind] at h
  split at h
  · cases h
  rename_i x0 hx0
  split at h
  · cases h
  rename_i x hx
  split at h
  · cases h
  cases h
  obtain ⟨r, hr0, hr⟩ := power_iter _ _ _ hx f
  have h0 : x0 f = fun c => B f c 0 / (√(∑ f, ‖B f c 0‖ ^ 2) : ℝ) := by
    unfold fiveNormalize at hx0
    split at hx0
    · cases hx0
    · cases hx0; rfl
  refine ⟨r * star (csgn (x f 0)), ?_, fun c => ?_⟩
  · have e := congrFun hr 0
    rw [h0] at e
    have hrc : (r : ℂ) ≠ 0 := by exact_mod_cast hr0.ne'
    have hs : csgn (x f 0) = 0 ↔ x f 0 = 0 := by
      unfold csgn
      split_ifs with h
      · simp [h]
      · simp [h]
    rw [mul_eq_zero, or_iff_right hrc, star_eq_zero, hs, e, mul_eq_zero, or_iff_right hrc]
  have e := congrFun hr c
  rw [h0] at e
  show x f c * star (csgn (x f 0)) = _
  rw [e]
  ring

/-- **C29 (exactly when the power method works).**  With `n_power_iter ≥ 2` the power method returns iff every channel has a nonzero
entry, at some frequency, in the first column of the loaded inverse. -/
theorem five_power_succeeds_iff [NeZero C] [NeZero F] (V : Fin F → Matrix (Fin C) (Fin C) ℂ)
    (hV : ∀ f, (V f).PosSemidef) (n : ℕ) (hn : 2 ≤ n) :
    (∃ y, smallestPower V n = .ok y) ↔
      ∃ B : Fin F → Matrix (Fin C) (Fin C) ℂ, (∀ f, IsLoadedInverse (V f) (B f)) ∧ ∀ c, ∃ f, B f c 0 ≠ 0 := by
  choose m B hm hB1 hB using fun f => inv_loaded_psd (V f) (hV f) 1e-5 (by norm_num)
  have hseq : (seqAll fun f => invLoaded (V f) 1e-5) = .ok B := seqAll_ok_iff.2 hB1
  have hnorm : ∀ c, √(∑ f, ‖B f c 0‖ ^ 2) = 0 ↔ ∀ f, B f c 0 = 0 := by
    intro c
    rw [Real.sqrt_eq_zero (Finset.sum_nonneg fun _ _ => by positivity),
      Finset.sum_eq_zero_iff_of_nonneg (fun _ _ => by positivity)]
    simp
  have hpd := fun f => loaded_pd (hV f) ⟨m f, hm f, hB f⟩
  constructor
  · rintro ⟨y, h⟩
    refine ⟨B, fun f => ⟨m f, hm f, hB f⟩, fun c => ?_⟩
    unfold smallestPower at h
    rw [hseq] at h
    simp only [bind, Except.bind] at h
    split at h
    · cases h
    rename_i x0 hx0
    unfold fiveNormalize at hx0
    split at hx0
    · cases hx0
    · rename_i hne
      push Not at hne
      by_contra hc
      push Not at hc
      exact hne (0, c) ((hnorm c).2 hc)
  · rintro ⟨B', hB', hc⟩
    have hBB : B' = B := by
      funext f
      obtain ⟨m', hm', h'⟩ := hB' f
      obtain rfl : m' = m f := hm'.unique (hm f)
      rw [← Matrix.inv_eq_right_inv h', ← Matrix.inv_eq_right_inv (hB f)]
    subst hBB
    -- the start
    have hd : ∀ c, √(∑ f, ‖B' f c 0‖ ^ 2) ≠ 0 := fun c h0 => by
      obtain ⟨f, hf⟩ := hc c
      exact hf ((hnorm c).1 h0 f)
    set x0 : Fin F → Fin C → ℂ := fun f c => B' f c 0 / (√(∑ f, ‖B' f c 0‖ ^ 2) : ℝ) with hx0d
    have hx0 : fiveNormalize (fun f c => B' f c 0) = .ok x0 := by
      unfold fiveNormalize
      rw [if_neg]
      rintro ⟨p, hp⟩
      exact hd p.2 hp
    have hx0n : ∀ f, x0 f ≠ 0 := fun f h0 => by
      have h1 := congrFun h0 0
      simp only [hx0d, Pi.zero_apply, div_eq_zero_iff] at h1
      rcases h1 with h1 | h1
      · have := (hpd f).diag_pos (i := 0)
        rw [h1] at this
        exact lt_irrefl _ this
      · exact hd 0 (by exact_mod_cast h1)
    obtain ⟨x, hx, -⟩ := iterM_total (fun x : Fin F → Fin C → ℂ => ∀ f, x f ≠ 0) (powerStep B')
      (fun x hx => by
        have hne : ∀ f, B' f *ᵥ x f ≠ 0 := fun f h0 => hx f (by
          have := congrArg (fun v => (B' f)⁻¹ *ᵥ v) h0
          simpa [Matrix.mulVec_mulVec, Matrix.nonsing_inv_mul _ (isUnit_det_of_posDef (hpd f))] using this)
        have hq : ∀ f, √(∑ c, ‖(B' f *ᵥ x f) c‖ ^ 2) ≠ 0 := fun f h0 => hne f (by
          rw [Real.sqrt_eq_zero (Finset.sum_nonneg fun _ _ => by positivity),
            Finset.sum_eq_zero_iff_of_nonneg (fun _ _ => by positivity)] at h0
          funext c
          simpa using h0 c (Finset.mem_univ c))
        refine ⟨_, by unfold powerStep; dsimp only; rw [if_neg (by rintro ⟨f, hf⟩; exact hq f hf)], fun f h0 => hne f ?_⟩
        funext c
        have := congrFun h0 c
        simp only [Pi.zero_apply, div_eq_zero_iff] at this
        exact this.resolve_right (by exact_mod_cast hq f)) (n - 1) x0 hx0n
    refine ⟨fun f c => x f c * star (csgn (x f 0)), ?_⟩
    · unfold smallestPower
      rw [hseq]
      simp only [bind, Except.bind, hx0, hx, if_neg (show n - 1 ≠ 0 by omega)]
      rfl

/-! ## More power iterations are never worse -/

/-- `xᴴ Bᵏ x`. -/
private noncomputable def mom (B : Matrix (Fin C) (Fin C) ℂ) (x : Fin C → ℂ) (k : ℕ) : ℝ :=
  (star x ⬝ᵥ (B ^ k) *ᵥ x).re

private lemma herm_pow {B : Matrix (Fin C) (Fin C) ℂ} (hB : B.PosDef) (k : ℕ) : (B ^ k)ᴴ = B ^ k := by
  rw [Matrix.conjTranspose_pow, hB.isHermitian.eq]

private lemma mom_shift {B : Matrix (Fin C) (Fin C) ℂ} (hB : B.PosDef) (x : Fin C → ℂ) (i j k : ℕ) :
    star ((B ^ i) *ᵥ x) ⬝ᵥ (B ^ j) *ᵥ ((B ^ k) *ᵥ x) = star x ⬝ᵥ (B ^ (i + j + k)) *ᵥ x := by
  rw [Matrix.star_mulVec, herm_pow hB, Matrix.mulVec_mulVec, ← Matrix.dotProduct_mulVec, Matrix.mulVec_mulVec,
    ← pow_add, ← pow_add, add_assoc]

private lemma mom_logconvex {B : Matrix (Fin C) (Fin C) ℂ} (hB : B.PosDef) (x : Fin C → ℂ) (k : ℕ) :
    mom B x (k + 1) ^ 2 ≤ mom B x k * mom B x (k + 2) := by
  have hP : (B ^ k).PosSemidef := hB.posSemidef.pow k
  have hq : ∀ t : ℝ, 0 ≤ mom B x (k + 2) * (t * t) + 2 * mom B x (k + 1) * t + mom B x k := by
    intro t
    have h := hP.dotProduct_mulVec_nonneg (x + (t : ℂ) • (B *ᵥ x))
    have h1 : star (x + (t : ℂ) • (B *ᵥ x)) ⬝ᵥ (B ^ k) *ᵥ (x + (t : ℂ) • (B *ᵥ x))
        = star x ⬝ᵥ (B ^ k) *ᵥ x + 2 * (t : ℂ) * (star x ⬝ᵥ (B ^ (k + 1)) *ᵥ x)
          + (t : ℂ) * t * (star x ⬝ᵥ (B ^ (k + 2)) *ᵥ x) := by
      have e1 := mom_shift hB x 0 k 1
      have e2 := mom_shift hB x 1 k 0
      have e3 := mom_shift hB x 1 k 1
      simp only [pow_zero, pow_one, Matrix.one_mulVec, zero_add, add_zero] at e1 e2 e3
      rw [star_add, star_smul, Matrix.mulVec_add, Matrix.mulVec_smul, add_dotProduct, dotProduct_add, dotProduct_add,
        smul_dotProduct, smul_dotProduct, dotProduct_smul, dotProduct_smul, e1, e2, e3]
      simp only [Complex.star_def, Complex.conj_ofReal, smul_eq_mul]
      rw [show 1 + k = k + 1 by omega, show k + 1 + 1 = k + 2 by omega]
      ring
    rw [h1] at h
    have h2 := (Complex.le_def.1 h).1
    simp only [Complex.zero_re, Complex.add_re, mul_assoc, Complex.re_ofReal_mul] at h2
    rw [show (2 : ℂ) = ((2 : ℝ) : ℂ) by norm_num, Complex.re_ofReal_mul, Complex.re_ofReal_mul] at h2
    unfold mom
    linarith
  have := discrim_le_zero hq
  unfold discrim at this
  nlinarith

private lemma mom_pos {B : Matrix (Fin C) (Fin C) ℂ} (hB : B.PosDef) {x : Fin C → ℂ} (hx : x ≠ 0) (k : ℕ) :
    0 < mom B x k := by
  have hP : (B ^ k).PosDef := by
    refine (hB.posSemidef.pow k).posDef_iff_isUnit.2 ?_
    exact (hB.isUnit).pow k
  exact (Complex.lt_def.1 (hP.dotProduct_mulVec_pos hx)).1

/-- Ratios of successive moments decrease. -/
private lemma mom_ratio {B : Matrix (Fin C) (Fin C) ℂ} (hB : B.PosDef) {x : Fin C → ℂ} (hx : x ≠ 0) {i j : ℕ}
    (hij : i ≤ j) : mom B x j / mom B x (j + 1) ≤ mom B x i / mom B x (i + 1) := by
  induction j, hij using Nat.le_induction with
  | base => exact le_rfl
  | succ j _ ih =>
    refine le_trans ?_ ih
    rw [div_le_div_iff₀ (mom_pos hB hx _) (mom_pos hB hx _)]
    have := mom_logconvex hB x j
    nlinarith

/-- The weighted output power of a unit-norm power iterate. -/
private lemma power_iterate {V B : Matrix (Fin C) (Fin C) ℂ} (_hV : V.PosSemidef) (lam : ℝ)
    (hVB : (V + (lam : ℂ) • (1 : Matrix (Fin C) (Fin C) ℂ)) * B = 1) (hB : B.PosDef)
    (x y : Fin C → ℂ) (k : ℂ) (n : ℕ) (hy : ∀ c, y c = k * ((B ^ (n + 1)) *ᵥ x) c) (hun : ∑ c, ‖y c‖ ^ 2 = 1) :
    x ≠ 0 ∧ power V y = mom B x (2 * n + 1) / mom B x (2 * n + 2) - lam := by
  have hy' : y = k • ((B ^ (n + 1)) *ᵥ x) := by funext c; rw [hy]; rfl
  have hx : x ≠ 0 := by
    rintro rfl
    rw [hy'] at hun
    simp at hun
  refine ⟨hx, ?_⟩
  have hVx : V *ᵥ ((B ^ (n + 1)) *ᵥ x) = (B ^ n) *ᵥ x - (lam : ℂ) • ((B ^ (n + 1)) *ᵥ x) := by
    have : V * B ^ (n + 1) = B ^ n - (lam : ℂ) • B ^ (n + 1) := by
      rw [add_mul, Matrix.smul_mul, one_mul] at hVB
      rw [pow_succ', ← mul_assoc, eq_sub_of_add_eq hVB, sub_mul, one_mul, Matrix.smul_mul]
    rw [Matrix.mulVec_mulVec, this, Matrix.sub_mulVec, Matrix.smul_mulVec]
  have h1 : star y ⬝ᵥ y = ((‖k‖ ^ 2 : ℝ) : ℂ) * (star x ⬝ᵥ (B ^ (2 * n + 2)) *ᵥ x) := by
    rw [hy', star_smul, smul_dotProduct, dotProduct_smul]
    have e := mom_shift hB x (n + 1) 0 (n + 1)
    rw [pow_zero, Matrix.one_mulVec] at e
    rw [e, show n + 1 + 0 + (n + 1) = 2 * n + 2 by omega, smul_smul, smul_eq_mul, Complex.star_def,
      Complex.conj_mul']
    push_cast
    rfl
  have h2 : star y ⬝ᵥ V *ᵥ y = ((‖k‖ ^ 2 : ℝ) : ℂ) * (star x ⬝ᵥ (B ^ (2 * n + 1)) *ᵥ x) - (lam : ℂ) * (star y ⬝ᵥ y) := by
    rw [h1, hy', star_smul, Matrix.mulVec_smul, hVx, smul_dotProduct, dotProduct_smul, dotProduct_sub, dotProduct_smul]
    have e := mom_shift hB x (n + 1) 0 (n + 1)
    have e' := mom_shift hB x (n + 1) 0 n
    rw [pow_zero, Matrix.one_mulVec] at e e'
    rw [e, e', show n + 1 + 0 + (n + 1) = 2 * n + 2 by omega, show n + 1 + 0 + n = 2 * n + 1 by omega, smul_smul,
      smul_eq_mul, Complex.star_def, Complex.conj_mul']
    simp only [smul_eq_mul]
    push_cast
    ring
  have hyy : star y ⬝ᵥ y = 1 := by
    simp only [dotProduct, Pi.star_apply, Complex.star_def, Complex.conj_mul']
    exact_mod_cast hun
  rw [hyy] at h1 h2
  have r1 := congrArg Complex.re h1
  have r2 := congrArg Complex.re h2
  rw [Complex.re_ofReal_mul, Complex.one_re] at r1
  rw [mul_one, Complex.sub_re, Complex.re_ofReal_mul, Complex.ofReal_re] at r2
  change 1 = ‖k‖ ^ 2 * mom B x (2 * n + 2) at r1
  change power V y = ‖k‖ ^ 2 * mom B x (2 * n + 1) - lam at r2
  rw [r2]
  congr 1
  have hm := mom_pos hB hx (2 * n + 2)
  rw [eq_div_iff hm.ne']
  linear_combination mom B x (2 * n + 1) * (-r1)

/-- **C29 (partial: more iterations).**  One more power iteration never increases the weighted output power of the filter (which has
unit norm in both cases, unless it is zero), at any frequency. -/
theorem five_power_monotone_partial [NeZero C] (V : Fin F → Matrix (Fin C) (Fin C) ℂ) (hV : ∀ f, (V f).PosSemidef) (n : ℕ)
    (y y' : Fin F → Fin C → ℂ) (h : smallestPower V n = .ok y) (h' : smallestPower V (n + 1) = .ok y')
    (f : Fin F) (hy : y f ≠ 0) : power (V f) (y' f) ≤ power (V f) (y f) := by
  by_cases hy' : y' f = 0
  · rw [hy']
    simpa [power] using (Complex.le_def.1 ((hV f).dotProduct_mulVec_nonneg (y f))).1
  obtain ⟨hn, hu⟩ := five_power_vectors_partial V n y h
  obtain ⟨-, hu'⟩ := five_power_vectors_partial V (n + 1) y' h'
  obtain ⟨B, hB, hk⟩ := five_power_form_partial V hV n y h
  obtain ⟨B', hB', hk'⟩ := five_power_form_partial V hV (n + 1) y' h'
  have hBB : B' = B := by
    funext f
    obtain ⟨m, hm, h1⟩ := hB f
    obtain ⟨m', hm', h1'⟩ := hB' f
    obtain rfl : m' = m := hm'.unique hm
    rw [← Matrix.inv_eq_right_inv h1', ← Matrix.inv_eq_right_inv h1]
  subst hBB
  obtain ⟨m, hm, h1⟩ := hB f
  have hpd := loaded_pd (hV f) ⟨m, hm, h1⟩
  obtain ⟨k, -, hk⟩ := hk f
  obtain ⟨k', -, hk'⟩ := hk' f
  obtain ⟨j, rfl⟩ : ∃ j, n = j + 2 := ⟨n - 2, by omega⟩
  rw [show j + 2 - 1 = j + 1 by omega] at hk
  rw [show j + 2 + 1 - 1 = j + 1 + 1 by omega] at hk'
  obtain ⟨hx, e1⟩ := power_iterate (hV f) _ h1 hpd _ _ k j hk ((hu f).resolve_right hy).1
  obtain ⟨-, e2⟩ := power_iterate (hV f) _ h1 hpd _ _ k' (j + 1) hk' ((hu' f).resolve_right hy').1
  rw [e1, e2]
  exact sub_le_sub_right (mom_ratio hpd hx (by omega)) _

/-! ## Convergence to the smallest eigenvalue -/

/-- The moments dominate those of the component along an eigenvector. -/
private lemma mom_lower {B : Matrix (Fin C) (Fin C) ℂ} (hB : B.PosDef) (x u : Fin C → ℂ) (b : ℝ)
    (hu : ∑ c, ‖u c‖ ^ 2 = 1) (hub : B *ᵥ u = (b : ℂ) • u) (n : ℕ) :
    b ^ (2 * n) * ‖star u ⬝ᵥ x‖ ^ 2 ≤ mom B x (2 * n) := by
  have hpow : ∀ n, (B ^ n) *ᵥ u = ((b : ℂ) ^ n) • u := by
    intro n
    induction n with
    | zero => simp
    | succ n ih => rw [pow_succ, ← Matrix.mulVec_mulVec, hub, Matrix.mulVec_smul, ih, smul_smul, pow_succ, mul_comm]
  have hip : star u ⬝ᵥ (B ^ n) *ᵥ x = (b : ℂ) ^ n * (star u ⬝ᵥ x) := by
    have h1 : star u ⬝ᵥ (B ^ n) *ᵥ x = star ((B ^ n) *ᵥ u) ⬝ᵥ x := by
      rw [Matrix.star_mulVec, herm_pow hB, Matrix.dotProduct_mulVec]
    rw [h1, hpow, star_smul, smul_dotProduct, smul_eq_mul, star_pow, Complex.star_def, Complex.conj_ofReal]
  have hm : mom B x (2 * n) = ∑ c, ‖((B ^ n) *ᵥ x) c‖ ^ 2 := by
    have e := mom_shift hB x n 0 n
    rw [pow_zero, Matrix.one_mulVec, show n + 0 + n = 2 * n by omega] at e
    unfold mom
    rw [← e]
    simp only [dotProduct, Pi.star_apply, Complex.star_def, Complex.conj_mul', Complex.re_sum]
    exact Finset.sum_congr rfl fun c _ => by rw [← Complex.ofReal_pow, Complex.ofReal_re]
  have hcs : ‖star u ⬝ᵥ (B ^ n) *ᵥ x‖ ^ 2 ≤ ∑ c, ‖((B ^ n) *ᵥ x) c‖ ^ 2 := by
    have h1 : ‖star u ⬝ᵥ (B ^ n) *ᵥ x‖ ≤ ∑ c, ‖u c‖ * ‖((B ^ n) *ᵥ x) c‖ := by
      refine (norm_sum_le _ _).trans (le_of_eq ?_)
      exact Finset.sum_congr rfl fun c _ => by rw [norm_mul, Pi.star_apply, norm_star]
    have h2 := Finset.sum_mul_sq_le_sq_mul_sq Finset.univ (fun c => ‖u c‖) (fun c => ‖((B ^ n) *ᵥ x) c‖)
    rw [hu, one_mul] at h2
    exact (pow_le_pow_left₀ (norm_nonneg _) h1 2).trans h2
  rw [hm]
  refine le_trans (le_of_eq ?_) hcs
  rw [hip, norm_mul, norm_pow, mul_pow, ← pow_mul, mul_comm n 2, Complex.norm_real, pow_mul, pow_mul,
    Real.norm_eq_abs, sq_abs]

/-- **C29 (partial: convergence).**  Let `u` be a unit-norm eigenvector of the weighted covariance at frequency `f`, with eigenvalue
`mu` (for instance the smallest one), that is not orthogonal to the starting point.  For every `d > 0`, with enough power iterations
the weighted output power of the filter is at most `mu + d`. -/
theorem five_power_converges_partial [NeZero C] (V : Fin F → Matrix (Fin C) (Fin C) ℂ) (hV : ∀ f, (V f).PosSemidef)
    (B : Fin F → Matrix (Fin C) (Fin C) ℂ) (hB : ∀ f, IsLoadedInverse (V f) (B f)) (f : Fin F)
    (u : Fin C → ℂ) (mu : ℝ) (hu : ∑ c, ‖u c‖ ^ 2 = 1) (huV : V f *ᵥ u = (mu : ℂ) • u)
    (hstart : star u ⬝ᵥ (fun c => B f c 0 / (√(∑ f, ‖B f c 0‖ ^ 2) : ℝ)) ≠ 0) (d : ℝ) (hd : 0 < d) :
    ∃ n₀, ∀ n ≥ n₀, ∀ y, smallestPower V n = .ok y → power (V f) (y f) ≤ mu + d := by
  obtain ⟨m, hm, h1⟩ := hB f
  have hpd := loaded_pd (hV f) ⟨m, hm, h1⟩
  set lam : ℝ := max (1e-5 * m) 1e-5 with hlam
  have hlam0 : 0 < lam := lt_of_lt_of_le (by norm_num) (le_max_right _ _)
  set x : Fin C → ℂ := fun c => B f c 0 / (√(∑ f, ‖B f c 0‖ ^ 2) : ℝ) with hx
  have hx0 : x ≠ 0 := by
    intro h0
    rw [h0, dotProduct_zero] at hstart
    exact hstart rfl
  have hu0 : u ≠ 0 := by rintro rfl; simp at hu
  have hmu : 0 ≤ mu := by
    have h2 := (hV f).dotProduct_mulVec_nonneg u
    rw [huV, dotProduct_smul] at h2
    have h3 : star u ⬝ᵥ u = 1 := by
      simp only [dotProduct, Pi.star_apply, Complex.star_def, Complex.conj_mul']
      exact_mod_cast hu
    rw [h3, smul_eq_mul, mul_one] at h2
    exact_mod_cast h2
  set b : ℝ := (mu + lam)⁻¹ with hb
  have hb0 : 0 < b := inv_pos.2 (by linarith)
  have hub : B f *ᵥ u = (b : ℂ) • u := by
    have h2 : (V f + (lam : ℂ) • (1 : Matrix (Fin C) (Fin C) ℂ)) *ᵥ u = ((mu + lam : ℝ) : ℂ) • u := by
      rw [Matrix.add_mulVec, huV, Matrix.smul_mulVec, Matrix.one_mulVec, ← add_smul]
      push_cast; rfl
    have h3 : B f * (V f + (lam : ℂ) • (1 : Matrix (Fin C) (Fin C) ℂ)) = 1 := mul_eq_one_comm.1 h1
    have h4 := congrArg (fun v => B f *ᵥ v) h2
    simp only [Matrix.mulVec_mulVec, h3, Matrix.one_mulVec, Matrix.mulVec_smul] at h4
    have hne : ((mu + lam : ℝ) : ℂ) ≠ 0 := by exact_mod_cast (by linarith : mu + lam ≠ 0)
    rw [hb]
    push_cast at h4 hne ⊢
    rw [eq_comm, inv_smul_eq_iff₀ hne]
    exact h4
  have hs : 0 < ‖star u ⬝ᵥ x‖ ^ 2 := by have := norm_pos_iff.2 hstart; positivity
  -- some ratio is small
  have hex : ∃ j, mom (B f) x (2 * j + 1) / mom (B f) x (2 * j + 2) ≤ mu + lam + d := by
    by_contra hc
    push Not at hc
    set q : ℝ := (mu + lam + d)⁻¹ with hq
    have hq0 : 0 < q := inv_pos.2 (by linarith)
    have hstep : ∀ j, mom (B f) x (j + 1) ≤ q * mom (B f) x j := by
      intro j
      have h2 := hc j
      have h3 := mom_ratio hpd hx0 (show j ≤ 2 * j + 1 by omega)
      have h4 : mu + lam + d ≤ mom (B f) x j / mom (B f) x (j + 1) := h2.le.trans h3
      rw [le_div_iff₀ (mom_pos hpd hx0 _)] at h4
      rw [hq, ← div_eq_inv_mul, le_div_iff₀ (by linarith)]
      linarith
    have hup : ∀ j, mom (B f) x j ≤ q ^ j * mom (B f) x 0 := by
      intro j
      induction j with
      | zero => simp
      | succ j ih =>
        refine (hstep j).trans ?_
        rw [pow_succ]
        nlinarith
    have hr : 1 < b / q := by
      rw [one_lt_div hq0, hb, hq]
      exact inv_strictAnti₀ (by linarith) (by linarith)
    have hlim := tendsto_pow_atTop_atTop_of_one_lt hr
    obtain ⟨j, hj⟩ := (hlim.eventually_gt_atTop (mom (B f) x 0 / ‖star u ⬝ᵥ x‖ ^ 2)).exists_forall_of_atTop
    have h5 := hj (2 * j) (by omega)
    have h6 := (mom_lower hpd x u b hu hub j).trans (hup (2 * j))
    rw [div_lt_iff₀ hs, div_pow, div_mul_eq_mul_div, lt_div_iff₀ (pow_pos hq0 _)] at h5
    linarith
  obtain ⟨j, hj⟩ := hex
  refine ⟨j + 2, fun n hn y hy => ?_⟩
  by_cases hyf : y f = 0
  · have h0 : power (V f) (y f) = 0 := by simp [power, hyf]
    rw [h0]
    linarith
  obtain ⟨-, hunit⟩ := five_power_vectors_partial V n y hy
  obtain ⟨B', hB', hk⟩ := five_power_form_partial V hV n y hy
  have hBB : B' = B := by
    funext f
    obtain ⟨m, hm, h1⟩ := hB f
    obtain ⟨m', hm', h1'⟩ := hB' f
    obtain rfl : m' = m := hm'.unique hm
    rw [← Matrix.inv_eq_right_inv h1', ← Matrix.inv_eq_right_inv h1]
  subst hBB
  obtain ⟨k, -, hk⟩ := hk f
  obtain ⟨i, rfl⟩ : ∃ i, n = i + 2 := ⟨n - 2, by omega⟩
  rw [show i + 2 - 1 = i + 1 by omega] at hk
  obtain ⟨-, e1⟩ := power_iterate (hV f) _ h1 hpd _ _ k i hk ((hunit f).resolve_right hyf).1
  rw [e1]
  have h7 := mom_ratio hpd hx0 (show 2 * j + 1 ≤ 2 * i + 1 by omega)
  linarith

/-- A concrete case: two channels, one frequency, weighted covariance `[[41, 12], [12, 34]]`, whose smallest eigenvalue `25` belongs
to `(3, -4) / 5`.  All the hypotheses hold and the power method returns a nonzero filter for every `n ≥ 2` (so the case is also one
of `five_power_form_partial` and `five_power_monotone_partial`). -/
example : ∃ (V B : Fin 1 → Matrix (Fin 2) (Fin 2) ℂ) (u : Fin 2 → ℂ), (∀ f, (V f).PosSemidef) ∧
    (∀ f, IsLoadedInverse (V f) (B f)) ∧ ∑ c, ‖u c‖ ^ 2 = 1 ∧ V 0 *ᵥ u = ((25 : ℝ) : ℂ) • u ∧
    (star u ⬝ᵥ (fun c => B 0 c 0 / (√(∑ f, ‖B f c 0‖ ^ 2) : ℝ)) ≠ 0) ∧
    ∀ n ≥ 2, ∃ y, smallestPower V n = .ok y ∧ y 0 ≠ 0 := by
  set V : Matrix (Fin 2) (Fin 2) ℂ := !![41, 12; 12, 34] with hVd
  set l : ℝ := 41e-5 with hl
  set d : ℝ := (41 + l) * (34 + l) - 144 with hd
  have hd0 : 0 < d := by rw [hd, hl]; norm_num
  set B : Matrix (Fin 2) (Fin 2) ℂ :=
    !![(((34 + l) / d : ℝ) : ℂ), ((-12 / d : ℝ) : ℂ); ((-12 / d : ℝ) : ℂ), (((41 + l) / d : ℝ) : ℂ)] with hBd
  have hV : V.PosSemidef := by
    have e : V = (25 : ℂ) • 1 + !![4, 3; 0, 0]ᴴ * !![4, 3; 0, 0] := by
      ext i j
      fin_cases i <;> fin_cases j <;> simp [hVd, Matrix.mul_apply, Fin.sum_univ_two, Complex.conj_ofNat] <;> norm_num
    rw [e]
    exact (Matrix.PosSemidef.one.smul (by norm_num)).add (Matrix.posSemidef_conjTranspose_mul_self _)
  have hinv : IsLoadedInverse V B := by
    refine ⟨41, ⟨⟨(0, 0), by simp [hVd]⟩, ?_⟩, ?_⟩
    · rintro _ ⟨⟨i, j⟩, rfl⟩
      fin_cases i <;> fin_cases j <;> simp [hVd] <;> norm_num
    · have hm : max (1e-5 * 41 : ℝ) 1e-5 = l := by rw [hl, max_eq_left (by norm_num)]; norm_num
      have hdc : (d : ℂ) ≠ 0 := by exact_mod_cast hd0.ne'
      have hdd : (d : ℂ) = (41 + l) * (34 + l) - 144 := by rw [hd]; push_cast; rfl
      rw [hm]
      ext i j
      fin_cases i <;> fin_cases j <;>
        simp [hVd, hBd, Matrix.mul_apply, Fin.sum_univ_two] <;> field_simp <;> rw [hdd] <;> ring
  have h0 : B 0 0 ≠ 0 := by
    simp only [hBd, Matrix.of_apply, Matrix.cons_val_zero]
    exact_mod_cast (by rw [hl]; positivity : (34 + l) / d ≠ 0)
  have h1 : B 1 0 ≠ 0 := by
    have : (-12 / d : ℝ) ≠ 0 := div_ne_zero (by norm_num) hd0.ne'
    simpa [hBd] using this
  have e0 : B 0 0 / ((√(∑ _f : Fin 1, ‖B 0 0‖ ^ 2) : ℝ) : ℂ) = 1 := by
    have hp : (0 : ℝ) < (34 + l) / d := by rw [hl]; positivity
    have : B 0 0 = (((34 + l) / d : ℝ) : ℂ) := rfl
    rw [Finset.sum_const, Finset.card_univ, Fintype.card_fin, one_smul, Real.sqrt_sq (norm_nonneg _), this,
      Complex.norm_real, Real.norm_of_nonneg hp.le, div_self (by exact_mod_cast hp.ne')]
  have e1 : B 1 0 / ((√(∑ _f : Fin 1, ‖B 1 0‖ ^ 2) : ℝ) : ℂ) = -1 := by
    have hp : (0 : ℝ) < 12 / d := by positivity
    have : B 1 0 = -((12 / d : ℝ) : ℂ) := by
      show ((-12 / d : ℝ) : ℂ) = _
      push_cast; ring
    rw [Finset.sum_const, Finset.card_univ, Fintype.card_fin, one_smul, Real.sqrt_sq (norm_nonneg _), this, norm_neg,
      Complex.norm_real, Real.norm_of_nonneg hp.le, neg_div, div_self (by exact_mod_cast hp.ne')]
  refine ⟨fun _ => V, fun _ => B, ![3 / 5, -4 / 5], fun _ => hV, fun _ => hinv, ?_, ?_, ?_, ?_⟩
  · simp [Fin.sum_univ_two]; norm_num
  · ext i
    fin_cases i <;> simp [hVd, Matrix.mulVec, dotProduct, Fin.sum_univ_two] <;> norm_num
  · simp only [dotProduct, Fin.sum_univ_two]
    rw [e0, e1]
    simp
    norm_num [Complex.ext_iff]
  · intro n hn
    obtain ⟨y, hy⟩ := (five_power_succeeds_iff (fun _ : Fin 1 => V) (fun _ => hV) n hn).2 ⟨fun _ => B, fun _ => hinv,
      fun c => ⟨0, by fin_cases c; exacts [h0, h1]⟩⟩
    refine ⟨y, hy, fun hy0 => ?_⟩
    obtain ⟨B', hB', hk⟩ := five_power_form_partial (fun _ : Fin 1 => V) (fun _ => hV) n y hy
    obtain rfl : B' = fun _ => B := by
      funext f
      obtain ⟨m, hm, h1⟩ := hB' f
      obtain ⟨m', hm', h1'⟩ := hinv
      obtain rfl : m' = m := hm'.unique hm
      rw [← Matrix.inv_eq_right_inv h1', ← Matrix.inv_eq_right_inv h1]
    obtain ⟨k, hk0, hk⟩ := hk 0
    have hv : (fun c => B c 0 / ((√(∑ _f : Fin 1, ‖B c 0‖ ^ 2) : ℝ) : ℂ)) = ![1, -1] := by
      funext c; fin_cases c; exacts [e0, e1]
    have hpos : ∀ m : ℕ, ∃ p q : ℝ, 0 < p ∧ 0 < q ∧ (B ^ m) *ᵥ ![1, -1] = ![(p : ℂ), -(q : ℂ)] := by
      intro m
      induction m with
      | zero => exact ⟨1, 1, one_pos, one_pos, by simp⟩
      | succ m ih =>
        obtain ⟨p, q, hp, hq, e⟩ := ih
        have hl0 : 0 < l := by rw [hl]; norm_num
        refine ⟨(34 + l) / d * p + 12 / d * q, 12 / d * p + (41 + l) / d * q, by positivity, by positivity, ?_⟩
        rw [pow_succ', ← Matrix.mulVec_mulVec, e]
        funext c
        fin_cases c <;> simp [hBd, Matrix.mulVec, dotProduct, Fin.sum_univ_two] <;> ring
    obtain ⟨p, q, hp, -, e⟩ := hpos (n - 1)
    have h2 := hk 0
    simp only [hv] at h2 hk0
    rw [e] at h2 hk0
    have hpc : (p : ℂ) ≠ 0 := by exact_mod_cast hp.ne'
    have hkn : k ≠ 0 := fun h => hpc (by simpa using hk0.1 h)
    refine mul_ne_zero hkn hpc ?_
    have h3 : y 0 0 = k * (p : ℂ) := by simpa using h2
    rw [← h3, hy0]
    rfl

end Torchiva.Props
