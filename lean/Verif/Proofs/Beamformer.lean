import Verif.Model.Beamformer
import Verif.Spec.Beamformer
import Verif.Proofs.TIss
import Verif.Props.Linalg
import Mathlib.Analysis.Matrix.PosDef

/-! # Helper lemmas for beamforming -/

namespace Torchiva

open Matrix Spec
open scoped ComplexOrder

variable {C S F N : ℕ}

lemma herm_swap {L : Matrix (Fin C) (Fin C) ℂ} (hL : L.IsHermitian) (x y : Fin C → ℂ) :
    star x ⬝ᵥ L *ᵥ y = star (star y ⬝ᵥ L *ᵥ x) := by
  rw [Matrix.star_dotProduct, Matrix.star_mulVec, hL.eq, ← Matrix.dotProduct_mulVec]

lemma power_add {L : Matrix (Fin C) (Fin C) ℂ} (hL : L.IsHermitian) (x y : Fin C → ℂ) :
    power L (x + y) = power L x + power L y + 2 * (star y ⬝ᵥ L *ᵥ x).re := by
  unfold power
  rw [star_add, Matrix.mulVec_add, add_dotProduct, dotProduct_add, dotProduct_add, herm_swap hL x y]
  simp only [Complex.add_re, Complex.star_def, Complex.conj_re]
  ring

lemma power_nonneg {L : Matrix (Fin C) (Fin C) ℂ} (hL : L.PosSemidef) (x : Fin C → ℂ) : 0 ≤ power L x :=
  hL.re_dotProduct_nonneg x

lemma power_smul_vec (L : Matrix (Fin C) (Fin C) ℂ) (z : ℂ) (x : Fin C → ℂ) :
    power L (z • x) = ‖z‖ ^ 2 * power L x := by
  unfold power
  rw [star_smul, Matrix.mulVec_smul, smul_dotProduct, dotProduct_smul, smul_eq_mul, smul_eq_mul, ← mul_assoc,
    Complex.star_def, Complex.conj_mul', ← Complex.ofReal_pow, Complex.re_ofReal_mul]

lemma power_load (R : Matrix (Fin C) (Fin C) ℂ) (lam : ℝ) (x : Fin C → ℂ) :
    power (R + (lam : ℂ) • (1 : Matrix (Fin C) (Fin C) ℂ)) x = power R x + lam * ∑ c, ‖x c‖ ^ 2 := by
  unfold power
  rw [Matrix.add_mulVec, dotProduct_add, Matrix.smul_mulVec, Matrix.one_mulVec, dotProduct_smul, Complex.add_re]
  congr 1
  have : star x ⬝ᵥ x = ((∑ c, ‖x c‖ ^ 2 : ℝ) : ℂ) := by
    push_cast
    simp only [dotProduct, Pi.star_apply]
    exact Finset.sum_congr rfl fun i _ => by rw [Complex.star_def, Complex.conj_mul']
  rw [this, smul_eq_mul, ← Complex.ofReal_mul, Complex.ofReal_re]

/-- Minimum variance from the normal equations. -/
lemma min_variance {L : Matrix (Fin C) (Fin C) ℂ} (hL : L.PosSemidef) {d w : Fin C → ℂ} {m : ℂ}
    (hw : L *ᵥ w = m • d) : IsMinVariance L d w := by
  intro v hv
  obtain ⟨e, rfl⟩ : ∃ e, v = w + e := ⟨v - w, by simp⟩
  rw [power_add hL.isHermitian, hw, dotProduct_smul]
  have he : star e ⬝ᵥ d = 0 := by
    have : response (w + e) d = response w d + star e ⬝ᵥ d := by
      simp only [response, dotProduct, Pi.add_apply, Pi.star_apply, star_add, add_mul, Finset.sum_add_distrib]
    rw [this] at hv
    simpa using hv
  rw [he, smul_zero]
  have := power_nonneg hL e
  simp only [Complex.zero_re]
  linarith

lemma maskCov_psd (mask : Fin F → Fin N → ℝ) (f : Fin F) (hm : ∀ n, 0 ≤ mask f n) (X : Sig C F N) :
    (maskCov mask X f).PosSemidef := by
  have : maskCov mask X f = (Matrix.of fun (n : Fin N) (p : Fin C) => (√(mask f n) : ℂ) * star (X p f n))ᴴ
      * (Matrix.of fun (n : Fin N) (p : Fin C) => (√(mask f n) : ℂ) * star (X p f n)) := by
    ext p q
    simp only [maskCov, Matrix.of_apply, Matrix.mul_apply, Matrix.conjTranspose_apply, star_mul', star_star]
    refine Finset.sum_congr rfl fun n _ => ?_
    have : ((mask f n : ℝ) : ℂ) = (√(mask f n) : ℂ) * (√(mask f n) : ℂ) := by
      rw [← Complex.ofReal_mul, Real.mul_self_sqrt (hm n)]
    rw [this, Complex.star_def, Complex.conj_ofReal]
    ring
  rw [this]
  exact Matrix.posSemidef_conjTranspose_mul_self _

/-- In a generalised eigendecomposition with positive definite `B` the eigenvector matrix is invertible. -/
lemma gevd_isUnit {A B : Matrix (Fin C) (Fin C) ℂ} (hB : B.PosDef) {val E} (h : IsGevd A B val E) :
    IsUnit E.det ∧ ∀ k, 0 < power B (fun i => E i k) := by
  obtain ⟨-, -, ho, hne⟩ := h
  have hpos : ∀ k, 0 < power B (fun i => E i k) := by
    intro k
    obtain ⟨i, hi⟩ := hne k
    exact hB.re_dotProduct_pos (fun h0 => hi (congrFun h0 i))
  refine ⟨?_, hpos⟩
  have hD : Eᴴ * B * E = diagonal (fun k => ((power B (fun i => E i k) : ℝ) : ℂ)) := by
    ext j k
    have e1 : (Eᴴ * B * E) j k = star (fun i => E i j) ⬝ᵥ B *ᵥ (fun i => E i k) := by
      rw [Matrix.mul_assoc]
      simp only [Matrix.mul_apply, dotProduct, mulVec, Pi.star_apply, Matrix.conjTranspose_apply]
    rw [e1]
    by_cases hjk : j = k
    · subst hjk
      rw [Matrix.diagonal_apply_eq]
      have := herm_swap hB.isHermitian (fun i => E i j) (fun i => E i j)
      unfold power
      apply Complex.ext
      · rw [Complex.ofReal_re]
      · have h2 := congrArg Complex.im this
        rw [Complex.star_def, Complex.conj_im] at h2
        rw [Complex.ofReal_im]
        linarith
    · rw [ho j k hjk, Matrix.diagonal_apply_ne _ hjk]
  have hdet : (Eᴴ * B * E).det ≠ 0 := by
    rw [hD, Matrix.det_diagonal, Finset.prod_ne_zero_iff]
    intro k _
    exact_mod_cast (hpos k).ne'
  rw [Matrix.det_mul] at hdet
  exact (mul_ne_zero_iff.1 hdet).2.isUnit

/-- The last column of a generalised eigendecomposition maximises the power ratio. -/
lemma gevd_max [NeZero C] {A B : Matrix (Fin C) (Fin C) ℂ} (hA : A.IsHermitian) (hB : B.PosDef) {val E}
    (h : IsGevd A B val E) : IsMaxSnr A B (fun i => E i (Fin.rev 0)) := by
  obtain ⟨hu, hpos⟩ := gevd_isUnit hB h
  obtain ⟨hmono, hev, ho, hne⟩ := h
  have hAk : ∀ k, power A (fun i => E i k) = val k * power B (fun i => E i k) := by
    intro k
    unfold power
    rw [hev k, dotProduct_smul, smul_eq_mul, Complex.re_ofReal_mul]
  have hAo : ∀ j k, j ≠ k → star (fun i => E i j) ⬝ᵥ A *ᵥ (fun i => E i k) = 0 := by
    intro j k hjk
    rw [hev k, dotProduct_smul, ho j k hjk, smul_zero]
  -- coordinates
  have hsum : ∀ (M : Matrix (Fin C) (Fin C) ℂ), (∀ j k, j ≠ k → star (fun i => E i j) ⬝ᵥ M *ᵥ (fun i => E i k) = 0) →
      ∀ a : Fin C → ℂ, power M (E *ᵥ a) = ∑ k, ‖a k‖ ^ 2 * power M (fun i => E i k) := by
    intro M hM a
    have e1 : star (E *ᵥ a) ⬝ᵥ M *ᵥ (E *ᵥ a)
        = ∑ j, ∑ k, star (a j) * a k * (star (fun i => E i j) ⬝ᵥ M *ᵥ (fun i => E i k)) := by
      have e2 : E *ᵥ a = ∑ k, a k • fun i => E i k := by
        funext i
        simp only [mulVec, dotProduct, Finset.sum_apply, Pi.smul_apply, smul_eq_mul]
        exact Finset.sum_congr rfl fun k _ => mul_comm _ _
      rw [e2, star_sum, Matrix.mulVec_sum, sum_dotProduct]
      refine Finset.sum_congr rfl fun j _ => ?_
      rw [dotProduct_sum]
      refine Finset.sum_congr rfl fun k _ => ?_
      rw [star_smul, smul_dotProduct, Matrix.mulVec_smul, dotProduct_smul, smul_eq_mul, smul_eq_mul]
      ring
    unfold power
    rw [e1, Complex.re_sum]
    refine Finset.sum_congr rfl fun j _ => ?_
    rw [Finset.sum_eq_single j (fun k _ hk => by rw [hM j k (Ne.symm hk), mul_zero]) (by simp)]
    rw [Complex.star_def, Complex.conj_mul', ← Complex.ofReal_pow, Complex.re_ofReal_mul]
  refine ⟨hpos _, fun u => ?_⟩
  obtain ⟨a, rfl⟩ : ∃ a, u = E *ᵥ a := ⟨E⁻¹ *ᵥ u, by rw [Matrix.mulVec_mulVec, Matrix.mul_nonsing_inv _ hu, Matrix.one_mulVec]⟩
  rw [hsum A hAo, hsum B ho, hAk (Fin.rev 0), mul_right_comm]
  refine mul_le_mul_of_nonneg_right ?_ (hpos _).le
  rw [Finset.mul_sum]
  refine Finset.sum_le_sum fun k _ => ?_
  rw [hAk]
  have hk : val k ≤ val (Fin.rev 0) := hmono (by rw [Fin.le_rev_iff]; exact Fin.zero_le _)
  have : 0 ≤ ‖a k‖ ^ 2 * power B (fun i => E i k) := mul_nonneg (by positivity) (hpos k).le
  nlinarith [mul_le_mul_of_nonneg_right hk this]

/-- The GEV filter in closed form. -/
lemma gevBf_closed [NeZero C] (Rt Rn : Matrix (Fin C) (Fin C) ℂ) (solver) (hn : Rn.PosDef) (ref : Fin C) (r : EigRes (Fin C))
    (hr : eigh solver Rt (some Rn) 1e-15 = .ok r) (hg : IsGevd Rt Rn r.val r.vec) :
    gevBf solver Rt Rn ref = .ok fun c => star (r.vec c (Fin.rev 0)) *
      ((Rn *ᵥ fun c => r.vec c (Fin.rev 0)) ref / (power Rn (fun c => r.vec c (Fin.rev 0)) : ℝ)) := by
  obtain ⟨hu, hpos⟩ := gevd_isUnit hn hg
  have hu' : IsUnit (r.vecᴴ).det := by rw [Matrix.det_conjTranspose]; exact hu.star
  set v : Fin C → ℂ := fun c => r.vec c (Fin.rev 0) with hv
  have hp := hpos (Fin.rev 0)
  have hdiag : star v ⬝ᵥ Rn *ᵥ v = ((power Rn v : ℝ) : ℂ) := by
    have := herm_swap hn.isHermitian v v
    unfold power
    apply Complex.ext
    · rw [Complex.ofReal_re]
    · have h2 := congrArg Complex.im this
      rw [Complex.star_def, Complex.conj_im] at h2
      rw [Complex.ofReal_im]
      linarith
  have hsol : solve r.vecᴴ (colVec fun c => if c = Fin.rev 0 then 1 else 0)
      = .ok (colVec fun c => (Rn *ᵥ v) c / (power Rn v : ℝ)) := by
    rw [solve_ok_iff]
    refine ⟨hu', ?_⟩
    ext k u
    rw [Matrix.mul_apply]
    simp only [colVec, Matrix.of_apply, Matrix.conjTranspose_apply]
    have e1 : ∑ c, star (r.vec c k) * ((Rn *ᵥ v) c / (power Rn v : ℝ)) = (star (fun i => r.vec i k) ⬝ᵥ Rn *ᵥ v) / (power Rn v : ℝ) := by
      simp only [dotProduct, Finset.sum_div, Pi.star_apply, mul_div_assoc]
    rw [e1]
    by_cases hk : k = Fin.rev 0
    · subst hk
      rw [if_pos rfl]
      rw [show star (fun i => r.vec i (Fin.rev 0)) ⬝ᵥ Rn *ᵥ v = _ from hdiag]
      exact div_self (by exact_mod_cast hp.ne')
    · rw [if_neg hk, hg.2.2.1 k _ hk, zero_div]
  unfold gevBf
  simp only [hr, bind, Except.bind, hsol]
  rfl

end Torchiva
