import Verif.Proofs.Beamformer
import Verif.Proofs.Demo

/-!
# Properties C36-C41: beamformers
-/

namespace Torchiva.Props

open Torchiva Matrix Spec
open scoped ComplexOrder

variable {C S F N : ℕ}

/-! ## C36 MVDR -/

/-- **C36.** For every positive semidefinite noise covariance `R`, steering vector `d` and `eps > 0`,
`compute_mvdr_bf` succeeds.  With `L = R + lam I` (`lam = eps * max(1, max |R|)`) and `g = dᴴ L⁻¹ d ≥ 0`: the filter has
unit response to `d` when `g ≥ eps` and response `g / eps < 1` otherwise, and has the least output power with respect
to `L` among all filters of the same response. -/
theorem mvdr_distortionless [NeZero C] (R : Matrix (Fin C) (Fin C) ℂ) (hR : R.PosSemidef) (d : Fin C → ℂ) (eps : ℝ)
    (he : 0 < eps) :
    ∃ w m, mvdrBf R d eps = .ok w ∧ IsGreatest (Set.range fun p : Fin C × Fin C => ‖R p.1 p.2‖) m ∧
      let L := R + ((max (eps * m) eps : ℝ) : ℂ) • (1 : Matrix (Fin C) (Fin C) ℂ)
      let g := power L⁻¹ d
      0 ≤ g ∧ (eps ≤ g → response w d = 1) ∧ (g < eps → response w d = ((g / eps : ℝ) : ℂ)) ∧ IsMinVariance L d w := by
  obtain ⟨m, a, hm, ha, hs⟩ := solve_loaded_psd R hR (colVec d) eps he
  set lam : ℝ := max (eps * m) eps with hlam
  have hl : 0 < lam := lt_of_lt_of_le he (le_max_right _ _)
  set L := R + (lam : ℂ) • (1 : Matrix (Fin C) (Fin C) ℂ) with hL
  have hLpd : L.PosDef := Matrix.PosDef.posSemidef_add hR (posDef_load hl)
  have hu := isUnit_det_of_posDef hLpd
  set av : Fin C → ℂ := fun c => a c () with hav
  have hLa : L *ᵥ av = d := by
    funext c
    have := congrFun (congrFun hs c) ()
    rw [Matrix.mul_apply] at this
    exact this
  have hai : L⁻¹ *ᵥ d = av := by rw [← hLa, Matrix.mulVec_mulVec, Matrix.nonsing_inv_mul _ hu, Matrix.one_mulVec]
  have hg : (∑ c, star (d c) * a c ()).re = power L⁻¹ d := by
    unfold power
    rw [hai]
    rfl
  have hgc : response av d = ((power L⁻¹ d : ℝ) : ℂ) := by
    have h1 : response av d = star av ⬝ᵥ L *ᵥ av := by rw [hLa]; rfl
    have h2 := herm_swap hLpd.isHermitian av av
    rw [h1]
    have h3 : (star av ⬝ᵥ L *ᵥ av).im = 0 := by
      have := congrArg Complex.im h2
      rw [Complex.star_def, Complex.conj_im] at this
      linarith
    have h4 : (star av ⬝ᵥ L *ᵥ av).re = power L⁻¹ d := by
      unfold power
      rw [hai, hLa, ← Complex.conj_re, ← Complex.star_def, ← Matrix.star_dotProduct_star, star_star, dotProduct_comm]
    apply Complex.ext
    · rw [h4, Complex.ofReal_re]
    · rw [h3, Complex.ofReal_im]
  have hg0 : 0 ≤ power L⁻¹ d := power_nonneg hLpd.inv.posSemidef d
  have hden : clampMin (power L⁻¹ d) eps ≠ 0 := (lt_of_lt_of_le he (le_max_right _ _)).ne'
  have hw : ∀ z : ℝ, response (fun c => a c () / (z : ℂ)) d = ((power L⁻¹ d / z : ℝ) : ℂ) := by
    intro z
    have : response (fun c => a c () / (z : ℂ)) d = response av d / (z : ℂ) := by
      simp only [response, Finset.sum_div, star_div₀, Complex.star_def, Complex.conj_ofReal, hav]
      exact Finset.sum_congr rfl fun c _ => by ring
    rw [this, hgc]
    push_cast
    rfl
  refine ⟨fun c => a c () / ((clampMin (power L⁻¹ d) eps : ℝ) : ℂ), m, ?_, hm, hg0, fun h => ?_, fun h => ?_, ?_⟩
  · unfold mvdrBf
    simp only [ha, bind, Except.bind, hg, if_neg hden]
    rfl
  · rw [hw, clampMin, max_eq_left h, div_self (by linarith : power L⁻¹ d ≠ 0), Complex.ofReal_one]
  · rw [hw, clampMin, max_eq_right h.le]
  · apply min_variance (m := ((clampMin (power L⁻¹ d) eps : ℝ) : ℂ)⁻¹) hLpd.posSemidef
    have : (fun c => a c () / ((clampMin (power L⁻¹ d) eps : ℝ) : ℂ)) = ((clampMin (power L⁻¹ d) eps : ℝ) : ℂ)⁻¹ • av := by
      funext c
      simp [hav, div_eq_inv_mul]
    rw [this, Matrix.mulVec_smul, hLa]

example : ∃ w, mvdrBf (Demo.cov 3) (Demo.vec 3) 1e-5 = .ok w := by
  obtain ⟨w, -, h, -⟩ := mvdr_distortionless (Demo.cov 3) (Demo.cov_psd 3) (Demo.vec 3) 1e-5 (by norm_num)
  exact ⟨w, h⟩

/-! ## C37 SCM-based MVDR -/

/-- **C37.** For a rank-one target covariance `d dᴴ` (`d ≠ 0`) and every positive definite noise covariance,
`compute_mvdr_bf2` returns the filter that passes the target as it is at the reference microphone and has the least
noise output power among all such filters. -/
theorem mvdr_scm_rank_one (d : Fin C → ℂ) (hd : d ≠ 0) (Rn : Matrix (Fin C) (Fin C) ℂ) (hR : Rn.PosDef) (ref : Fin C) :
    ∃ w, mvdrBf2 (Matrix.of fun i j => d i * star (d j)) Rn ref = .ok w ∧ response w d = d ref ∧
      IsMinVariance Rn d w := by
  have hu := isUnit_det_of_posDef hR
  set Rt : Matrix (Fin C) (Fin C) ℂ := Matrix.of fun i j => d i * star (d j) with hRt
  set a := Rn⁻¹ *ᵥ d with ha
  have hRa : Rn *ᵥ a = d := by rw [ha, Matrix.mulVec_mulVec, Matrix.mul_nonsing_inv _ hu, Matrix.one_mulVec]
  have hnum : Rn⁻¹ * Rt = Matrix.of fun i j => a i * star (d j) := by
    ext i j
    simp only [Matrix.mul_apply, hRt, Matrix.of_apply, ha, mulVec, dotProduct, Finset.sum_mul]
    exact Finset.sum_congr rfl fun k _ => by ring
  have hsolve : solve Rn Rt = .ok (Matrix.of fun i j => a i * star (d j)) := by
    unfold solve
    rw [if_pos hu, hnum]
  have ha0 : a ≠ 0 := by
    intro h
    rw [h, Matrix.mulVec_zero] at hRa
    exact hd hRa.symm
  have hpos : 0 < power Rn a := hR.re_dotProduct_pos ha0
  have hgr : star a ⬝ᵥ d = ((power Rn a : ℝ) : ℂ) := by
    have h2 := herm_swap hR.isHermitian a a
    have h3 : (star a ⬝ᵥ Rn *ᵥ a).im = 0 := by
      have := congrArg Complex.im h2
      rw [Complex.star_def, Complex.conj_im] at this
      linarith
    conv_lhs => rw [← hRa]
    apply Complex.ext
    · rw [Complex.ofReal_re]; rfl
    · rw [h3, Complex.ofReal_im]
  have hden : ∑ c, (Matrix.of fun i j => a i * star (d j) : Matrix (Fin C) (Fin C) ℂ) c c = ((power Rn a : ℝ) : ℂ) := by
    have : ∑ c, a c * star (d c) = star (star a ⬝ᵥ d) := by
      simp only [dotProduct, star_sum, star_mul', Pi.star_apply, star_star]
    simp only [Matrix.of_apply]
    rw [this, hgr, Complex.star_def, Complex.conj_ofReal]
  have hne : ((power Rn a : ℝ) : ℂ) ≠ 0 := by exact_mod_cast hpos.ne'
  refine ⟨fun c => a c * star (d ref) / ((power Rn a : ℝ) : ℂ), ?_, ?_, ?_⟩
  · unfold mvdrBf2
    simp only [hsolve, bind, Except.bind, hden, if_neg hne]
    rfl
  · have : response (fun c => a c * star (d ref) / ((power Rn a : ℝ) : ℂ)) d
        = d ref * (star a ⬝ᵥ d) / ((power Rn a : ℝ) : ℂ) := by
      simp only [response, dotProduct, Finset.mul_sum, Finset.sum_div, star_div₀, star_mul', star_star, Complex.star_def,
        Complex.conj_ofReal, Complex.conj_conj, Pi.star_apply]
      exact Finset.sum_congr rfl fun c _ => by ring
    rw [this, hgr, mul_div_assoc, div_self hne, mul_one]
  · apply min_variance (m := star (d ref) / ((power Rn a : ℝ) : ℂ)) hR.posSemidef
    have : (fun c => a c * star (d ref) / ((power Rn a : ℝ) : ℂ)) = (star (d ref) / ((power Rn a : ℝ) : ℂ)) • a := by
      funext c
      simp only [Pi.smul_apply, smul_eq_mul]
      ring
    rw [this, Matrix.mulVec_smul, hRa]

example : ∃ w, mvdrBf2 (Demo.rankOne 3) (Demo.cov 3) 1 = .ok w ∧ response w (Demo.vec 3) = Demo.vec 3 1 ∧
    IsMinVariance (Demo.cov 3) (Demo.vec 3) w :=
  mvdr_scm_rank_one (Demo.vec 3) (fun h => Demo.vec_ne_zero 0 (congrFun h 0)) _ (Demo.cov_pd 3) 1

/-- **C37 (outside the hypotheses).** A singular noise covariance raises: there is no diagonal loading. -/
theorem mvdr_scm_singular_raises (Rt Rn : Matrix (Fin C) (Fin C) ℂ) (h : Rn.det = 0) (ref : Fin C) :
    mvdrBf2 Rt Rn ref = .error .singular := by
  unfold mvdrBf2 solve
  rw [if_neg (by rw [h]; simp)]
  rfl

/-- A rank-one noise covariance of two microphones. -/
example : mvdrBf2 (Demo.cov 2) (Demo.rankOne 2) 0 = .error .singular :=
  mvdr_scm_singular_raises _ _ (by
    rw [Matrix.det_fin_two]
    simp only [Demo.rankOne, Matrix.of_apply]
    ring) _

/-! ## C38 multichannel Wiener filter -/

private lemma mwf_optimal (Rt Rn : Matrix (Fin C) (Fin C) ℂ) (ht : Rt.PosSemidef) (hn : Rn.PosSemidef) {lam : ℝ}
    (hl : 0 < lam) (ref : Fin C) (w : Fin C → ℂ)
    (hw : (Rt + Rn + (lam : ℂ) • (1 : Matrix (Fin C) (Fin C) ℂ)) *ᵥ w = fun c => Rt c ref) :
    IsUniqueMin (mwfCost Rt Rn lam ref) w := by
  set L := Rt + Rn + (lam : ℂ) • (1 : Matrix (Fin C) (Fin C) ℂ) with hL
  have hLpd : L.PosDef := Matrix.PosDef.posSemidef_add (ht.add hn) (posDef_load hl)
  set u : Fin C → ℂ := fun c => if c = ref then 1 else 0 with hu
  have hRu : Rt *ᵥ u = fun c => Rt c ref := by
    funext c
    simp [hu, mulVec, dotProduct]
  have hcost : ∀ v, mwfCost Rt Rn lam ref v = power Rt u + power L v - 2 * (star v ⬝ᵥ Rt *ᵥ u).re := by
    intro v
    have h1 : power Rt (fun c => (if c = ref then 1 else 0) - v c) = power Rt (u + (-v)) := by
      congr 1
    have h2 : power Rt (-v) = power Rt v := by
      rw [← neg_one_smul ℂ v, power_smul_vec]; simp
    have h3 : (star (-v) ⬝ᵥ Rt *ᵥ u).re = - (star v ⬝ᵥ Rt *ᵥ u).re := by
      rw [star_neg, neg_dotProduct, Complex.neg_re]
    have h4 : power L v = power Rt v + power Rn v + lam * ∑ c, ‖v c‖ ^ 2 := by
      rw [hL, power_load]
      unfold power
      rw [Matrix.add_mulVec, dotProduct_add, Complex.add_re]
    rw [mwfCost, h1, power_add ht.isHermitian, h2, h3, h4]
    ring
  intro v
  obtain ⟨e, rfl⟩ : ∃ e, v = w + e := ⟨v - w, by simp⟩
  have hdiff : mwfCost Rt Rn lam ref (w + e) = mwfCost Rt Rn lam ref w + power L e := by
    rw [hcost, hcost, power_add hLpd.isHermitian, star_add, add_dotProduct, Complex.add_re, hw, hRu]
    ring
  have h0 := power_nonneg hLpd.posSemidef e
  refine ⟨by rw [hdiff]; linarith, fun h => ?_⟩
  by_contra hne
  have he : e ≠ 0 := fun h => hne (by rw [h, add_zero])
  have := hLpd.re_dotProduct_pos he
  have h1 : power L e = 0 := by rw [hdiff] at h; linarith
  unfold power at h1
  exact absurd h1 this.ne'

/-- **C38 (partial: optimality, with loading 1e-6 instead of the user's `eps`).** `compute_mwf_bf(..., ref_mic)` returns
the unique minimiser of the regularised mean square error, with loading `1e-6 * max(1, max |R|)`. -/
theorem mwf_ref_optimal_partial [NeZero C] (Rt Rn : Matrix (Fin C) (Fin C) ℂ) (ht : Rt.PosSemidef) (hn : Rn.PosSemidef)
    (eps : ℝ) (ref : Fin C) :
    ∃ w m, mwfBfRef Rt Rn eps ref = .ok w ∧
      IsGreatest (Set.range fun p : Fin C × Fin C => ‖(Rt + Rn) p.1 p.2‖) m ∧
      IsUniqueMin (mwfCost Rt Rn (max (1e-6 * m) 1e-6) ref) w := by
  obtain ⟨m, a, hm, ha, hs⟩ := solve_loaded_psd (Rt + Rn) (ht.add hn) (colVec fun c => Rt c ref) 1e-6 (by norm_num)
  refine ⟨fun c => a c (), m, ?_, hm, ?_⟩
  · unfold mwfBfRef
    simp only [ha, bind, Except.bind]
    rfl
  · refine mwf_optimal Rt Rn ht hn (lt_of_lt_of_le (by norm_num) (le_max_right _ _)) ref _ ?_
    funext c
    have := congrFun (congrFun hs c) ()
    rw [Matrix.mul_apply] at this
    exact this

example : ∃ w, mwfBfRef (Demo.rankOne 3) (Demo.cov 3) 1e-3 1 = .ok w := by
  obtain ⟨w, -, h, -⟩ := mwf_ref_optimal_partial (Demo.rankOne 3) (Demo.cov 3) (Demo.rankOne_psd 3) (Demo.cov_psd 3) 1e-3 1
  exact ⟨w, h⟩

/-- **C38.** Without `ref_mic`, column `k` of the result is the optimal filter for reference `k`, with the
user's `eps` as loading. -/
theorem mwf_all_optimal [NeZero C] (Rt Rn : Matrix (Fin C) (Fin C) ℂ) (ht : Rt.PosSemidef) (hn : Rn.PosSemidef)
    (eps : ℝ) (he : 0 < eps) :
    ∃ W m, mwfBfAll Rt Rn eps = .ok W ∧
      IsGreatest (Set.range fun p : Fin C × Fin C => ‖(Rt + Rn) p.1 p.2‖) m ∧
      ∀ k, IsUniqueMin (mwfCost Rt Rn (max (eps * m) eps) k) (fun c => W c k) := by
  obtain ⟨m, a, hm, ha, hs⟩ := solve_loaded_psd (Rt + Rn) (ht.add hn) Rt eps he
  refine ⟨a, m, ha, hm, fun k => mwf_optimal Rt Rn ht hn (lt_of_lt_of_le he (le_max_right _ _)) k _ ?_⟩
  funext c
  have := congrFun (congrFun hs c) k
  rw [Matrix.mul_apply] at this
  exact this

example : ∃ W, mwfBfAll (Demo.rankOne 3) (Demo.cov 3) 1e-3 = .ok W := by
  obtain ⟨W, -, h, -⟩ := mwf_all_optimal (Demo.rankOne 3) (Demo.cov 3) (Demo.rankOne_psd 3) (Demo.cov_psd 3) 1e-3 (by norm_num)
  exact ⟨W, h⟩

/-- **C38 (last clause) is violated**: with a reference microphone the user's `eps` has no effect. -/
theorem mwf_ref_ignores_eps_violated (Rt Rn : Matrix (Fin C) (Fin C) ℂ) (eps eps' : ℝ) (ref : Fin C) :
    mwfBfRef Rt Rn eps ref = mwfBfRef Rt Rn eps' ref := rfl

/-! ## C39 GEV -/

/-- For every size except two, `eigh` computes a generalised eigendecomposition. -/
theorem gevd_general [NeZero C] (hC : C ≠ 2) (solver) (hc : EighContract C solver) (A B : Matrix (Fin C) (Fin C) ℂ)
    (hA : A.IsHermitian) (hB : B.IsHermitian) (hm : ∀ v, 1e-5 * ∑ k, ‖v k‖ ^ 2 ≤ power B v) (eps : ℝ) :
    ∃ r, eigh solver A (some B) eps = .ok r ∧ IsGevd A B r.val r.vec := by
  obtain ⟨r, h, h1, h2, h3, h4, -⟩ := eigh_general hC solver hc A B hA hB hm eps
  refine ⟨r, h, h1, h2, h3, fun k => ?_⟩
  by_contra hne
  push Not at hne
  have := (h4 k).1
  simp [l2, hne] at this

/-- Three channels, complex covariance matrices, and a solver that meets the contract. -/
private lemma demo_gevd : ∃ solver r, EighContract 3 solver ∧
    eigh solver (Demo.rankOne 3) (some (Demo.cov 3)) 1e-15 = .ok r ∧ IsGevd (Demo.rankOne 3) (Demo.cov 3) r.val r.vec := by
  obtain ⟨solver, hc⟩ := eighContract_exists 3
  obtain ⟨r, hr, hg⟩ := gevd_general (by norm_num) solver hc (Demo.rankOne 3) (Demo.cov 3) (Demo.rankOne_psd 3).isHermitian
    (Demo.cov_psd 3).isHermitian (Demo.cov_power 3) 1e-15
  exact ⟨solver, r, hc, hr, hg⟩

/-- For two channels, `eigh` computes a generalised eigendecomposition unless it hits a clamp or the first rows of the
two matrices are proportional. -/
theorem gevd_two_channels (solver) (A B : Matrix (Fin 2) (Fin 2) ℂ)
    (hA : A.IsHermitian) (hB : B.PosDef) (hd : 1e-15 ≤ B.det.re)
    (hdisc : 1e-15 ≤ (A * B.adjugate).trace.re ^ 2 - 4 * (A.det.re * B.det.re))
    (hp : A 0 0 * B 0 1 ≠ A 0 1 * B 0 0) :
    ∃ r, eigh solver A (some B) 1e-15 = .ok r ∧ IsGevd A B r.val r.vec := by
  have hdpos : 0 < B.det.re := lt_of_lt_of_le (by norm_num) hd
  obtain ⟨r, hr⟩ : ∃ r, eigh2x2Gen A B 1e-15 = .ok r := by
    unfold eigh2x2Gen
    simp only
    rw [if_neg (show clampMin _ _ ≠ 0 from (lt_of_lt_of_le (by norm_num : (0 : ℝ) < 1e-15) (le_max_right _ _)).ne')]
    unfold normalizeCols
    simp only
    rw [if_neg]
    · exact ⟨_, rfl⟩
    · have : ∀ x : ℝ, clampMin x 1e-15 ≠ 0 := fun x =>
        (lt_of_lt_of_le (by norm_num : (0 : ℝ) < 1e-15) (le_max_right _ _)).ne'
      exact not_or.2 ⟨this _, this _⟩
  obtain ⟨h1, h2, -, -, -, h3, h4⟩ := eigh2x2Gen_spec A B hA hB.isHermitian 1e-15 (by norm_num) hdpos hd
    (le_trans (by norm_num) hdisc) hdisc r hr
  have hlt := h3 (lt_of_lt_of_le (by norm_num) hdisc)
  have horth : ∀ j k, r.val j ≠ r.val k → star (fun i => r.vec i j) ⬝ᵥ B *ᵥ (fun i => r.vec i k) = 0 := by
    intro j k hjk
    have e1 : star (fun i => r.vec i j) ⬝ᵥ A *ᵥ (fun i => r.vec i k)
        = (r.val k : ℂ) * (star (fun i => r.vec i j) ⬝ᵥ B *ᵥ (fun i => r.vec i k)) := by
      rw [show A *ᵥ (fun i => r.vec i k) = _ from h2 k, dotProduct_smul, smul_eq_mul]
    have e2 : star (fun i => r.vec i k) ⬝ᵥ A *ᵥ (fun i => r.vec i j)
        = (r.val j : ℂ) * (star (fun i => r.vec i k) ⬝ᵥ B *ᵥ (fun i => r.vec i j)) := by
      rw [show A *ᵥ (fun i => r.vec i j) = _ from h2 j, dotProduct_smul, smul_eq_mul]
    rw [herm_swap hA, e2, herm_swap hB.isHermitian _ (fun i => r.vec i k), star_mul', Complex.star_def,
      Complex.conj_ofReal] at e1
    rw [herm_swap hB.isHermitian]
    have : ((r.val j : ℂ) - r.val k) ≠ 0 := by
      rw [← Complex.ofReal_sub]
      exact_mod_cast sub_ne_zero.2 hjk
    refine (mul_eq_zero.1 (?_ : ((r.val j : ℂ) - r.val k) * _ = 0)).resolve_left this
    rw [sub_mul, Complex.star_def, e1, sub_self]
  refine ⟨r, ?_, ?_, h2, fun j k hjk => horth j k ?_, fun k => ?_⟩
  · have : eigh2x2 ⟨2, 2, A⟩ (some ⟨2, 2, B⟩) 1e-15 = .ok r := by rw [eigh2x2_some, hr]
    unfold eigh
    rw [dif_pos rfl]
    simp only [Option.map, this, Except.map]
    rfl
  · intro j k hjk
    fin_cases j <;> fin_cases k <;> simp_all
  · fin_cases j <;> fin_cases k <;> simp_all [hlt.ne, hlt.ne']
  · by_contra hcon
    push Not at hcon
    obtain ⟨z1, z2⟩ := h4 k hcon
    apply hp
    linear_combination B 0 1 * z2 + B 0 0 * z1

/-- **C39.** Whenever the decomposition of the covariance pair is a generalised eigendecomposition (`gevd_general`: always
with three or more channels; for two channels see `gevd_two_channels`) and the noise covariance is positive
definite, `compute_gev_bf` returns `conj(v) * z` where `v` maximises target over noise power and
`z = (Rn v)[ref] / vᴴ Rn v`: the output is the part of the reference microphone in the direction of `v`.  These parts, for all the
eigenvectors, add up to the reference microphone for every input vector. -/
theorem gev_max_snr [NeZero C] (solver) (Rt Rn : Matrix (Fin C) (Fin C) ℂ) (ht : Rt.IsHermitian) (hn : Rn.PosDef)
    (ref : Fin C) (r : EigRes (Fin C)) (hr : eigh solver Rt (some Rn) 1e-15 = .ok r) (hg : IsGevd Rt Rn r.val r.vec) :
    let v : Fin C → Fin C → ℂ := fun k c => r.vec c k
    let part : Fin C → (Fin C → ℂ) → ℂ := fun k x => (∑ c, star (v k c) * x c) * ((Rn *ᵥ v k) ref / (power Rn (v k) : ℝ))
    IsMaxSnr Rt Rn (v (Fin.rev 0)) ∧
      (∃ w, gevBf solver Rt Rn ref = .ok w ∧ ∀ x, ∑ c, w c * x c = part (Fin.rev 0) x) ∧
      ∀ x, ∑ k, part k x = x ref := by
  intro v part
  obtain ⟨hu, hpos⟩ := gevd_isUnit hn hg
  have hu' : IsUnit (r.vecᴴ).det := by rw [Matrix.det_conjTranspose]; exact hu.star
  refine ⟨gevd_max ht hn hg, ⟨_, gevBf_closed Rt Rn solver hn ref r hr hg, fun x => ?_⟩, fun x => ?_⟩
  · simp only [part, v, Finset.sum_mul]
    exact Finset.sum_congr rfl fun c _ => by ring
  · have hdiag : ∀ k, star (v k) ⬝ᵥ Rn *ᵥ v k = ((power Rn (v k) : ℝ) : ℂ) := by
      intro k
      have := herm_swap hn.isHermitian (v k) (v k)
      unfold power
      apply Complex.ext
      · rw [Complex.ofReal_re]
      · have h2 := congrArg Complex.im this
        rw [Complex.star_def, Complex.conj_im] at h2
        rw [Complex.ofReal_im]
        linarith
    set G : Matrix (Fin C) (Fin C) ℂ := Matrix.of fun c k => (Rn *ᵥ v k) c / (power Rn (v k) : ℝ) with hG
    have h1 : r.vecᴴ * G = 1 := by
      ext j k
      rw [Matrix.mul_apply]
      simp only [hG, Matrix.of_apply, Matrix.conjTranspose_apply]
      have e1 : ∑ c, star (r.vec c j) * ((Rn *ᵥ v k) c / (power Rn (v k) : ℝ)) = (star (v j) ⬝ᵥ Rn *ᵥ v k) / (power Rn (v k) : ℝ) := by
        simp only [dotProduct, Finset.sum_div, Pi.star_apply, mul_div_assoc, v]
      rw [e1]
      by_cases hk : j = k
      · subst hk
        rw [hdiag, Matrix.one_apply_eq]
        exact div_self (by exact_mod_cast (hpos j).ne')
      · rw [Matrix.one_apply_ne hk, hg.2.2.1 j k hk, zero_div]
    have h2 : (G * r.vecᴴ) *ᵥ x = x := by rw [mul_eq_one_comm.1 h1, Matrix.one_mulVec]
    have h3 := congrFun h2 ref
    rw [← Matrix.mulVec_mulVec] at h3
    rw [← h3]
    simp only [mulVec, dotProduct, part, hG, Matrix.of_apply, Matrix.conjTranspose_apply, v]
    exact Finset.sum_congr rfl fun k _ => by ring

example : ∃ solver w, gevBf solver (Demo.rankOne 3) (Demo.cov 3) 1 = .ok w := by
  obtain ⟨solver, r, -, hr, hg⟩ := demo_gevd
  obtain ⟨-, ⟨w, h, -⟩, -⟩ := gev_max_snr solver _ _ (Demo.rankOne_psd 3).isHermitian (Demo.cov_pd 3) 1 r hr hg
  exact ⟨solver, w, h⟩

/-! ## C40 relative transfer function -/

/-- **C40.** For both variants and every iteration count, whenever `compute_mvdr_rtf_eigh` returns, the reference entry
is one. -/
theorem rtf_reference_one [NeZero C] (solver) (Rt Rn : Matrix (Fin C) (Fin C) ℂ) (ref : Fin C) (nPower : Option ℕ)
    (d : Fin C → ℂ) (h : mvdrRtf solver Rt Rn ref nPower = .ok d) : d ref = 1 := by
  unfold mvdrRtf at h
  simp only [bind, Except.bind, pure, Except.pure] at h
  split at h
  · cases h
  · split_ifs at h with h0
    cases h
    exact div_self h0

/-- **C40.** It returns unless the dominant eigenvector computation fails or the reference entry vanishes. -/
theorem rtf_succeeds [NeZero C] (solver) (Rt Rn : Matrix (Fin C) (Fin C) ℂ) (ref : Fin C) (nPower : Option ℕ)
    (v : Fin C → ℂ) (hv : rtfVector solver Rt Rn nPower = .ok v) (h0 : (Rn *ᵥ v) ref ≠ 0) :
    ∃ d, mvdrRtf solver Rt Rn ref nPower = .ok d := by
  refine ⟨fun c => (Rn *ᵥ v) c / (Rn *ᵥ v) ref, ?_⟩
  unfold mvdrRtf
  simp only [hv, bind, Except.bind, if_neg h0]
  rfl

/-- **C40 (meaning of the vector).** For a rank-one target `h hᴴ` with `h[ref] ≠ 0`, positive definite noise
covariance and a generalised eigendecomposition, the GEVD variant returns exactly the relative transfer function
`h / h[ref]`. -/
theorem rtf_rank_one [NeZero C] (solver) (hvec : Fin C → ℂ) (Rn : Matrix (Fin C) (Fin C) ℂ) (hn : Rn.PosDef)
    (ref : Fin C) (h0 : hvec ref ≠ 0) (r : EigRes (Fin C))
    (hr : eigh solver (Matrix.of fun i j => hvec i * star (hvec j)) (some Rn) 1e-15 = .ok r)
    (hg : IsGevd (Matrix.of fun i j => hvec i * star (hvec j)) Rn r.val r.vec) :
    mvdrRtf solver (Matrix.of fun i j => hvec i * star (hvec j)) Rn ref none = .ok fun c => hvec c / hvec ref := by
  set Rt : Matrix (Fin C) (Fin C) ℂ := Matrix.of fun i j => hvec i * star (hvec j) with hRt
  have hu := isUnit_det_of_posDef hn
  have hRtv : ∀ v, Rt *ᵥ v = (star hvec ⬝ᵥ v) • hvec := by
    intro v
    funext c
    simp only [hRt, mulVec, dotProduct, Matrix.of_apply, Pi.smul_apply, smul_eq_mul, Finset.sum_mul, Pi.star_apply]
    exact Finset.sum_congr rfl fun k _ => by ring
  have hpw : ∀ v, power Rt v = ‖star hvec ⬝ᵥ v‖ ^ 2 := by
    intro v
    unfold power
    rw [hRtv, dotProduct_smul, smul_eq_mul]
    have : star v ⬝ᵥ hvec = star (star hvec ⬝ᵥ v) := by
      rw [Matrix.star_dotProduct]
    rw [this, Complex.star_def, Complex.mul_conj', ← Complex.ofReal_pow, Complex.ofReal_re]
  have ht : Rt.IsHermitian := by
    ext i j
    simp [hRt, Matrix.conjTranspose_apply, mul_comm]
  obtain ⟨hpos, hmax⟩ := gevd_max ht hn hg
  set v : Fin C → ℂ := fun i => r.vec i (Fin.rev 0) with hv
  -- the largest eigenvalue is positive
  have hhv : star hvec ⬝ᵥ v ≠ 0 := by
    intro hz
    have h1 := hmax (Rn⁻¹ *ᵥ hvec)
    have h2 : power Rt v = 0 := by rw [hpw, hz]; simp
    rw [h2, zero_mul] at h1
    have hne : hvec ≠ 0 := fun h => h0 (congrFun h ref)
    have h3 : 0 < power Rn⁻¹ hvec := hn.inv.re_dotProduct_pos hne
    have h4 : 0 < power Rt (Rn⁻¹ *ᵥ hvec) := by
      rw [hpw]
      have : star hvec ⬝ᵥ Rn⁻¹ *ᵥ hvec ≠ 0 := by
        intro h
        unfold power at h3
        rw [h] at h3
        simp at h3
      positivity
    nlinarith
  have hev := hg.2.1 (Fin.rev 0)
  have hev' : Rt *ᵥ v = ((r.val (Fin.rev 0) : ℝ) : ℂ) • (Rn *ᵥ v) := hev
  rw [hRtv] at hev'
  have hval : ((r.val (Fin.rev 0) : ℝ) : ℂ) ≠ 0 := by
    intro hz
    rw [hz, zero_smul] at hev'
    have := congrFun hev' ref
    simp only [Pi.smul_apply, smul_eq_mul, Pi.zero_apply] at this
    exact (mul_ne_zero hhv h0) this
  have hRnv : ∀ c, (Rn *ᵥ v) c = (star hvec ⬝ᵥ v) * hvec c / ((r.val (Fin.rev 0) : ℝ) : ℂ) := by
    intro c
    have := congrFun hev' c
    simp only [Pi.smul_apply, smul_eq_mul] at this
    rw [this, mul_comm, mul_div_assoc, div_self hval, mul_one]
  have hv' : rtfVector solver Rt Rn none = .ok v := by
    unfold rtfVector
    simp only [hr, bind, Except.bind]
    rfl
  unfold mvdrRtf
  simp only [hv', bind, Except.bind]
  rw [if_neg (by rw [hRnv]; exact div_ne_zero (mul_ne_zero hhv h0) hval)]
  show Except.ok _ = Except.ok _
  congr 1
  funext c
  rw [hRnv, hRnv]
  field_simp

example : ∃ solver, mvdrRtf solver (Demo.rankOne 3) (Demo.cov 3) 1 none = .ok fun c => Demo.vec 3 c / Demo.vec 3 1 := by
  obtain ⟨solver, r, -, hr, hg⟩ := demo_gevd
  exact ⟨solver, rtf_rank_one solver (Demo.vec 3) _ (Demo.cov_pd 3) 1 (Demo.vec_ne_zero 1) r hr hg⟩

/-- `rtf_reference_one` and `rtf_succeeds` on two microphones, with one power iteration: target covariance
`[[1, 1], [1, 1]]`, noise covariance `2 I`. -/
private lemma demo_rtf (solver : Matrix (Fin 2) (Fin 2) ℂ → EigRes (Fin 2)) :
    ∃ d, mvdrRtf solver (Matrix.of fun _ _ => 1) ((2 : ℂ) • 1) 0 (some 1) = .ok d ∧ d 0 = 1 := by
  obtain ⟨m, x, -, hx, h1⟩ := solve_loaded_psd ((2 : ℂ) • (1 : Matrix (Fin 2) (Fin 2) ℂ))
    (Matrix.PosSemidef.one.smul (by norm_num)) (Matrix.of fun _ _ => 1 : Matrix (Fin 2) (Fin 2) ℂ) 1e-5 (by norm_num)
  have h00 := congrFun (congrFun h1 0) 0
  have hx0 : x 0 0 ≠ 0 := fun h0 => by
    simp [Matrix.mul_apply, Fin.sum_univ_two, h0] at h00
  obtain ⟨d, hd⟩ := rtf_succeeds solver (Matrix.of fun _ _ => 1) ((2 : ℂ) • 1) 0 (some 1) (fun c => x c 0)
    (by simp only [rtfVector, hx]; rfl) (by simpa [Matrix.smul_mulVec] using hx0)
  exact ⟨d, hd, rtf_reference_one solver _ _ _ _ d hd⟩

/-! ## C41 dispatch -/

section dispatch
variable [NeZero C] (solver : Matrix (Fin C) (Fin C) ℂ → EigRes (Fin C))
  (maskModel : (Fin F → Fin N → ℂ) → MaskOut S F N) (ref : Fin C) (eps : ℝ) (nPower : Option ℕ) (X : Sig C F N)

/-- **C41.** MVDR rejects every mask count other than two and three. -/
theorem mvdr_rejects_mask_count (mvdrType : String) (h2 : (maskModel (X ref)).1 ≠ 2) (h3 : (maskModel (X ref)).1 ≠ 3) :
    mvdrForward solver maskModel ref eps mvdrType nPower X = .error .unboundLocalError := by
  unfold mvdrForward
  split
  · rename_i h; rw [h] at h2; exact absurd rfl h2
  · rename_i h; rw [h] at h3; exact absurd rfl h3
  · rfl

/-- One mask, and four masks. -/
example (solver) : mvdrForward solver (fun _ => (⟨1, fun _ _ _ _ => 1 / 2⟩ : MaskOut 2 3 4)) 0 1e-5 "rtf" none (Demo.sig 2 3 4)
      = .error .unboundLocalError ∧
    mvdrForward solver (fun _ => (⟨4, fun _ _ _ _ => 1 / 2⟩ : MaskOut 2 3 4)) 0 1e-5 "rtf" none (Demo.sig 2 3 4)
      = .error .unboundLocalError :=
  ⟨mvdr_rejects_mask_count _ _ _ _ _ _ _ (by norm_num) (by norm_num),
    mvdr_rejects_mask_count _ _ _ _ _ _ _ (by norm_num) (by norm_num)⟩

/-- **C41.** With two masks MVDR rejects every `mvdr_type` other than `rtf` and `scm`. -/
theorem mvdr_rejects_type (mvdrType : String) (h2 : (maskModel (X ref)).1 = 2) (h : mvdrType ≠ "rtf")
    (h' : mvdrType ≠ "scm") :
    mvdrForward solver maskModel ref eps mvdrType nPower X = .error .unboundLocalError := by
  unfold mvdrForward
  split
  · simp only [if_neg h, if_neg h']
  · rename_i h3; rw [h3] at h2; simp at h2
  · rfl

example (solver) : mvdrForward solver (fun _ => (⟨2, fun _ _ _ _ => 1 / 2⟩ : MaskOut 2 3 4)) 0 1e-5 "mwf" none
    (Demo.sig 2 3 4) = .error .unboundLocalError :=
  mvdr_rejects_type _ _ _ _ _ _ _ rfl (by decide) (by decide)

/-- **C41.** With three masks the `mvdr_type` has no effect, whatever the string. -/
theorem mvdr_three_masks_ignores_type (t t' : String) (h3 : (maskModel (X ref)).1 = 3) :
    mvdrForward solver maskModel ref eps t nPower X = mvdrForward solver maskModel ref eps t' nPower X := by
  unfold mvdrForward
  split
  · rename_i h2; rw [h2] at h3; simp at h3
  · rfl
  · rfl

example (solver) : mvdrForward solver (fun _ => (⟨3, fun _ _ _ _ => 1 / 2⟩ : MaskOut 2 3 4)) 0 1e-5 "scm" none (Demo.sig 2 3 4)
    = mvdrForward solver (fun _ => (⟨3, fun _ _ _ _ => 1 / 2⟩ : MaskOut 2 3 4)) 0 1e-5 "nonsense" none (Demo.sig 2 3 4) :=
  mvdr_three_masks_ignores_type _ _ _ _ _ _ _ _ rfl

omit [NeZero C] in
/-- **C41.** The time-varying MWF rejects every mask count other than four (an assertion for two or more masks, an index
error below); the time-invariant MWF needs two masks. -/
theorem mwf_rejects_mask_count (ti : Bool) :
    ((maskModel (X ref)).1 < 2 → mwfForward maskModel ref eps ti X = .error .indexError) ∧
    (2 ≤ (maskModel (X ref)).1 → (maskModel (X ref)).1 ≠ 4 →
      mwfForward maskModel ref eps false X = .error .assertionError) := by
  unfold mwfForward
  generalize maskModel (X ref) = mo
  obtain ⟨M, masks⟩ := mo
  refine ⟨fun h => ?_, fun h h4 => ?_⟩
  · simp only
    rw [dif_neg (by simpa using h)]
  · simp only
    rw [dif_pos h]
    dsimp only at h4
    simp [h4]

example : mwfForward (fun _ => (⟨1, fun _ _ _ _ => 1 / 2⟩ : MaskOut 2 3 4)) 0 1e-5 true (Demo.sig 2 3 4) = .error .indexError ∧
    mwfForward (fun _ => (⟨3, fun _ _ _ _ => 1 / 2⟩ : MaskOut 2 3 4)) 0 1e-5 false (Demo.sig 2 3 4)
      = .error .assertionError :=
  ⟨(mwf_rejects_mask_count _ _ _ _ true).1 (by norm_num), (mwf_rejects_mask_count _ _ _ _ true).2 (by norm_num) (by norm_num)⟩

/-- **C41.** The GEV beamformer needs two masks. -/
theorem gev_rejects_mask_count (h : (maskModel (X ref)).1 < 2) :
    gevForward solver maskModel ref X = .error .indexError := by
  unfold gevForward
  generalize maskModel (X ref) = mo at h
  obtain ⟨M, masks⟩ := mo
  simp only
  rw [dif_neg (by simpa using h)]

example (solver) : gevForward solver (fun _ => (⟨1, fun _ _ _ _ => 1 / 2⟩ : MaskOut 2 3 4)) 0 (Demo.sig 2 3 4)
    = .error .indexError :=
  gev_rejects_mask_count _ _ _ _ (by norm_num)

/-- **C41, C38.** With two or more nonnegative masks the time-invariant MWF always succeeds, whatever the input, and every
output is the optimal Wiener estimate for the masked covariance matrices. -/
theorem mwf_forward_time_invariant (M : ℕ) (hM : 2 ≤ M) (masks : Fin S → Fin M → Fin F → Fin N → ℝ)
    (hmask : maskModel (X ref) = ⟨M, masks⟩) (hnn : ∀ s m f n, 0 ≤ masks s m f n) :
    ∃ Y, mwfForward maskModel ref eps true X = .ok Y ∧ ∀ s f,
      let Rt : Matrix (Fin C) (Fin C) ℂ := Matrix.of fun c d => ∑ n, (masks s ⟨0, by omega⟩ f n : ℂ) * X c f n * star (X d f n)
      let Rn : Matrix (Fin C) (Fin C) ℂ := Matrix.of fun c d => ∑ n, (masks s ⟨1, by omega⟩ f n : ℂ) * X c f n * star (X d f n)
      ∃ w lam, (∀ n, Y s f n = ∑ c, star (w c) * X c f n) ∧ IsLoad (Rt + Rn) 1e-6 lam ∧
        IsUniqueMin (mwfCost Rt Rn lam ref) w := by
  have hk : ∀ p : Fin S × Fin F, ∃ w, mwfBfRef (maskCov (masks p.1 ⟨0, by omega⟩) X p.2)
      (maskCov (masks p.1 ⟨1, by omega⟩) X p.2) eps ref = .ok w ∧ ∃ lam : ℝ,
      IsLoad (maskCov (masks p.1 ⟨0, by omega⟩) X p.2 + maskCov (masks p.1 ⟨1, by omega⟩) X p.2) 1e-6 lam ∧
      IsUniqueMin (mwfCost (maskCov (masks p.1 ⟨0, by omega⟩) X p.2) (maskCov (masks p.1 ⟨1, by omega⟩) X p.2)
        lam ref) w := by
    intro p
    obtain ⟨w, m, h1, hm, h2⟩ := mwf_ref_optimal_partial _ _
      (maskCov_psd (masks p.1 ⟨0, by omega⟩) p.2 (hnn _ _ _) X)
      (maskCov_psd (masks p.1 ⟨1, by omega⟩) p.2 (hnn _ _ _) X) eps ref
    exact ⟨w, h1, _, ⟨m, hm, rfl⟩, h2⟩
  choose w hw hopt using hk
  have hseq : (seqAll fun p : Fin S × Fin F => mwfBfRef (maskCov (masks p.1 ⟨0, by omega⟩) X p.2)
      (maskCov (masks p.1 ⟨1, by omega⟩) X p.2) eps ref) = .ok w := seqAll_ok_iff.2 hw
  choose lam hlam hmin using hopt
  refine ⟨applyBf X w, ?_, fun s f => ⟨w (s, f), lam (s, f), fun n => ?_, hlam (s, f), hmin (s, f)⟩⟩
  · unfold mwfForward
    rw [hmask]
    simp only [dif_pos hM, hseq, bind, Except.bind, if_true]
    rfl
  · exact Finset.sum_congr rfl fun c _ => mul_comm _ _

/-- Masks that vary over sources, frequencies and frames. -/
example : ∃ Y, mwfForward (fun _ => (⟨2, fun s m f n => s.1 + m.1 + f.1 * n.1⟩ : MaskOut 2 3 4)) 1 1e-5 true (Demo.sig 2 3 4)
    = .ok Y :=
  (mwf_forward_time_invariant (fun _ => (⟨2, fun s m f n => s.1 + m.1 + f.1 * n.1⟩ : MaskOut 2 3 4)) 1 1e-5 (Demo.sig 2 3 4) 2
    le_rfl _ rfl (fun _ _ _ _ => by positivity)).imp fun _ h => h.1

/-- **C36, C40, C41.** With two nonnegative masks and `mvdr_type = "rtf"`, whenever the forward pass returns, each output
is `wᴴ x` for a filter `w` that has least output power, with respect to the loaded noise covariance, among the
filters with the same response to the relative transfer function `d` (`d[ref] = 1`) that the covariance matrices of masks 0
and 1 give; the response is one when `g = dᴴ L⁻¹ d ≥ eps` and `g / eps` otherwise. -/
theorem mvdr_forward_rtf (he : 0 < eps) (masks : Fin S → Fin 2 → Fin F → Fin N → ℝ)
    (hmask : maskModel (X ref) = ⟨2, masks⟩) (hnn : ∀ s m f n, 0 ≤ masks s m f n) (Y : Sig S F N)
    (hY : mvdrForward solver maskModel ref eps "rtf" nPower X = .ok Y) (s : Fin S) (f : Fin F) :
    let Rt : Matrix (Fin C) (Fin C) ℂ := Matrix.of fun c d => ∑ n, (masks s 0 f n : ℂ) * X c f n * star (X d f n)
    let Rn : Matrix (Fin C) (Fin C) ℂ := Matrix.of fun c d => ∑ n, (masks s 1 f n : ℂ) * X c f n * star (X d f n)
    ∃ (w d : Fin C → ℂ) (lam : ℝ), (∀ n, Y s f n = ∑ c, star (w c) * X c f n) ∧ d ref = 1 ∧
      mvdrRtf solver Rt Rn ref nPower = .ok d ∧ IsLoad Rn eps lam ∧
      let L := Rn + (lam : ℂ) • 1
      IsMinVariance L d w ∧ (eps ≤ power L⁻¹ d → response w d = 1) ∧
      (power L⁻¹ d < eps → response w d = ((power L⁻¹ d / eps : ℝ) : ℂ)) := by
  unfold mvdrForward at hY
  rw [hmask] at hY
  simp only [if_true, bind, Except.bind] at hY
  split at hY
  · cases hY
  rename_i rtf hrtf
  split at hY
  · cases hY
  rename_i bf hbf
  cases hY
  have h1 := seqAll_ok_iff.1 hrtf (s, f)
  have h2 := seqAll_ok_iff.1 hbf (s, f)
  obtain ⟨w, m, hw, hm, -, h3, h5, h4⟩ := mvdr_distortionless _ (maskCov_psd (masks s 1) f (hnn _ _ _) X) (rtf (s, f)) eps he
  have : w = bf (s, f) := Except.ok.inj (hw.symm.trans h2)
  subst this
  exact ⟨_, rtf (s, f), _, fun n => Finset.sum_congr rfl fun c _ => mul_comm _ _, rtf_reference_one _ _ _ _ _ _ h1,
    h1, ⟨m, hm, rfl⟩, h4, h3, h5⟩

/-- **C41.** Three masks: the relative transfer function comes from masks 0 and 2, the noise covariance from mask 1. -/
theorem mvdr_forward_three_masks (he : 0 < eps) (t : String) (masks : Fin S → Fin 3 → Fin F → Fin N → ℝ)
    (hmask : maskModel (X ref) = ⟨3, masks⟩) (hnn : ∀ s m f n, 0 ≤ masks s m f n) (Y : Sig S F N)
    (hY : mvdrForward solver maskModel ref eps t nPower X = .ok Y) (s : Fin S) (f : Fin F) :
    let R : Fin 3 → Matrix (Fin C) (Fin C) ℂ := fun m =>
      Matrix.of fun c d => ∑ n, (masks s m f n : ℂ) * X c f n * star (X d f n)
    ∃ (w d : Fin C → ℂ) (lam : ℝ), (∀ n, Y s f n = ∑ c, star (w c) * X c f n) ∧ d ref = 1 ∧
      mvdrRtf solver (R 0) (R 2) ref nPower = .ok d ∧ IsLoad (R 1) eps lam ∧
      let L := R 1 + (lam : ℂ) • 1
      IsMinVariance L d w ∧ (eps ≤ power L⁻¹ d → response w d = 1) ∧
      (power L⁻¹ d < eps → response w d = ((power L⁻¹ d / eps : ℝ) : ℂ)) := by
  unfold mvdrForward at hY
  rw [hmask] at hY
  simp only [bind, Except.bind] at hY
  split at hY
  · cases hY
  rename_i rtf hrtf
  split at hY
  · cases hY
  rename_i bf hbf
  cases hY
  have h1 := seqAll_ok_iff.1 hrtf (s, f)
  have h2 := seqAll_ok_iff.1 hbf (s, f)
  obtain ⟨w, m, hw, hm, -, h3, h5, h4⟩ := mvdr_distortionless _ (maskCov_psd (masks s 1) f (hnn _ _ _) X) (rtf (s, f)) eps he
  have : w = bf (s, f) := Except.ok.inj (hw.symm.trans h2)
  subst this
  exact ⟨_, rtf (s, f), _, fun n => Finset.sum_congr rfl fun c _ => mul_comm _ _, rtf_reference_one _ _ _ _ _ _ h1,
    h1, ⟨m, hm, rfl⟩, h4, h3, h5⟩

/-- Two microphones and two frames, for which the covariance matrices are those of `demo_rtf`. -/
private noncomputable def demoX : Sig 2 1 2 := fun c _ n => if c = 1 ∧ n = 1 then -1 else 1

private lemma demo_cov1 : maskCov (fun _ _ => 1) demoX 0 = (2 : ℂ) • 1 := by
  ext i j
  fin_cases i <;> fin_cases j <;> simp [maskCov, demoX, Fin.sum_univ_two] <;> norm_num

private lemma demo_cov0 : maskCov (fun _ n => if n = 0 then 1 else 0) demoX 0 = Matrix.of fun _ _ => 1 := by
  ext i j
  fin_cases i <;> fin_cases j <;> simp [maskCov, demoX, Fin.sum_univ_two]

private lemma demo_bf (d : Fin 2 → ℂ) : ∃ w, mvdrBf ((2 : ℂ) • (1 : Matrix (Fin 2) (Fin 2) ℂ)) d 1e-5 = .ok w := by
  obtain ⟨w, -, h, -⟩ := mvdr_distortionless ((2 : ℂ) • (1 : Matrix (Fin 2) (Fin 2) ℂ))
    (Matrix.PosSemidef.one.smul (by norm_num)) d 1e-5 (by norm_num)
  exact ⟨w, h⟩

/-- The forward pass returns with two masks (`mvdr_forward_rtf`) and with three (`mvdr_forward_three_masks`). -/
example (solver) : (∃ Y, mvdrForward solver (fun _ => (⟨2, fun _ m _ n => if m = 0 then (if n = 0 then 1 else 0) else 1⟩ :
      MaskOut 1 1 2)) 0 1e-5 "rtf" (some 1) demoX = .ok Y) ∧
    ∃ Y, mvdrForward solver (fun _ => (⟨3, fun _ m _ n => if m = 0 then (if n = 0 then 1 else 0) else 1⟩ :
      MaskOut 1 1 2)) 0 1e-5 "rtf" (some 1) demoX = .ok Y := by
  obtain ⟨d, hd, -⟩ := demo_rtf solver
  obtain ⟨w, hw⟩ := demo_bf d
  have hs1 : (seqAll fun _ : Fin 1 × Fin 1 => mvdrRtf solver (Matrix.of fun _ _ => 1) ((2 : ℂ) • 1) 0 (some 1))
      = .ok fun _ => d := seqAll_ok_iff.2 fun _ => hd
  have hs2 : (seqAll fun _ : Fin 1 × Fin 1 => mvdrBf ((2 : ℂ) • (1 : Matrix (Fin 2) (Fin 2) ℂ)) d 1e-5)
      = .ok fun _ => w := seqAll_ok_iff.2 fun _ => hw
  have hz : ∀ p : Fin 1 × Fin 1, p.2 = 0 := fun p => Subsingleton.elim _ _
  constructor
  · refine ⟨applyBf demoX fun _ => w, ?_⟩
    unfold mvdrForward
    simp only [hz, if_true, if_neg (show (1 : Fin 2) ≠ 0 by decide), demo_cov0, demo_cov1, hs1, hs2, bind, Except.bind]
    rfl
  · refine ⟨applyBf demoX fun _ => w, ?_⟩
    unfold mvdrForward
    simp only [hz, if_true, if_neg (show (1 : Fin 3) ≠ 0 by decide), if_neg (show (2 : Fin 3) ≠ 0 by decide), demo_cov0,
      demo_cov1, hs1, hs2, bind, Except.bind]
    rfl

/-- **C37, C41.** Two masks and `mvdr_type = "scm"`: the forward pass returns iff at every source and frequency the noise
covariance (mask 1) is invertible and the trace of `Rn⁻¹ Rt` is not zero, and then the output is `wᴴ x` for `w` the
reference column of `Rn⁻¹ Rt` divided by that trace, `Rt` being the target covariance (mask 0). -/
theorem mvdr_forward_scm (masks : Fin S → Fin 2 → Fin F → Fin N → ℝ) (hmask : maskModel (X ref) = ⟨2, masks⟩) (Y : Sig S F N) :
    mvdrForward solver maskModel ref eps "scm" nPower X = .ok Y ↔ ∀ s f,
      let Rt : Matrix (Fin C) (Fin C) ℂ := Matrix.of fun c d => ∑ n, (masks s 0 f n : ℂ) * X c f n * star (X d f n)
      let Rn : Matrix (Fin C) (Fin C) ℂ := Matrix.of fun c d => ∑ n, (masks s 1 f n : ℂ) * X c f n * star (X d f n)
      Rn.det ≠ 0 ∧ (Rn⁻¹ * Rt).trace ≠ 0 ∧
        ∀ n, Y s f n = ∑ c, star ((Rn⁻¹ * Rt) c ref / (Rn⁻¹ * Rt).trace) * X c f n := by
  have hbf : ∀ (Rt Rn : Matrix (Fin C) (Fin C) ℂ) w, mvdrBf2 Rt Rn ref = .ok w ↔
      Rn.det ≠ 0 ∧ (Rn⁻¹ * Rt).trace ≠ 0 ∧ w = fun c => (Rn⁻¹ * Rt) c ref / (Rn⁻¹ * Rt).trace := by
    intro Rt Rn w
    unfold mvdrBf2 solve
    by_cases hu : IsUnit Rn.det
    · by_cases ht : (Rn⁻¹ * Rt).trace = 0
      · have ht' : ∑ c, (Rn⁻¹ * Rt) c c = 0 := ht
        simp only [bind, Except.bind, if_pos hu, ht, if_pos ht', ne_eq, not_true_eq_false, false_and, and_false]
        simp
      · have ht' : ∑ c, (Rn⁻¹ * Rt) c c ≠ 0 := ht
        simp only [bind, Except.bind, if_pos hu, if_neg ht', hu.ne_zero, ht, ne_eq, not_false_eq_true, true_and]
        constructor
        · intro h; cases h; rfl
        · rintro rfl; rfl
    · have h0 : Rn.det = 0 := by simpa [isUnit_iff_ne_zero] using hu
      simp [bind, Except.bind, h0]
  unfold mvdrForward
  rw [hmask]
  simp only [if_neg (show "scm" ≠ "rtf" by decide), if_true, bind, Except.bind]
  constructor
  · intro hY
    split at hY
    · cases hY
    rename_i bf h
    cases hY
    intro s f
    obtain ⟨h1, h2, h3⟩ := (hbf _ _ _).1 (seqAll_ok_iff.1 h (s, f))
    refine ⟨h1, h2, fun n => ?_⟩
    unfold applyBf
    rw [h3]
    exact Finset.sum_congr rfl fun c _ => mul_comm _ _
  · intro h
    have hs := seqAll_ok_iff.2 fun p : Fin S × Fin F => (hbf (maskCov (masks p.1 0) X p.2) (maskCov (masks p.1 1) X p.2) _).2
      ⟨(h p.1 p.2).1, (h p.1 p.2).2.1, rfl⟩
    rw [hs]
    show Except.ok _ = Except.ok _
    congr 1
    funext s f n
    rw [(h s f).2.2 n]
    exact Finset.sum_congr rfl fun c _ => mul_comm _ _

/-- **C37, C41.** With nonnegative masks, `"scm"` works as soon as every noise covariance is positive definite and every target
covariance is nonzero. -/
theorem mvdr_forward_scm_succeeds (masks : Fin S → Fin 2 → Fin F → Fin N → ℝ) (hmask : maskModel (X ref) = ⟨2, masks⟩)
    (hnn : ∀ s m f n, 0 ≤ masks s m f n)
    (hn : ∀ s f, (Matrix.of fun c d => ∑ n, (masks s 1 f n : ℂ) * X c f n * star (X d f n) : Matrix (Fin C) (Fin C) ℂ).PosDef)
    (ht : ∀ s f, ∃ c n, masks s 0 f n ≠ 0 ∧ X c f n ≠ 0) :
    ∃ Y, mvdrForward solver maskModel ref eps "scm" nPower X = .ok Y := by
  refine ⟨_, (mvdr_forward_scm solver maskModel ref eps nPower X masks hmask _).2 fun s f =>
    ⟨(isUnit_det_of_posDef (hn s f)).ne_zero, ?_, fun n => rfl⟩⟩
  set Rn : Matrix (Fin C) (Fin C) ℂ := Matrix.of fun c d => ∑ n, (masks s 1 f n : ℂ) * X c f n * star (X d f n) with hRn
  have hpd : Rn⁻¹.PosDef := (hn s f).inv
  have htr : (Rn⁻¹ * (Matrix.of fun c d => ∑ n, (masks s 0 f n : ℂ) * X c f n * star (X d f n) : Matrix (Fin C) (Fin C) ℂ)).trace
      = ∑ n, (masks s 0 f n : ℂ) * (star (fun c => X c f n) ⬝ᵥ Rn⁻¹ *ᵥ fun c => X c f n) := by
    simp only [Matrix.trace, Matrix.diag, Matrix.mul_apply, Matrix.of_apply, dotProduct, Matrix.mulVec, Finset.mul_sum]
    rw [Finset.sum_congr rfl fun c _ => Finset.sum_comm, Finset.sum_comm]
    exact Finset.sum_congr rfl fun n _ => Finset.sum_congr rfl fun c _ => Finset.sum_congr rfl fun d _ => by
      simp only [Pi.star_apply]; ring
  rw [htr]
  intro h0
  obtain ⟨c, n, hm, hX⟩ := ht s f
  have h1 : ∀ n, 0 ≤ masks s 0 f n * power Rn⁻¹ (fun c => X c f n) := fun n =>
    mul_nonneg (hnn _ _ _ _) (power_nonneg hpd.posSemidef _)
  have h2 : ∑ n, masks s 0 f n * power Rn⁻¹ (fun c => X c f n) = 0 := by
    have := congrArg Complex.re h0
    rw [Complex.re_sum] at this
    simp only [Complex.re_ofReal_mul, Complex.zero_re] at this
    exact this
  have h3 := (Finset.sum_eq_zero_iff_of_nonneg fun n _ => h1 n).1 h2 n (Finset.mem_univ n)
  have h4 : 0 < power Rn⁻¹ (fun c => X c f n) := hpd.re_dotProduct_pos fun h => hX (congrFun h c)
  rcases mul_eq_zero.1 h3 with h | h
  · exact hm h
  · exact h4.ne' h

/-- Two microphones and two frames: the covariance matrices of `demo_rtf`. -/
example (solver) : ∃ Y, mvdrForward solver (fun _ => (⟨2, fun _ m _ n => if m = 0 then (if n = 0 then 1 else 0) else 1⟩ :
    MaskOut 1 1 2)) 0 1e-5 "scm" (some 1) demoX = .ok Y := by
  refine mvdr_forward_scm_succeeds solver _ 0 1e-5 (some 1) demoX _ rfl (fun s m f n => ?_) (fun s f => ?_) fun s f => ?_
  · show (0 : ℝ) ≤ if m = 0 then (if n = 0 then 1 else 0) else 1
    split_ifs <;> norm_num
  · have h := demo_cov1
    unfold maskCov at h
    have : (Matrix.of fun c d => ∑ n, (((if (1 : Fin 2) = 0 then (if n = (0 : Fin 2) then 1 else 0) else 1 : ℝ)) : ℂ) *
        demoX c f n * star (demoX d f n) : Matrix (Fin 2) (Fin 2) ℂ) = (2 : ℂ) • 1 := by
      rw [← h, Subsingleton.elim f 0]
      simp
    rw [this]
    exact Matrix.PosDef.one.smul (by norm_num)
  · exact ⟨0, 0, by simp, by simp [demoX]⟩

/-- **C38, C41.** The time-varying MWF with four nonnegative masks always succeeds; at every frame the filter is the optimal
Wiener filter for the frame-wise scaled covariance matrices. -/
theorem mwf_forward_time_varying (masks : Fin S → Fin 4 → Fin F → Fin N → ℝ)
    (hmask : maskModel (X ref) = ⟨4, masks⟩) (hnn : ∀ s m f n, 0 ≤ masks s m f n) :
    ∃ Y, mwfForward maskModel ref eps false X = .ok Y ∧ ∀ s f n,
      let Rt : Matrix (Fin C) (Fin C) ℂ :=
        Matrix.of fun c d => (masks s 2 f n : ℂ) * ∑ t, (masks s 0 f t : ℂ) * X c f t * star (X d f t)
      let Rn : Matrix (Fin C) (Fin C) ℂ :=
        Matrix.of fun c d => (masks s 3 f n : ℂ) * ∑ t, (masks s 1 f t : ℂ) * X c f t * star (X d f t)
      ∃ w lam, Y s f n = ∑ c, star (w c) * X c f n ∧ IsLoad (Rt + Rn) 1e-6 lam ∧ IsUniqueMin (mwfCost Rt Rn lam ref) w := by
  have hsc : ∀ {R : Matrix (Fin C) (Fin C) ℂ} (z : ℝ), 0 ≤ z → R.PosSemidef → ((z : ℂ) • R).PosSemidef := by
    intro R z hz hR
    exact hR.smul (by exact_mod_cast hz)
  have hk : ∀ p : (Fin S × Fin F) × Fin N, ∃ w, mwfBfRef
      ((masks p.1.1 2 p.1.2 p.2 : ℂ) • maskCov (masks p.1.1 0) X p.1.2)
      ((masks p.1.1 3 p.1.2 p.2 : ℂ) • maskCov (masks p.1.1 1) X p.1.2) eps ref = .ok w ∧ ∃ lam : ℝ,
      IsLoad ((masks p.1.1 2 p.1.2 p.2 : ℂ) • maskCov (masks p.1.1 0) X p.1.2
        + (masks p.1.1 3 p.1.2 p.2 : ℂ) • maskCov (masks p.1.1 1) X p.1.2) 1e-6 lam ∧
      IsUniqueMin (mwfCost ((masks p.1.1 2 p.1.2 p.2 : ℂ) • maskCov (masks p.1.1 0) X p.1.2)
        ((masks p.1.1 3 p.1.2 p.2 : ℂ) • maskCov (masks p.1.1 1) X p.1.2) lam ref) w := by
    intro p
    obtain ⟨w, m, h1, hm, h2⟩ := mwf_ref_optimal_partial _ _
      (hsc (masks p.1.1 2 p.1.2 p.2) (hnn _ _ _ _) (maskCov_psd (masks p.1.1 0) p.1.2 (hnn _ _ _) X))
      (hsc (masks p.1.1 3 p.1.2 p.2) (hnn _ _ _ _) (maskCov_psd (masks p.1.1 1) p.1.2 (hnn _ _ _) X)) eps ref
    exact ⟨w, h1, _, ⟨m, hm, rfl⟩, h2⟩
  choose w hw hopt using hk
  choose lam hlam hmin using hopt
  have hseq := seqAll_ok_iff.2 hw
  refine ⟨fun s f n => ∑ c, X c f n * star (w ((s, f), n) c), ?_, fun s f n =>
    ⟨w ((s, f), n), lam ((s, f), n), Finset.sum_congr rfl fun c _ => mul_comm _ _, hlam ((s, f), n), hmin ((s, f), n)⟩⟩
  unfold mwfForward
  rw [hmask]
  simp only [bind, Except.bind]
  rw [dif_pos (by norm_num)]
  rw [if_neg (by simp), dif_pos trivial]
  erw [hseq]
  rfl

example : ∃ Y, mwfForward (fun _ => (⟨4, fun s m f n => s.1 + m.1 + f.1 * n.1⟩ : MaskOut 2 3 4)) 1 1e-5 false (Demo.sig 2 3 4)
    = .ok Y :=
  (mwf_forward_time_varying (fun _ => (⟨4, fun s m f n => s.1 + m.1 + f.1 * n.1⟩ : MaskOut 2 3 4)) 1 1e-5 (Demo.sig 2 3 4)
    _ rfl (fun _ _ _ _ => by positivity)).imp fun _ h => h.1

/-- **C39, C41.** With three or more channels, two nonnegative masks and masked noise covariances whose eigenvalues are at least
`1e-5`, the GEV beamformer succeeds and each output is the part `vᴴ x (Rn v)[ref] / vᴴ Rn v` of the reference microphone, with `v`
maximising the masked target to noise power ratio. -/
theorem gev_forward (hC : C ≠ 2) (hc : EighContract C solver) (M : ℕ) (hM : 2 ≤ M)
    (masks : Fin S → Fin M → Fin F → Fin N → ℝ)
    (hmask : maskModel (X ref) = ⟨M, masks⟩) (hnn : ∀ s m f n, 0 ≤ masks s m f n)
    (hpd : ∀ s f v, 1e-5 * ∑ k, ‖v k‖ ^ 2 ≤
      power (fun c d => ∑ n, (masks s ⟨1, by omega⟩ f n : ℂ) * X c f n * star (X d f n)) v) :
    ∃ Y, gevForward solver maskModel ref X = .ok Y ∧ ∀ s f,
      let Rt : Matrix (Fin C) (Fin C) ℂ := Matrix.of fun c d => ∑ n, (masks s ⟨0, by omega⟩ f n : ℂ) * X c f n * star (X d f n)
      let Rn : Matrix (Fin C) (Fin C) ℂ := Matrix.of fun c d => ∑ n, (masks s ⟨1, by omega⟩ f n : ℂ) * X c f n * star (X d f n)
      ∃ v, IsMaxSnr Rt Rn v ∧ ∀ n, Y s f n = (∑ c, star (v c) * X c f n) * ((Rn *ᵥ v) ref / (power Rn v : ℝ)) := by
  have hk : ∀ p : Fin S × Fin F, ∃ w, gevBf solver (maskCov (masks p.1 ⟨0, by omega⟩) X p.2)
      (maskCov (masks p.1 ⟨1, by omega⟩) X p.2) ref = .ok w ∧ ∃ v : Fin C → ℂ,
      IsMaxSnr (maskCov (masks p.1 ⟨0, by omega⟩) X p.2) (maskCov (masks p.1 ⟨1, by omega⟩) X p.2) v ∧
      ∀ x : Fin C → ℂ, ∑ c, w c * x c = (∑ c, star (v c) * x c) * ((maskCov (masks p.1 ⟨1, by omega⟩) X p.2 *ᵥ v) ref
        / (power (maskCov (masks p.1 ⟨1, by omega⟩) X p.2) v : ℝ)) := by
    intro p
    have ht := maskCov_psd (masks p.1 ⟨0, by omega⟩) p.2 (hnn _ _ _) X
    have hn := maskCov_psd (masks p.1 ⟨1, by omega⟩) p.2 (hnn _ _ _) X
    have hnp : (maskCov (masks p.1 ⟨1, by omega⟩) X p.2).PosDef := by
      refine Matrix.PosDef.of_dotProduct_mulVec_pos hn.isHermitian fun x hx => ?_
      have h0 := hn.dotProduct_mulVec_nonneg x
      refine lt_of_le_of_ne h0 fun h => ?_
      have h1 := hpd p.1 p.2 x
      have h2 : power (maskCov (masks p.1 ⟨1, by omega⟩) X p.2) x = 0 := by
        unfold power
        rw [← h]
        rfl
      have h3 : 0 < ∑ k, ‖x k‖ ^ 2 := by
        obtain ⟨i, hi⟩ := Function.ne_iff.1 hx
        exact Finset.sum_pos' (fun _ _ => by positivity) ⟨i, Finset.mem_univ _, by have := norm_pos_iff.2 hi; positivity⟩
      have h4 : power (fun c d => ∑ n, (masks p.1 ⟨1, by omega⟩ p.2 n : ℂ) * X c p.2 n * star (X d p.2 n)) x = 0 := h2
      rw [h4] at h1
      nlinarith
    obtain ⟨r, hr, hg⟩ := gevd_general hC solver hc _ _ ht.isHermitian hn.isHermitian (hpd p.1 p.2) 1e-15
    obtain ⟨h1, ⟨w, h2, h3⟩, -⟩ := gev_max_snr solver _ _ ht.isHermitian hnp ref r hr hg
    exact ⟨w, h2, _, h1, h3⟩
  choose w hw v hmax hout using hk
  have hseq := seqAll_ok_iff.2 hw
  refine ⟨fun s f n => ∑ c, w (s, f) c * X c f n, ?_, fun s f => ⟨v (s, f), hmax (s, f), fun n => hout (s, f) fun c => X c f n⟩⟩
  unfold gevForward
  rw [hmask]
  simp only [dif_pos hM, hseq, bind, Except.bind]
  rfl

end dispatch

/-! ## Non-vacuity -/

/-- The hypotheses of the MVDR, MWF and GEV theorems hold for a concrete three-channel pair. -/
example : (1 : Matrix (Fin 3) (Fin 3) ℂ).PosSemidef ∧ (1 : Matrix (Fin 3) (Fin 3) ℂ).PosDef ∧
    (∃ solver, EighContract 3 solver) ∧
    (∀ v : Fin 3 → ℂ, 1e-5 * ∑ k, ‖v k‖ ^ 2 ≤ power (1 : Matrix (Fin 3) (Fin 3) ℂ) v) := by
  refine ⟨Matrix.PosSemidef.one, Matrix.PosDef.one, eighContract_exists 3, fun v => ?_⟩
  have h : power (1 : Matrix (Fin 3) (Fin 3) ℂ) v = ∑ k, ‖v k‖ ^ 2 := by
    have := power_load (0 : Matrix (Fin 3) (Fin 3) ℂ) 1 v
    simpa [power] using this
  rw [h]
  have : 0 ≤ ∑ k, ‖v k‖ ^ 2 := Finset.sum_nonneg fun _ _ => by positivity
  nlinarith

/-- The hypotheses of `gevd_two_channels` hold for a concrete pair. -/
example : let A : Matrix (Fin 2) (Fin 2) ℂ := !![2, 1; 1, 2]
    A.IsHermitian ∧ (1e-15 : ℝ) ≤ (1 : Matrix (Fin 2) (Fin 2) ℂ).det.re ∧
    1e-15 ≤ (A * (1 : Matrix (Fin 2) (Fin 2) ℂ).adjugate).trace.re ^ 2
      - 4 * (A.det.re * (1 : Matrix (Fin 2) (Fin 2) ℂ).det.re) ∧
    A 0 0 * (1 : Matrix (Fin 2) (Fin 2) ℂ) 0 1 ≠ A 0 1 * (1 : Matrix (Fin 2) (Fin 2) ℂ) 0 0 := by
  refine ⟨?_, ?_, ?_, ?_⟩
  · ext i j; fin_cases i <;> fin_cases j <;> simp
  · simp; norm_num
  · simp [Matrix.trace, Fin.sum_univ_two, Matrix.det_fin_two]; norm_num
  · simp

end Torchiva.Props
