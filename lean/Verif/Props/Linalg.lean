import Verif.Proofs.EigN
import Mathlib.Analysis.Matrix.PosDef

/-!
# Properties C01-C05, C07: torchiva.linalg
-/

namespace Torchiva.Props

open Matrix Spec Torchiva
open scoped ComplexOrder

variable {ι κ μ : Type} [Fintype ι] [DecidableEq ι]

/-! ## C01 solve_loaded -/

private lemma maxAbs_spec [Nonempty ι] (A : Matrix ι ι ℂ) :
    ∃ m, maxAbs A = .ok m ∧ IsGreatest (Set.range fun p : ι × ι => ‖A p.1 p.2‖) m := by
  refine ⟨_, dif_pos ⟨inferInstance, inferInstance⟩, ?_, ?_⟩
  · obtain ⟨j, _, hj⟩ := Finset.exists_mem_eq_sup' (s := Finset.univ) (Finset.univ_nonempty)
      (fun j => Finset.univ.sup' (Finset.univ_nonempty (α := ι)) fun i => ‖A i j‖)
    obtain ⟨i, _, hi⟩ := Finset.exists_mem_eq_sup' (s := Finset.univ) (Finset.univ_nonempty)
      (fun i => ‖A i j‖)
    exact ⟨(i, j), by rw [hj, hi]⟩
  · rintro _ ⟨⟨i, j⟩, rfl⟩
    exact le_trans (Finset.le_sup' (fun i => ‖A i j‖) (Finset.mem_univ i))
      (Finset.le_sup' (fun j => Finset.univ.sup' (Finset.univ_nonempty (α := ι)) fun i => ‖A i j‖)
        (Finset.mem_univ j))

/-- **C01.** On a Hermitian positive semi-definite matrix `solve_loaded` never raises and solves
the system with `max(load * max|A_ij|, load)` added to the diagonal. -/
theorem solve_loaded_psd [Nonempty ι] (A : Matrix ι ι ℂ) (hA : A.PosSemidef) (b : Matrix ι κ ℂ)
    (load : ℝ) (hl : 0 < load) :
    ∃ m x, IsGreatest (Set.range fun p : ι × ι => ‖A p.1 p.2‖) m ∧
      solveLoaded A b load = .ok x ∧
      (A + ((max (load * m) load : ℝ) : ℂ) • (1 : Matrix ι ι ℂ)) * x = b := by
  obtain ⟨m, hm, hg⟩ := maxAbs_spec A
  have hpos : 0 < max (load * m) load := lt_of_lt_of_le hl (le_max_right _ _)
  obtain ⟨x, hx, hs⟩ := solve_spec (A := A + ((max (load * m) load : ℝ) : ℂ) • (1 : Matrix ι ι ℂ)) b
    (isUnit_det_of_posDef (Matrix.PosDef.posSemidef_add hA (posDef_load hpos)))
  exact ⟨m, x, hg, by simp only [solveLoaded, hm]; exact hx, hs⟩

/-- **C01** (same for `inv_loaded`): the result is the inverse of the loaded matrix. -/
theorem inv_loaded_psd [Nonempty ι] (A : Matrix ι ι ℂ) (hA : A.PosSemidef)
    (load : ℝ) (hl : 0 < load) :
    ∃ m x, IsGreatest (Set.range fun p : ι × ι => ‖A p.1 p.2‖) m ∧
      invLoaded A load = .ok x ∧
      (A + ((max (load * m) load : ℝ) : ℂ) • (1 : Matrix ι ι ℂ)) * x = 1 := by
  obtain ⟨m, hm, hg⟩ := maxAbs_spec A
  have hpos : 0 < max (load * m) load := lt_of_lt_of_le hl (le_max_right _ _)
  have hu := isUnit_det_of_posDef (Matrix.PosDef.posSemidef_add hA (posDef_load hpos))
  refine ⟨m, _, hg, by simp only [invLoaded, hm]; exact if_pos hu, Matrix.mul_nonsing_inv _ hu⟩

/-- Outside the hypotheses of C01 the claim fails: for an indefinite matrix the loading can
make the system singular. -/
theorem solve_loaded_indefinite_can_raise :
    solveLoaded (ι := Fin 1) (κ := Fin 1) !![((-1e-6 : ℝ) : ℂ)] 1 1e-6 = .error .singular := by
  obtain ⟨m, hm, hg⟩ := maxAbs_spec (ι := Fin 1) !![((-1e-6 : ℝ) : ℂ)]
  obtain ⟨⟨p, hp⟩, -⟩ := hg
  have h1 : m = 1e-6 := by
    rw [← hp]
    have : p = (0, 0) := Subsingleton.elim _ _
    subst this
    simp only [Matrix.of_apply, Matrix.cons_val', Matrix.cons_val_zero, Matrix.cons_val_fin_one]
    rw [Complex.norm_real]; norm_num
  subst h1
  simp only [solveLoaded, hm]
  change solve _ _ = _
  unfold solve
  rw [if_neg]
  rw [Matrix.det_fin_one]
  have : clampMin ((1e-6 : ℝ) * 1e-6) 1e-6 = 1e-6 := by
    unfold clampMin; rw [max_eq_right]; norm_num
  rw [this]
  simp

/-- Non-vacuity of `solve_loaded_psd` and `inv_loaded_psd` (C01): a singular (rank one) covariance of two fully correlated channels. -/
example : ∃ A : Matrix (Fin 2) (Fin 2) ℂ, A.PosSemidef ∧ A.det = 0 ∧ A ≠ 0 := by
  refine ⟨vecMulVec ![1, 1] (star ![1, 1]), Matrix.posSemidef_vecMulVec_self_star _, ?_, ?_⟩
  · simp [Matrix.det_fin_two, vecMulVec]
  · intro h
    have := congrFun (congrFun h 0) 0
    simp [vecMulVec] at this

/-! ## C02 solve_loaded_general -/

/-- **C02.** `solve_loaded_general` never raises; each column of the result is the unique
minimiser of the ridge cost in which row `k` of `A x = b` is divided by `max(‖A_k‖, eps)`. -/
theorem solve_loaded_general_ridge [Fintype κ] (A : Matrix κ ι ℂ) (b : Matrix κ μ ℂ)
    (load eps : ℝ) (hl : 0 < load) :
    ∃ x, solveLoadedGeneral A b load eps = .ok x ∧ ∀ c,
      IsUniqueMin (ridgeCost (fun k => 1 / max (l2 (A k)) eps) A (fun k => b k c) load)
        (fun i => x i c) := by
  obtain ⟨x, hx, hn⟩ := solveLoadedGeneral_normal A b eps hl
  exact ⟨x, hx, fun c => ridge_min _ _ _ _ hl _ (hn c)⟩

/-- **C02** (consistent systems): if `x₀` solves `A x = b` exactly then the row-normalised squared
residual of the returned solution is at most `load * ‖x₀‖²`. -/
theorem solve_loaded_general_residual [Fintype κ] (A : Matrix κ ι ℂ) (b : Matrix κ μ ℂ)
    (load eps : ℝ) (hl : 0 < load) (x x₀ : Matrix ι μ ℂ)
    (hx : solveLoadedGeneral A b load eps = .ok x) (h₀ : A * x₀ = b) (c : μ) :
    ∑ k, (1 / max (l2 (A k)) eps) ^ 2 * ‖(A *ᵥ fun i => x i c) k - b k c‖ ^ 2
      ≤ load * ∑ i, ‖x₀ i c‖ ^ 2 := by
  obtain ⟨x', hx', hm⟩ := solve_loaded_general_ridge A b load eps hl
  obtain rfl : x = x' := by rw [hx] at hx'; simpa using hx'
  have h1 := (hm c (fun i => x₀ i c)).1
  have h2 : ∀ k, (A *ᵥ fun i => x₀ i c) k - b k c = 0 := by
    intro k; rw [← h₀]; simp [mulVec, dotProduct, Matrix.mul_apply]
  have h3 : 0 ≤ load * ∑ i, ‖x i c‖ ^ 2 :=
    mul_nonneg hl.le (Finset.sum_nonneg fun _ _ => by positivity)
  unfold ridgeCost at h1
  simp only [h2] at h1
  simp only [norm_zero] at h1
  have h4 : ∑ k, (1 / max (l2 (A k)) eps) ^ 2 * (0 : ℝ) ^ 2 = 0 := by simp
  rw [h4] at h1
  linarith

/-- Non-vacuity of `solve_loaded_general_ridge` (C02): a singular non-Hermitian system with a consistent right-hand side. -/
example : ∃ A x₀ b : Matrix (Fin 2) (Fin 2) ℂ, A.det = 0 ∧ A ≠ 0 ∧ A * x₀ = b ∧ b ≠ 0 := by
  refine ⟨!![1, 2; 0, 0], 1, !![1, 2; 0, 0], by simp [Matrix.det_fin_two], ?_, by simp, ?_⟩ <;>
  · intro h
    have := congrFun (congrFun h 0) 0
    simp at this

/-! ## C03 inv_2x2 -/

/-- **C03.** Exact inverse when `|det| ≥ eps`. -/
theorem inv_2x2_inverse (W : Matrix (Fin 2) (Fin 2) ℂ) (eps : ℝ) (he : 0 < eps)
    (hd : eps ≤ ‖W.det‖) :
    ∃ V, inv2x2 ⟨2, 2, W⟩ eps = .ok V ∧ W * V = 1 ∧ V * W = 1 := by
  have hdet : W.det = W 0 0 * W 1 1 - W 0 1 * W 1 0 := Matrix.det_fin_two W
  have hne : W 0 0 * W 1 1 - W 0 1 * W 1 0 ≠ 0 := by
    rw [← hdet]; intro h; rw [h] at hd; simp at hd; linarith
  refine ⟨inv2x2Core W eps, ?_, ?_⟩
  · simp [inv2x2]
  · have hcore : inv2x2Core W eps = (W.det)⁻¹ • !![W 1 1, -W 0 1; -W 1 0, W 0 0] := by
      have hnl : ¬ ‖W 0 0 * W 1 1 - W 0 1 * W 1 0‖ < eps := by rw [← hdet]; exact not_lt.2 hd
      ext i j
      simp only [inv2x2Core, hnl, if_false]
      rw [hdet]
      fin_cases i <;> fin_cases j <;> simp [div_eq_inv_mul]
    have hadj : !![W 1 1, -W 0 1; -W 1 0, W 0 0] = W.adjugate := (Matrix.adjugate_fin_two W).symm
    rw [hcore, hadj]
    have hne' : W.det ≠ 0 := by rw [hdet]; exact hne
    constructor
    · rw [Matrix.mul_smul, Matrix.mul_adjugate, smul_smul, inv_mul_cancel₀ hne', one_smul]
    · rw [Matrix.smul_mul, Matrix.adjugate_mul, smul_smul, inv_mul_cancel₀ hne', one_smul]

/-- **C03.** Below the threshold the result is the adjugate divided by `eps` (finite). -/
theorem inv_2x2_clamped (W : Matrix (Fin 2) (Fin 2) ℂ) (eps : ℝ) (hd : ‖W.det‖ < eps) :
    inv2x2 ⟨2, 2, W⟩ eps = .ok ((eps : ℂ)⁻¹ • W.adjugate) := by
  have hdet : W.det = W 0 0 * W 1 1 - W 0 1 * W 1 0 := Matrix.det_fin_two W
  have hnl : ‖W 0 0 * W 1 1 - W 0 1 * W 1 0‖ < eps := by rw [← hdet]; exact hd
  simp only [inv2x2]
  simp only [ne_eq, not_true_eq_false, or_self, if_false, and_self, dite_true, Except.ok.injEq]
  rw [Matrix.adjugate_fin_two]
  ext i j
  simp only [Fin.cast_eq_self]
  simp only [inv2x2Core, hnl, if_true]
  fin_cases i <;> fin_cases j <;> simp [div_eq_inv_mul]

/-- **C03.** Any other shape is rejected with `ValueError`. -/
theorem inv_2x2_rejects (W : DynMat) (eps : ℝ) (h : ¬ (W.rows = 2 ∧ W.cols = 2)) :
    inv2x2 W eps = .error .valueError := by
  unfold inv2x2
  split_ifs <;> first | rfl | contradiction

/-- Non-vacuity of `inv_2x2_clamped`: a singular matrix. -/
example : ‖(!![1, Complex.I; 1, Complex.I] : Matrix (Fin 2) (Fin 2) ℂ).det‖ < (1e-6 : ℝ) := by
  rw [Matrix.det_fin_two]
  norm_num

/-- Non-vacuity of `inv_2x2_inverse` (C03). -/
example : (1e-6 : ℝ) ≤ ‖(!![1, Complex.I; 2, 3] : Matrix (Fin 2) (Fin 2) ℂ).det‖ := by
  have h : (!![1, Complex.I; 2, 3] : Matrix (Fin 2) (Fin 2) ℂ).det = ⟨3, -2⟩ := by
    rw [Matrix.det_fin_two]; apply Complex.ext <;> simp
  rw [h]
  refine le_trans ?_ (Complex.abs_re_le_norm _)
  norm_num

/-! ## C04 generalised eigh_2x2 -/

/-- **C04 (partial).** Hermitian `A`, `B` with `det B ≥ eps` and discriminant of
`det(A - λ B)` at least `eps`: whenever `eigh_2x2` returns, the eigenvalues are ascending, all
columns satisfy `A v = λ B v`, no column is longer than 1, and a column has norm exactly one
unless the vector `(λ b₁₂ - a₁₂, a₁₁ - λ b₁₁)` is shorter than `eps`.
Missing: a column can be the zero vector (see `eigh_2x2_gen_diagonal_violated`). -/
theorem eigh_2x2_gen_partial (A B : Matrix (Fin 2) (Fin 2) ℂ)
    (hA : A.IsHermitian) (hB : B.IsHermitian) (eps : ℝ) (h0 : 0 ≤ eps)
    (hdB : 0 < B.det.re) (hdB' : eps ≤ B.det.re)
    (hdisc : max 0 eps ≤ (A * B.adjugate).trace.re ^ 2 - 4 * (A.det.re * B.det.re))
    (r : EigRes (Fin 2)) (h : eigh2x2 ⟨2, 2, A⟩ (some ⟨2, 2, B⟩) eps = .ok r) :
    r.val 0 ≤ r.val 1 ∧ (∀ k, IsEigenpair A B (r.val k) (fun i => r.vec i k)) ∧
    (∀ k, l2 (fun i => r.vec i k) ≤ 1) ∧
    (∀ k, eps ≤ l2 ![(r.val k : ℂ) * B 0 1 - A 0 1, A 0 0 - (r.val k : ℂ) * B 0 0] →
      l2 (fun i => r.vec i k) = 1) := by
  have h' : eigh2x2Gen A B eps = .ok r := by rwa [eigh2x2_some] at h
  obtain ⟨a, b, c, d, -⟩ := eigh2x2Gen_spec A B hA hB eps h0 hdB hdB'
    (le_trans (le_max_left _ _) hdisc) (le_trans (le_max_right _ _) hdisc) r h'
  exact ⟨a, b, c, d⟩

/-- **C04.** With the default `eps = 0` and positive definite `B` no condition on the
discriminant is needed, and every returned column has norm exactly one. -/
theorem eigh_2x2_gen_default (A B : Matrix (Fin 2) (Fin 2) ℂ)
    (hA : A.IsHermitian) (hB : B.PosDef)
    (r : EigRes (Fin 2)) (h : eigh2x2 ⟨2, 2, A⟩ (some ⟨2, 2, B⟩) 0 = .ok r) :
    r.val 0 ≤ r.val 1 ∧ (∀ k, IsEigenpair A B (r.val k) (fun i => r.vec i k)) ∧
    (∀ k, l2 (fun i => r.vec i k) = 1) := by
  have h' : eigh2x2Gen A B 0 = .ok r := by rwa [eigh2x2_some] at h
  have hBh := hB.isHermitian
  have hdB : 0 < B.det.re := by
    have := hB.det_pos
    exact (Complex.pos_iff.1 this).1
  have hb00 : 0 < (B 0 0).re := by
    have := hB.diag_pos (i := 0)
    exact (Complex.pos_iff.1 this).1
  have hdisc : 0 ≤ (A * B.adjugate).trace.re ^ 2 - 4 * (A.det.re * B.det.re) := by
    rw [herm2_tr_adj A B hA hBh, herm2_det A hA, herm2_det B hBh]
    rw [herm2_det B hBh] at hdB
    simp only [magSq, magSqE] at hdB ⊢
    set a := (A 0 0).re; set d := (A 1 1).re; set e := (B 0 0).re; set g := (B 1 1).re
    set zr := (A 0 1).re; set zi := (A 0 1).im; set wr := (B 0 1).re; set wi := (B 0 1).im
    -- e² · disc is a sum of a square and a positive multiple of a square
    have key : e ^ 2 * ((a * g + d * e - 2 * (zr * wr + zi * wi)) ^ 2
        - 4 * ((a * d - (zr ^ 2 + zi ^ 2)) * (e * g - (wr ^ 2 + wi ^ 2))))
      = (e * (d * e - a * g) - 2 * ((e * zr - a * wr) * wr + (e * zi - a * wi) * wi)
          + 0) ^ 2
        + 4 * (e * g - (wr ^ 2 + wi ^ 2)) * ((e * zr - a * wr) ^ 2 + (e * zi - a * wi) ^ 2) := by
      ring
    have hpos : 0 ≤ e ^ 2 * ((a * g + d * e - 2 * (zr * wr + zi * wi)) ^ 2
        - 4 * ((a * d - (zr ^ 2 + zi ^ 2)) * (e * g - (wr ^ 2 + wi ^ 2)))) := by
      rw [key]; positivity
    exact nonneg_of_mul_nonneg_right hpos (by positivity)
  obtain ⟨a, b, -, d, e⟩ := eigh2x2Gen_spec A B hA hBh 0 le_rfl hdB hdB.le hdisc hdisc r h'
  exact ⟨a, b, fun k => d k (Real.sqrt_nonneg _)⟩

/-- **C04.** With `eps = 0` and positive definite `B` the routine succeeds whenever the first
rows of `A` and `B` are not proportional. -/
theorem eigh_2x2_gen_total (A B : Matrix (Fin 2) (Fin 2) ℂ) (hB : B.PosDef)
    (hp : A 0 0 * B 0 1 ≠ A 0 1 * B 0 0) :
    ∃ r, eigh2x2 ⟨2, 2, A⟩ (some ⟨2, 2, B⟩) 0 = .ok r := by
  have hdB : 0 < B.det.re := (Complex.pos_iff.1 hB.det_pos).1
  rw [eigh2x2_some]
  unfold eigh2x2Gen
  simp only [← herm2_det B hB.isHermitian]
  rw [if_neg (show clampMin B.det.re 0 ≠ 0 from (lt_of_lt_of_le hdB (le_max_left _ _)).ne')]
  apply normalizeCols_total
  right
  intro j
  by_contra hcon
  push Not at hcon
  have h0 := hcon 0
  have h1 := hcon 1
  apply hp
  fin_cases j
  · simp only [Matrix.of_apply, Matrix.cons_val_zero, Matrix.cons_val_one, Matrix.cons_val',
      Fin.zero_eta, Matrix.cons_val_fin_one] at h0 h1
    linear_combination B 0 1 * h1 + B 0 0 * h0
  · simp only [Matrix.of_apply, Matrix.cons_val_zero, Matrix.cons_val_one, Matrix.cons_val',
      Fin.mk_one, Matrix.cons_val_fin_one] at h0 h1
    linear_combination B 0 1 * h1 + B 0 0 * h0

/-- **C04.** Exact failure condition: with `eps = 0` and positive definite `B` the routine
produces 0/0 exactly when the first rows of `A` and `B` are proportional. -/
theorem eigh_2x2_gen_fails_iff (A B : Matrix (Fin 2) (Fin 2) ℂ) (hA : A.IsHermitian)
    (hB : B.PosDef) :
    eigh2x2 ⟨2, 2, A⟩ (some ⟨2, 2, B⟩) 0 = .error .nonFinite ↔
      A 0 0 * B 0 1 = A 0 1 * B 0 0 := by
  constructor
  · intro h
    by_contra hp
    obtain ⟨r, hr⟩ := eigh_2x2_gen_total A B hB hp
    rw [h] at hr
    cases hr
  · intro hp
    have hBh := hB.isHermitian
    have hdB : 0 < B.det.re := (Complex.pos_iff.1 hB.det_pos).1
    have hb00 : 0 < (B 0 0).re := (Complex.pos_iff.1 (hB.diag_pos (i := 0))).1
    obtain ⟨a0, -, -⟩ := herm2_form A hA
    obtain ⟨b0, -, -⟩ := herm2_form B hBh
    set l := (A 0 0).re / (B 0 0).re with hl
    have hl0 : A 0 0 = (l : ℂ) * B 0 0 := by
      rw [a0, b0, hl]; push_cast
      have : ((B 0 0).re : ℂ) ≠ 0 := by exact_mod_cast hb00.ne'
      field_simp
    have hB0 : B 0 0 ≠ 0 := by rw [b0]; exact_mod_cast hb00.ne'
    have hl1 : A 0 1 = (l : ℂ) * B 0 1 := by
      apply mul_right_cancel₀ hB0
      rw [← hp, hl0]; ring
    have hre0 : (A 0 0).re = l * (B 0 0).re := by rw [hl]; field_simp
    have hz : (A 0 1).re = l * (B 0 1).re ∧ (A 0 1).im = l * (B 0 1).im := by
      rw [hl1]; simp
    set b := (A * B.adjugate).trace.re with hbdef
    have htr := herm2_tr_adj A B hA hBh
    have hdA := herm2_det A hA
    have hdBe := herm2_det B hBh
    simp only [magSq, magSqE, hz.1, hz.2, hre0] at htr hdA hdBe
    have hq : b ^ 2 - 4 * (A.det.re * B.det.re) = (b - 2 * l * B.det.re) ^ 2 := by
      rw [hbdef, htr, hdA, hdBe]; ring
    rw [eigh2x2_some]
    unfold eigh2x2Gen
    simp only [← herm2_det B hBh, ← herm2_det A hA, ← herm2_tr_adj A B hA hBh]
    rw [if_neg (show clampMin B.det.re 0 ≠ 0 from (lt_of_lt_of_le hdB (le_max_left _ _)).ne')]
    have hcl : clampMin B.det.re 0 = B.det.re := max_eq_left hdB.le
    have hcl2 : clampMin ((A * B.adjugate).trace.re ^ 2 - 4 * (A.det.re * B.det.re)) 0
        = (b - 2 * l * B.det.re) ^ 2 := by
      rw [← hq]; exact max_eq_left (by rw [hq]; positivity)
    rw [hcl, hcl2, Real.sqrt_sq_eq_abs]
    rcases le_total 0 (b - 2 * l * B.det.re) with h | h
    · refine normalizeCols_fails _ _ ⟨0, fun i => ?_⟩
      rw [abs_of_nonneg h]
      have : 0.5 * (b - (b - 2 * l * B.det.re)) / B.det.re = l := by
        field_simp; norm_num; ring
      rw [this]
      fin_cases i
      · simp [hl1]
      · simp [hl0]
    · refine normalizeCols_fails _ _ ⟨1, fun i => ?_⟩
      rw [abs_of_nonpos h]
      have : 0.5 * (b + -(b - 2 * l * B.det.re)) / B.det.re = l := by
        field_simp; norm_num; ring
      rw [this]
      fin_cases i
      · simp [hl1]
      · simp [hl0]

/-- **C04 is violated** on diagonal matrices: `eigh_2x2(diag(1,2), I)` divides 0 by 0
(the raw eigenvector of the small eigenvalue is the zero vector). -/
theorem eigh_2x2_gen_diagonal_violated :
    eigh2x2 ⟨2, 2, !![1, 0; 0, 2]⟩ (some ⟨2, 2, 1⟩) 0 = .error .nonFinite := by
  exact (eigh_2x2_gen_fails_iff _ _ (by ext i j; fin_cases i <;> fin_cases j <;> simp)
    Matrix.PosDef.one).2 (by simp)

/-- Non-vacuity of `eigh_2x2_gen_partial` and `eigh_2x2_gen_default` (C04): a complex Hermitian pair on which `eigh_2x2` succeeds. -/
example : ∃ A B : Matrix (Fin 2) (Fin 2) ℂ, A.IsHermitian ∧ B.PosDef ∧ A 0 1 = Complex.I ∧ 0 < B.det.re ∧
    (max 0 0 ≤ (A * B.adjugate).trace.re ^ 2 - 4 * (A.det.re * B.det.re)) ∧
    ∃ r, eigh2x2 ⟨2, 2, A⟩ (some ⟨2, 2, B⟩) 0 = .ok r := by
  refine ⟨!![2, Complex.I; -Complex.I, 2], 1, ?_, Matrix.PosDef.one, rfl, by simp, ?_, ?_⟩
  · ext i j; fin_cases i <;> fin_cases j <;> simp
  · simp [Matrix.det_fin_two, Matrix.adjugate_one, Matrix.trace]; norm_num
  · exact eigh_2x2_gen_total _ _ Matrix.PosDef.one (by simp [eq_comm])

/-! ## C05 plain eigh_2x2 -/

/-- **C05.** With a nonzero off-diagonal entry the plain routine never divides by zero. -/
theorem eigh_2x2_plain_total (A : Matrix (Fin 2) (Fin 2) ℂ) (hA : A.IsHermitian)
    (hz : A 0 1 ≠ 0) : ∃ r, eigh2x2 ⟨2, 2, A⟩ none 0 = .ok r := by
  rw [eigh2x2_none]
  unfold eigh2x2Plain
  apply normalizeCols_total
  right
  intro j
  fin_cases j
  · exact ⟨1, by simpa using hz⟩
  · refine ⟨0, ?_⟩
    have := (herm2_form A hA).2.2
    simp [this, hz]

/-- **C05 (partial).** For a Hermitian matrix with *real* off-diagonal entry (and discriminant at
least `eps`) `eigh_2x2(A)` returns ascending eigenvalues and eigenvectors. -/
theorem eigh_2x2_plain_partial (A : Matrix (Fin 2) (Fin 2) ℂ) (hA : A.IsHermitian)
    (hreal : (A 0 1).im = 0) (eps : ℝ) (h0 : 0 ≤ eps)
    (hdisc : eps ≤ A.trace.re ^ 2 - 4 * A.det.re)
    (r : EigRes (Fin 2)) (h : eigh2x2 ⟨2, 2, A⟩ none eps = .ok r) :
    r.val 0 ≤ r.val 1 ∧ (∀ k, IsEigenpair A 1 (r.val k) (fun i => r.vec i k)) ∧
    (∀ k, l2 (fun i => r.vec i k) ≤ 1) ∧ (eps = 0 → ∀ k, l2 (fun i => r.vec i k) = 1) := by
  have h' : eigh2x2Plain A eps = .ok r := by rwa [eigh2x2_none] at h
  obtain ⟨a, b, c, d0, d1⟩ :=
    eigh2x2Plain_spec A hA eps h0 hdisc (le_trans h0 hdisc) r h'
  refine ⟨a, fun k => ?_, c, fun he k => ?_⟩
  · have hb := b k
    unfold IsEigenpair at hb ⊢
    rw [one_mulVec] at hb ⊢
    obtain ⟨e0, e1, e2⟩ := herm2_form A hA
    have hAreal : ∀ i j, star (A i j) = A i j := by
      intro i j
      have hz : star (A 0 1) = A 0 1 := Complex.conj_eq_iff_im.2 hreal
      fin_cases i <;> fin_cases j
      · exact hA.apply 0 0
      · exact hz
      · change star (A 1 0) = A 1 0
        rw [e2, hz, hz]
      · exact hA.apply 1 1
    have := congrArg star hb
    funext i
    have hi := congrFun this i
    simp only [Pi.star_apply, mulVec, dotProduct, star_sum, star_mul', star_star, hAreal,
      Pi.smul_apply, smul_eq_mul] at hi ⊢
    rw [hi]
    congr 1
    exact Complex.conj_ofReal _
  · subst he
    fin_cases k
    · exact d0 (Real.sqrt_nonneg _)
    · exact d1 (Real.sqrt_nonneg _)

/-- **C05, what the code really computes:** for every Hermitian matrix the eigenvalues are right
but the columns are eigenvectors of the complex conjugate of `A`. -/
theorem eigh_2x2_plain_conjugate (A : Matrix (Fin 2) (Fin 2) ℂ) (hA : A.IsHermitian)
    (eps : ℝ) (h0 : 0 ≤ eps) (hdisc : eps ≤ A.trace.re ^ 2 - 4 * A.det.re)
    (r : EigRes (Fin 2)) (h : eigh2x2 ⟨2, 2, A⟩ none eps = .ok r) :
    r.val 0 ≤ r.val 1 ∧ ∀ k, IsEigenpair A 1 (r.val k) (star fun i => r.vec i k) := by
  have h' : eigh2x2Plain A eps = .ok r := by rwa [eigh2x2_none] at h
  obtain ⟨a, b, -⟩ := eigh2x2Plain_spec A hA eps h0 hdisc (le_trans h0 hdisc) r h'
  exact ⟨a, b⟩

/-- **C05 is violated** for complex Hermitian matrices: for `A = [[2, i], [-i, 2]]` neither
returned column is an eigenvector. -/
theorem eigh_2x2_plain_violated :
    ∃ A : Matrix (Fin 2) (Fin 2) ℂ, A.IsHermitian ∧ ∃ r, eigh2x2 ⟨2, 2, A⟩ none 0 = .ok r ∧
      ∀ k, ¬ IsEigenpair A 1 (r.val k) (fun i => r.vec i k) := by
  have hA : (!![2, Complex.I; -Complex.I, 2] : Matrix (Fin 2) (Fin 2) ℂ).IsHermitian := by
    ext i j; fin_cases i <;> fin_cases j <;> simp
  refine ⟨_, hA, ?_⟩
  obtain ⟨r, hE⟩ := eigh_2x2_plain_total _ hA (by simp)
  have hr := hE
  rw [eigh2x2_none] at hr
  refine ⟨r, hE, ?_⟩
  have hdisc : (0 : ℝ) ≤ (!![2, Complex.I; -Complex.I, 2] : Matrix (Fin 2) (Fin 2) ℂ).trace.re ^ 2
      - 4 * (!![2, Complex.I; -Complex.I, 2] : Matrix (Fin 2) (Fin 2) ℂ).det.re := by
    simp [Matrix.trace, Fin.sum_univ_two, Matrix.det_fin_two]; norm_num
  obtain ⟨-, b, -, d0, d1⟩ := eigh2x2Plain_spec _ hA 0 le_rfl hdisc hdisc r hr
  have hn : ∀ k, l2 (fun i => r.vec i k) = 1 := by
    intro k; fin_cases k
    · exact d0 (Real.sqrt_nonneg _)
    · exact d1 (Real.sqrt_nonneg _)
  intro k hk
  -- both v and conj v would be eigenvectors, forcing v = 0
  have h1 := b k
  unfold IsEigenpair at hk h1
  rw [one_mulVec] at hk h1
  have k0 := congrFun hk 0
  have k1 := congrFun hk 1
  have c0 := congrArg star (congrFun h1 0)
  have c1 := congrArg star (congrFun h1 1)
  simp [mulVec, dotProduct, Fin.sum_univ_two] at k0 k1 c0 c1
  have z1 : r.vec 1 k = 0 := by
    have : 2 * Complex.I * r.vec 1 k = 0 := by linear_combination k0 - c0
    simpa using this
  have z0 : r.vec 0 k = 0 := by
    have : 2 * Complex.I * r.vec 0 k = 0 := by linear_combination c1 - k1
    simpa using this
  have := hn k
  simp [l2, z0, z1] at this

/-- Non-vacuity of `eigh_2x2_plain_conjugate`: a complex matrix on which the routine succeeds. -/
example : ∃ A : Matrix (Fin 2) (Fin 2) ℂ, A.IsHermitian ∧ A 0 1 = Complex.I ∧ 0 ≤ A.trace.re ^ 2 - 4 * A.det.re ∧
    ∃ r, eigh2x2 ⟨2, 2, A⟩ none 0 = .ok r := by
  have h : (!![2, Complex.I; -Complex.I, 2] : Matrix (Fin 2) (Fin 2) ℂ).IsHermitian := by
    ext i j; fin_cases i <;> fin_cases j <;> simp
  exact ⟨!![2, Complex.I; -Complex.I, 2], h, rfl, by simp [Matrix.trace, Matrix.det_fin_two]; norm_num,
    eigh_2x2_plain_total _ h (by simp)⟩

/-- Non-vacuity of `eigh_2x2_plain_partial` (C05): a real symmetric matrix on which the routine succeeds. -/
example : ∃ A : Matrix (Fin 2) (Fin 2) ℂ, A.IsHermitian ∧ (A 0 1).im = 0 ∧ A 0 1 ≠ 0 ∧
    0 ≤ A.trace.re ^ 2 - 4 * A.det.re ∧ ∃ r, eigh2x2 ⟨2, 2, A⟩ none 0 = .ok r := by
  have h : (!![2, 1; 1, 2] : Matrix (Fin 2) (Fin 2) ℂ).IsHermitian := by
    ext i j; fin_cases i <;> fin_cases j <;> simp
  exact ⟨!![2, 1; 1, 2], h, by simp, by simp, by simp [Matrix.trace, Matrix.det_fin_two]; norm_num,
    eigh_2x2_plain_total _ h (by simp)⟩

/-- **C05 is also violated** on diagonal matrices with decreasing diagonal: both raw columns
vanish and the division is 0/0. -/
theorem eigh_2x2_plain_diagonal_violated :
    eigh2x2 ⟨2, 2, !![2, 0; 0, 1]⟩ none 0 = .error .nonFinite := by
  rw [eigh2x2_none]
  unfold eigh2x2Plain
  refine normalizeCols_fails _ _ ⟨0, fun i => ?_⟩
  fin_cases i
  · simp [magSq, magSqE, clampMin]
    norm_num
  · simp

/-- Wrong shapes are rejected by the assertions. -/
theorem eigh_2x2_rejects (A : DynMat) (B : Option DynMat) (eps : ℝ)
    (h : ¬ (A.rows = 2 ∧ A.cols = 2) ∨ ∃ B', B = some B' ∧ ¬ (B'.rows = 2 ∧ B'.cols = 2)) :
    eigh2x2 A B eps = .error .assertionError := by
  unfold eigh2x2
  split_ifs with hA
  · rcases h with h | ⟨B', rfl, hB⟩
    · exact absurd hA h
    · simp [hB]
  · rfl

/-- A 3x3 matrix is such an argument. -/
example : eigh2x2 ⟨3, 3, 1⟩ none 0 = .error .assertionError := eigh_2x2_rejects _ _ _ (Or.inl (by simp))

/-! ## C06 eigh for three or more channels -/

/-- **C06.** For every size other than two, every eigensolver satisfying the LAPACK contract, Hermitian
`A` and Hermitian `B` with all eigenvalues at least 1e-5: `eigh(A, B)` returns ascending eigenvalues
and columns with `A v = λ B v`; different columns are `B`-orthogonal and no column is zero. If moreover
`vᴴ B v ≤ 1e10 ‖v‖²`, all columns have norm one. -/
theorem eigh_general {n : ℕ} (hn : n ≠ 2) (solver) (hc : EighContract n solver)
    (A B : Matrix (Fin n) (Fin n) ℂ) (hA : A.IsHermitian) (hB : B.IsHermitian)
    (hm : ∀ v, 1e-5 * ∑ k, ‖v k‖ ^ 2 ≤ power B v) (eps : ℝ) :
    ∃ r, eigh solver A (some B) eps = .ok r ∧ Monotone r.val ∧
      (∀ k, IsEigenpair A B (r.val k) (fun i => r.vec i k)) ∧
      (∀ j k, j ≠ k → star (fun i => r.vec i j) ⬝ᵥ B *ᵥ (fun i => r.vec i k) = 0) ∧
      (∀ k, 0 < l2 (fun i => r.vec i k) ∧ l2 (fun i => r.vec i k) ≤ 1) ∧
      ((∀ v, power B v ≤ 1e10 * ∑ k, ‖v k‖ ^ 2) → ∀ k, l2 (fun i => r.vec i k) = 1) := by
  obtain ⟨hmono, U, hU, hAU, hvec⟩ := eighGen_spec hc hA hB (solver_val_ge hc hB hm)
  refine ⟨eighGen solver A B, by simp [eigh, hn], hmono, ?_⟩
  set r := eighGen solver A B
  set s : Fin n → ℝ := fun j => max (√(∑ k, ‖U k j‖ ^ 2)) 1e-5 with hs
  have hspos : ∀ j, 0 < s j := fun j => lt_of_lt_of_le (by norm_num) (le_max_right _ _)
  have hcol : ∀ j, (fun i => r.vec i j) = ((1 / s j : ℝ) : ℂ) • fun i => U i j := by
    intro j; funext i
    rw [hvec]; simp [div_eq_inv_mul, s]
  have hUjk : ∀ j k, star (fun i => U i j) ⬝ᵥ B *ᵥ (fun i => U i k)
      = (1 : Matrix (Fin n) (Fin n) ℂ) j k := by
    intro j k
    rw [← hU, Matrix.mul_assoc]
    simp only [Matrix.mul_apply, dotProduct, mulVec, Pi.star_apply,
      Matrix.conjTranspose_apply]
  have hnormpos : ∀ j, 0 < ∑ k, ‖U k j‖ ^ 2 := by
    intro j
    rcases (Finset.sum_nonneg fun k _ => by positivity :
      0 ≤ ∑ k, ‖U k j‖ ^ 2).lt_or_eq with h | h
    · exact h
    · exfalso
      have hz : (fun i => U i j) = 0 := by
        funext i
        have := (Finset.sum_eq_zero_iff_of_nonneg (fun _ _ => by positivity)).1 h.symm i
          (Finset.mem_univ _)
        simpa using this
      have := hUjk j j
      rw [hz] at this
      simp at this
  have hl2 : ∀ j, l2 (fun i => r.vec i j) = √(∑ k, ‖U k j‖ ^ 2) / s j := by
    intro j
    unfold l2
    have : ∀ i, ‖r.vec i j‖ ^ 2 = ‖U i j‖ ^ 2 / s j ^ 2 := by
      intro i
      rw [hvec, norm_div, Complex.norm_real, div_pow, Real.norm_eq_abs, sq_abs]
    simp only [this]
    rw [← Finset.sum_div, Real.sqrt_div (hnormpos j).le, Real.sqrt_sq (hspos j).le]
  refine ⟨fun k => ?_, fun j k hjk => ?_, fun k => ⟨?_, ?_⟩, fun hM k => ?_⟩
  · have he : IsEigenpair A B (r.val k) (fun i => U i k) := by
      unfold IsEigenpair
      funext i
      have := congrFun (congrFun hAU i) k
      rw [Matrix.mul_diagonal] at this
      simp only [Matrix.mul_apply] at this
      simp only [mulVec, dotProduct, Pi.smul_apply, smul_eq_mul]
      rw [this, mul_comm]
    rw [hcol k]
    unfold IsEigenpair at he ⊢
    rw [mulVec_smul, mulVec_smul, he, smul_comm]
  · rw [hcol j, hcol k, mulVec_smul, dotProduct_smul, star_smul, smul_dotProduct, hUjk,
      Matrix.one_apply_ne hjk]
    simp
  · rw [hl2]; exact div_pos (Real.sqrt_pos.2 (hnormpos k)) (hspos k)
  · rw [hl2]; exact (div_le_one (hspos k)).2 (le_max_left _ _)
  · rw [hl2]
    have h1 := hM (fun i => U i k)
    have h2 : power B (fun i => U i k) = 1 := by
      unfold power; rw [hUjk, Matrix.one_apply_eq]; simp
    rw [h2] at h1
    have h3 : (1e-5 : ℝ) ≤ √(∑ k', ‖U k' k‖ ^ 2) := by
      apply Real.le_sqrt_of_sq_le
      norm_num at h1 ⊢
      linarith
    have h4 : s k = √(∑ k', ‖U k' k‖ ^ 2) := max_eq_left h3
    rw [h4]
    exact div_self (Real.sqrt_pos.2 (hnormpos k)).ne'

/-- **C06.** Without `B`, `eigh` is LAPACK's decomposition for sizes other than two. -/
theorem eigh_plain {n : ℕ} (hn : n ≠ 2) (solver) (hc : EighContract n solver)
    (A : Matrix (Fin n) (Fin n) ℂ) (hA : A.IsHermitian) (eps : ℝ) :
    ∃ r, eigh solver A none eps = .ok r ∧ Monotone r.val ∧
      (∀ k, IsEigenpair A 1 (r.val k) (fun i => r.vec i k)) ∧ r.vecᴴ * r.vec = 1 := by
  refine ⟨solver A, by simp [eigh, hn], hc.ascending A hA, fun k => ?_, hc.orthonormal A hA⟩
  have := hc.eigen A hA
  unfold IsEigenpair
  rw [one_mulVec]
  funext i
  have := congrFun (congrFun this i) k
  rw [Matrix.mul_diagonal] at this
  simp only [Matrix.mul_apply] at this
  simp only [mulVec, dotProduct, Pi.smul_apply, smul_eq_mul]
  rw [this, mul_comm]

/-- Non-vacuity of `eigh_general` (C06): a solver satisfying the contract exists for every size, and the identity
satisfies the bound on `B`. -/
example : (∃ solver, EighContract 3 solver) ∧
    ∀ v : Fin 3 → ℂ, 1e-5 * ∑ k, ‖v k‖ ^ 2 ≤ power 1 v := by
  refine ⟨eighContract_exists 3, fun v => ?_⟩
  have : power 1 v = ∑ k, ‖v k‖ ^ 2 := by
    unfold power
    rw [one_mulVec, dotProduct, Complex.re_sum]
    refine Finset.sum_congr rfl fun k _ => ?_
    rw [Pi.star_apply, Complex.star_def, Complex.conj_mul', ← Complex.ofReal_pow, Complex.ofReal_re]
  rw [this]
  have : 0 ≤ ∑ k, ‖v k‖ ^ 2 := Finset.sum_nonneg fun _ _ => by positivity
  nlinarith

/-! ## C07 arithmetic helpers -/

/-- Numeric value of a tensor element. -/
def value : Elem → ℂ
  | .re x => x
  | .cx z => z

/-- Is the element of complex dtype? -/
def isCx : Elem → Bool
  | .re _ => false
  | .cx _ => true

/-- **C07.** `multiply` is the product for all four real/complex combinations; the result is complex
iff one operand is. -/
theorem multiply_correct (a b : Elem) :
    value (multiply a b) = value a * value b ∧ isCx (multiply a b) = (isCx a || isCx b) := by
  cases a <;> cases b <;> refine ⟨?_, rfl⟩ <;> simp only [multiply, value] <;>
    first | push_cast; rfl | rfl | (apply Complex.ext <;> simp <;> ring)

/-- **C07.** `mag_sq` is the squared modulus, `mag` the modulus. -/
theorem mag_correct (a : Elem) : magSqE a = ‖value a‖ ^ 2 ∧ magE a = ‖value a‖ := by
  have h : magSqE a = ‖value a‖ ^ 2 := by
    cases a with
    | re x => simp [magSqE, value]
    | cx z => exact magSq_eq z
  refine ⟨h, ?_⟩
  rw [magE, h, Real.sqrt_sq (norm_nonneg _)]

/-- **C07.** `bmm` is the complex matrix product. -/
theorem bmm_correct [Fintype κ] (m1 : Matrix ι κ ℂ) (m2 : Matrix κ μ ℂ) : bmm m1 m2 = m1 * m2 := by
  ext i j
  simp only [bmm, Matrix.mul_apply, Matrix.sub_apply, Matrix.add_apply, Matrix.of_apply]
  apply Complex.ext
  · simp [Complex.re_sum, Finset.sum_sub_distrib]
  · simp [Complex.im_sum, Finset.sum_add_distrib]

/-- **C07.** `hermite` is the conjugate transpose for both dtypes. -/
theorem hermite_correct (A : Matrix ι κ Elem) (i : κ) (j : ι) :
    value (hermiteE A i j) = star (value (A j i)) ∧ isCx (hermiteE A i j) = isCx (A j i) := by
  unfold hermiteE
  cases A j i with
  | re x => exact ⟨(Complex.conj_ofReal x).symm, rfl⟩
  | cx z => exact ⟨rfl, rfl⟩

/-- A real and a complex entry. -/
example : value (hermiteE !![Elem.re 1, Elem.cx Complex.I] 1 0) = -Complex.I ∧
    value (hermiteE !![Elem.re 1, Elem.cx Complex.I] 0 0) = 1 := by
  rw [(hermite_correct _ _ _).1, (hermite_correct _ _ _).1]
  simp [value]

/-- **C07.** `divide` divides by the denominator when that is at least `eps`, and by `eps` otherwise;
its modulus never exceeds `|num| / eps`. -/
theorem divide_correct (num : ℂ) (denom eps : ℝ) (he : 0 < eps) :
    (eps ≤ denom → divide num denom eps = num / denom) ∧
    (denom < eps → divide num denom eps = num / eps) ∧
    ‖divide num denom eps‖ ≤ ‖num‖ / eps := by
  refine ⟨fun h => by simp [divide, clampMin, max_eq_left h],
    fun h => by simp [divide, clampMin, max_eq_right h.le], ?_⟩
  rw [divide, norm_div, Complex.norm_real, Real.norm_eq_abs]
  have : eps ≤ clampMin denom eps := le_max_right _ _
  rw [abs_of_pos (lt_of_lt_of_le he this)]
  exact div_le_div_of_nonneg_left (norm_nonneg _) he this

/-- Both cases occur. -/
example : divide 3 2 1e-5 = 3 / 2 ∧ divide 3 0 (1 / 2) = 6 := by
  constructor
  · rw [(divide_correct 3 2 1e-5 (by norm_num)).1 (by norm_num)]; norm_num
  · rw [(divide_correct 3 0 (1 / 2) (by norm_num)).2.1 (by norm_num)]; norm_num

/-- `diagonal_loading` can never return: it reads an undefined name. -/
theorem diagonal_loading_always_fails (A : Matrix ι ι ℂ) (d : ι → ℂ) :
    diagonalLoading A d = .error .nameError := rfl

example : ∃ a b : Elem, isCx a ≠ isCx b ∧ value (multiply a b) = 2 * Complex.I :=
  ⟨.re 2, .cx Complex.I, by simp [isCx], by rw [(multiply_correct _ _).1]; simp [value]⟩

end Torchiva.Props
