import Verif.Proofs.Ip2
import Verif.Spec.Ip2
import Verif.Proofs.TIssCost
import Verif.Props.Linalg

/-!
# Properties C17, C23-C25, C74: AuxIVA-IP2 (two channels)
-/

namespace Torchiva.Props

open Torchiva Matrix Spec
open scoped ComplexOrder

variable {σ : Type} {C F N : ℕ}

private lemma wcov_herm (x : Fin 2 → Fin N → ℂ) (w : Fin N → ℝ) : (wcov x w).IsHermitian := by
  ext c d
  simp only [wcov, Matrix.conjTranspose_apply, Matrix.of_apply, star_div₀, star_sum, star_mul', star_star,
    star_natCast]
  congr 1
  refine Finset.sum_congr rfl fun n _ => ?_
  simp only [Complex.star_def, Complex.conj_ofReal]
  ring

private lemma ip2Cov_eq (x : Fin 2 → Fin N → ℂ) (w : Fin N → ℝ) : ip2Cov x w = wcov x w := by
  unfold ip2Cov
  have := wcov_herm x w
  unfold Matrix.IsHermitian at this
  simp only
  rw [show (Matrix.of fun c d => (∑ n, (w n : ℂ) * x c n * star (x d n)) / N : Matrix (Fin 2) (Fin 2) ℂ)
    = wcov x w from rfl, this]
  ext c d
  simp only [Matrix.smul_apply, Matrix.add_apply, smul_eq_mul]
  ring

/-- `uᴴ V v` is the weighted correlation of the two filtered signals. -/
private lemma form_wcov (x : Fin 2 → Fin N → ℂ) (w : Fin N → ℝ) (u v : Fin 2 → ℂ) :
    form (wcov x w) u v = (∑ n, (w n : ℂ) * (∑ c, star (u c) * x c n) * star (∑ c, star (v c) * x c n)) / N := by
  simp only [form, dotProduct, mulVec, Fin.sum_univ_two, Pi.star_apply, wcov, Matrix.of_apply, star_add,
    star_mul', star_star]
  have : ∀ n, (w n : ℂ) * (star (u 0) * x 0 n + star (u 1) * x 1 n)
      * (v 0 * star (x 0 n) + v 1 * star (x 1 n))
      = star (u 0) * v 0 * ((w n : ℂ) * x 0 n * star (x 0 n)) + star (u 0) * v 1 * ((w n : ℂ) * x 0 n * star (x 1 n))
        + star (u 1) * v 0 * ((w n : ℂ) * x 1 n * star (x 0 n))
        + star (u 1) * v 1 * ((w n : ℂ) * x 1 n * star (x 1 n)) := fun n => by ring
  simp only [this, Finset.sum_add_distrib, ← Finset.mul_sum]
  ring

private lemma power_wcov (x : Fin 2 → Fin N → ℂ) (w : Fin N → ℝ) (u : Fin 2 → ℂ) :
    power (wcov x w) u = wenergy w (fun n => ∑ c, star (u c) * x c n) := by
  have h := form_self_real _ (wcov_herm x w) u
  rw [form_wcov] at h
  have : (∑ n, (w n : ℂ) * (∑ c, star (u c) * x c n) * star (∑ c, star (u c) * x c n)) / N
      = ((wenergy w (fun n => ∑ c, star (u c) * x c n) : ℝ) : ℂ) := by
    unfold wenergy
    push_cast
    congr 1
    refine Finset.sum_congr rfl fun n _ => ?_
    rw [mul_assoc, Complex.star_def, Complex.mul_conj']
  rw [this] at h
  exact_mod_cast h.symm

private lemma wenergy_nonneg (w : Fin N → ℝ) (hw : ∀ n, 0 ≤ w n) (y : Fin N → ℂ) : 0 ≤ wenergy w y :=
  div_nonneg (Finset.sum_nonneg fun n _ => mul_nonneg (hw n) (by positivity)) (Nat.cast_nonneg _)

/-- Everything known about the columns returned by `ip2Eig` when the covariances come from data. -/
private lemma ip2Eig_cols (V : Fin 2 → Matrix (Fin 2) (Fin 2) ℂ) (hV : ∀ k, (V k).IsHermitian)
    (hpow : ∀ k u, 0 ≤ power (V k) u) (eps : ℝ) (he : 0 < eps) :
    ∃ r E, eigh2x2 ⟨2, 2, V 1⟩ (some ⟨2, 2, V 0⟩) eps = .ok r ∧ ip2Eig V eps = .ok E ∧
      ∀ k : Fin 2, let v : Fin 2 → ℂ := fun i => r.vec i (1 - k)
        let m := √(max (power (V k) v) (max 1e-7 (eps ^ 2)))
        0 < m ∧ (∀ i, E i k = v i / (m : ℂ)) ∧ power (V k) (fun i => E i k) = power (V k) v / m ^ 2 := by
  obtain ⟨r, hr⟩ := eigh2x2Gen_pos_total (V 1) (V 0) eps he
  rw [← eigh2x2_some] at hr
  refine ⟨r, _, hr, by unfold ip2Eig; rw [hr]; rfl, ?_⟩
  intro k v m
  have hscale : ‖∑ i, star (v i) * ∑ j, V k i j * v j‖ = power (V k) v := by
    have h1 : ∑ i, star (v i) * ∑ j, V k i j * v j = form (V k) v v := rfl
    rw [h1, form_self_real _ (hV k), Complex.norm_of_nonneg (hpow k v)]
  have hm : clampMin (√(clampMin (power (V k) v) 1e-7)) eps = m := by
    simp only [clampMin, m]
    rw [← max_assoc]
    rcases le_total (√(max (power (V k) v) 1e-7)) eps with h | h
    · rw [max_eq_right h, max_eq_right, Real.sqrt_sq he.le]
      exact (Real.sqrt_le_left he.le).1 h
    · rw [max_eq_left h, max_eq_left ((Real.le_sqrt' he).1 h)]
  have hm0 : 0 < m := Real.sqrt_pos.2 (lt_of_lt_of_le (by norm_num) (le_trans (le_max_left _ _) (le_max_right _ _)))
  have hE : ∀ i, (Matrix.of fun i k => r.vec i (1 - k) /
      ((clampMin (√(clampMin ‖∑ i, star (r.vec i (1 - k)) * ∑ j, V k i j * r.vec j (1 - k)‖ 1e-7)) eps : ℝ) : ℂ) :
        Matrix (Fin 2) (Fin 2) ℂ) i k = v i / (m : ℂ) := by
    intro i
    rw [Matrix.of_apply, ← hm, ← hscale]
  refine ⟨hm0, hE, ?_⟩
  rw [← power_smul]
  congr 1
  funext i
  exact hE i

/-- **C23 (success).** `eps > 0` suffices for the update to succeed. -/
theorem ip2_update_total (x : Fin 2 → Fin N → ℂ) (w : Fin 2 → Fin N → ℝ) (hw : ∀ k n, 0 ≤ w k n)
    (eps : ℝ) (he : 0 < eps) : ∃ W, ip2Update x w eps = .ok W := by
  obtain ⟨r, E, -, hE, -⟩ := ip2Eig_cols (fun k => ip2Cov x (w k))
    (fun k => by rw [ip2Cov_eq]; exact wcov_herm x (w k))
    (fun k u => by rw [ip2Cov_eq, power_wcov]; exact wenergy_nonneg _ (hw k) _) eps he
  exact ⟨Eᴴ, by unfold ip2Update; rw [hE]; rfl⟩

private lemma update_cols (x : Fin 2 → Fin N → ℂ) (w : Fin 2 → Fin N → ℝ) (hw : ∀ k n, 0 ≤ w k n)
    (eps : ℝ) (he : 0 < eps) (W : Matrix (Fin 2) (Fin 2) ℂ) (h : ip2Update x w eps = .ok W) :
    ∃ r, eigh2x2 ⟨2, 2, wcov x (w 1)⟩ (some ⟨2, 2, wcov x (w 0)⟩) eps = .ok r ∧
      ∀ k : Fin 2, let v : Fin 2 → ℂ := fun i => r.vec i (1 - k)
        let m := √(max (power (wcov x (w k)) v) (max 1e-7 (eps ^ 2)))
        0 < m ∧ (∀ i, star (W k i) = v i / (m : ℂ)) ∧
          wenergy (w k) (out W x k) = power (wcov x (w k)) v / m ^ 2 := by
  obtain ⟨r, E, hr, hE, hc⟩ := ip2Eig_cols (fun k => wcov x (w k)) (fun k => wcov_herm x (w k))
    (fun k u => by rw [power_wcov]; exact wenergy_nonneg _ (hw k) _) eps he
  refine ⟨r, hr, ?_⟩
  have hW : W = Eᴴ := by
    unfold ip2Update at h
    simp only [ip2Cov_eq, hE] at h
    cases h; rfl
  intro k v m
  obtain ⟨h1, h2, h3⟩ := hc k
  refine ⟨h1, fun i => ?_, ?_⟩
  · rw [hW, Matrix.conjTranspose_apply, star_star]; exact h2 i
  · rw [← h3, power_wcov]
    congr 1
    funext n
    simp [out, hW, Matrix.conjTranspose_apply]

/-- **C23.** Above the clamps of the eigensolver the two outputs are uncorrelated under *both* weightings, each
output has weighted energy at most one, and less than one only when the energy clamp
`max(1e-7, eps²)` is active. -/
theorem ip2_update_diagonalises (x : Fin 2 → Fin N → ℂ) (w : Fin 2 → Fin N → ℝ) (hw : ∀ k n, 0 ≤ w k n)
    (eps : ℝ) (he : 0 < eps) (hdet : eps ≤ (wcov x (w 0)).det.re)
    (hdisc : eps ≤ (wcov x (w 1) * (wcov x (w 0)).adjugate).trace.re ^ 2
      - 4 * ((wcov x (w 1)).det.re * (wcov x (w 0)).det.re))
    (W : Matrix (Fin 2) (Fin 2) ℂ) (h : ip2Update x w eps = .ok W) :
    (∀ k, ∑ n, (w k n : ℂ) * out W x 0 n * star (out W x 1 n) / N = 0) ∧
    (∀ k, wenergy (w k) (out W x k) ≤ 1) ∧
    (∀ k, wenergy (w k) (out W x k) < 1 →
      ∃ v : Fin 2 → ℂ, l2 v ≤ 1 ∧ (∀ i, W k i = star (v i) / (√(max 1e-7 (eps ^ 2)) : ℝ)) ∧
        wenergy (w k) (fun n => ∑ c, star (v c) * x c n) < max 1e-7 (eps ^ 2)) := by
  obtain ⟨r, hr, hc⟩ := update_cols x w hw eps he W h
  have hpow : ∀ k u, 0 ≤ power (wcov x (w k)) u := fun k u => by
    rw [power_wcov]; exact wenergy_nonneg _ (hw k) _
  obtain ⟨-, heig, hl2, -⟩ := eigh_2x2_gen_partial _ _ (wcov_herm x (w 1)) (wcov_herm x (w 0)) eps he.le
    (lt_of_lt_of_le he hdet) hdet (by rw [max_eq_right he.le]; exact hdisc) r hr
  have hgap := eigh2x2Gen_gap _ _ (wcov_herm x (w 1)) (wcov_herm x (w 0)) eps (lt_of_lt_of_le he hdet)
    (lt_of_lt_of_le he hdisc) r (by rwa [eigh2x2_some] at hr)
  obtain ⟨o0, o1⟩ := eig_orth (wcov_herm x (w 1)) (wcov_herm x (w 0)) (heig 1) (heig 0) hgap.ne'
  have ho : ∀ k, form (wcov x (w k)) (fun i => r.vec i 1) (fun i => r.vec i 0) = 0 := by
    intro k; fin_cases k
    · exact o0
    · exact o1
  refine ⟨fun k => ?_, fun k => ?_, fun k hk => ?_⟩
  · obtain ⟨hm0, h0, -⟩ := hc 0
    obtain ⟨hm1, h1, -⟩ := hc 1
    have hf := ho k
    rw [form_wcov] at hf
    rw [← Finset.sum_div]
    set m0 := √(max (power (wcov x (w 0)) fun i => r.vec i (1 - 0)) (max 1e-7 (eps ^ 2)))
    set m1 := √(max (power (wcov x (w 1)) fun i => r.vec i (1 - 1)) (max 1e-7 (eps ^ 2)))
    have e0 : ∀ n, out W x 0 n = (∑ c, star (r.vec c 1) * x c n) / (m0 : ℂ) := by
      intro n
      rw [out, Finset.sum_div]
      refine Finset.sum_congr rfl fun c _ => ?_
      have := congrArg star (h0 c)
      rw [star_star, star_div₀] at this
      rw [this]
      simp only [sub_zero, Complex.star_def, Complex.conj_ofReal]
      ring
    have e1 : ∀ n, out W x 1 n = (∑ c, star (r.vec c 0) * x c n) / (m1 : ℂ) := by
      intro n
      rw [out, Finset.sum_div]
      refine Finset.sum_congr rfl fun c _ => ?_
      have := congrArg star (h1 c)
      rw [star_star, star_div₀] at this
      rw [this]
      simp only [sub_self, Complex.star_def, Complex.conj_ofReal]
      ring
    have hz : ∑ n, (w k n : ℂ) * out W x 0 n * star (out W x 1 n)
        = (∑ n, (w k n : ℂ) * (∑ c, star (r.vec c 1) * x c n) * star (∑ c, star (r.vec c 0) * x c n))
          / (m0 * m1 : ℂ) := by
      rw [Finset.sum_div]
      refine Finset.sum_congr rfl fun n _ => ?_
      rw [e0, e1, star_div₀, show star (m1 : ℂ) = m1 from Complex.conj_ofReal m1]
      generalize (∑ c, star (r.vec c 1) * x c n) = A
      generalize star (∑ c, star (r.vec c 0) * x c n) = B
      rw [div_eq_mul_inv, div_eq_mul_inv, div_eq_mul_inv, mul_inv]
      ring
    rw [hz, div_right_comm, hf, zero_div]
  · obtain ⟨hm, -, hen⟩ := hc k
    rw [hen, div_le_one (by positivity), Real.sq_sqrt (by positivity)]
    exact le_max_left _ _
  · obtain ⟨hm, hrow, hen⟩ := hc k
    rw [hen, div_lt_one (by positivity), Real.sq_sqrt (by positivity)] at hk
    have hlt : power (wcov x (w k)) (fun i => r.vec i (1 - k)) < max 1e-7 (eps ^ 2) := by
      rcases lt_max_iff.1 hk with h | h
      · exact absurd h (lt_irrefl _)
      · exact h
    refine ⟨fun i => r.vec i (1 - k), hl2 _, fun i => ?_, ?_⟩
    · have := congrArg star (hrow i)
      rw [max_eq_right hlt.le] at this
      rw [star_star, star_div₀] at this
      rw [this]
      simp only [Complex.star_def, Complex.conj_ofReal]
    · rw [← power_wcov]; exact hlt

/-- Input-level condition under which the energy clamps are inactive: every unit-norm filter has weighted energy at
least `max(1e-7, eps²)` and the raw eigenvectors are longer than `eps`. -/
private lemma unit_energy (x : Fin 2 → Fin N → ℂ) (w : Fin 2 → Fin N → ℝ) (hw : ∀ k n, 0 ≤ w k n)
    (eps : ℝ) (he : 0 < eps) (hdet : eps ≤ (wcov x (w 0)).det.re)
    (hdisc : eps ≤ (wcov x (w 1) * (wcov x (w 0)).adjugate).trace.re ^ 2
      - 4 * ((wcov x (w 1)).det.re * (wcov x (w 0)).det.re))
    (hlow : ∀ k u, l2 u = 1 → max 1e-7 (eps ^ 2) ≤ power (wcov x (w k)) u)
    (hraw : ∀ l : ℝ, eps ≤ l2 ![(l : ℂ) * wcov x (w 0) 0 1 - wcov x (w 1) 0 1,
      wcov x (w 1) 0 0 - (l : ℂ) * wcov x (w 0) 0 0])
    (W : Matrix (Fin 2) (Fin 2) ℂ) (h : ip2Update x w eps = .ok W) (k : Fin 2) :
    wenergy (w k) (out W x k) = 1 := by
  obtain ⟨r, hr, hc⟩ := update_cols x w hw eps he W h
  obtain ⟨-, -, -, hunit⟩ := eigh_2x2_gen_partial _ _ (wcov_herm x (w 1)) (wcov_herm x (w 0)) eps he.le
    (lt_of_lt_of_le he hdet) hdet (by rw [max_eq_right he.le]; exact hdisc) r hr
  obtain ⟨hm, -, hen⟩ := hc k
  have hl := hlow k _ (hunit (1 - k) (hraw _))
  rw [hen, Real.sq_sqrt (by positivity), max_eq_left hl]
  exact div_self (ne_of_gt (lt_of_lt_of_le (by positivity) hl))

/-- **C74.** Above the clamps the update is globally optimal: no invertible demixing matrix has a smaller
auxiliary cost.  In particular the cost never increases from one iteration to the next. -/
theorem ip2_update_global_minimum (x : Fin 2 → Fin N → ℂ) (w : Fin 2 → Fin N → ℝ) (hw : ∀ k n, 0 ≤ w k n)
    (eps : ℝ) (he : 0 < eps) (hdet : eps ≤ (wcov x (w 0)).det.re)
    (hdisc : eps ≤ (wcov x (w 1) * (wcov x (w 0)).adjugate).trace.re ^ 2
      - 4 * ((wcov x (w 1)).det.re * (wcov x (w 0)).det.re))
    (hlow : ∀ k u, l2 u = 1 → max 1e-7 (eps ^ 2) ≤ power (wcov x (w k)) u)
    (hraw : ∀ l : ℝ, eps ≤ l2 ![(l : ℂ) * wcov x (w 0) 0 1 - wcov x (w 1) 0 1,
      wcov x (w 1) 0 0 - (l : ℂ) * wcov x (w 0) 0 0])
    (W : Matrix (Fin 2) (Fin 2) ℂ) (h : ip2Update x w eps = .ok W) :
    W.det ≠ 0 ∧ (∀ k, wenergy (w k) (out W x k) = 1) ∧
    ∀ W' : Matrix (Fin 2) (Fin 2) ℂ, W'.det ≠ 0 → ivaCost x w W ≤ ivaCost x w W' := by
  have hun := unit_energy x w hw eps he hdet hdisc hlow hraw W h
  obtain ⟨r, hr, hc⟩ := update_cols x w hw eps he W h
  obtain ⟨-, heig, -, -⟩ := eigh_2x2_gen_partial _ _ (wcov_herm x (w 1)) (wcov_herm x (w 0)) eps he.le
    (lt_of_lt_of_le he hdet) hdet (by rw [max_eq_right he.le]; exact hdisc) r hr
  have hgap := eigh2x2Gen_gap _ _ (wcov_herm x (w 1)) (wcov_herm x (w 0)) eps (lt_of_lt_of_le he hdet)
    (lt_of_lt_of_le he hdisc) r (by rwa [eigh2x2_some] at hr)
  -- positive definiteness from the lower bound on unit vectors
  have hpd : ∀ k, (wcov x (w k)).PosDef := by
    intro k
    refine Matrix.PosDef.of_dotProduct_mulVec_pos (wcov_herm x (w k)) fun u hu => ?_
    have hreal := form_self_real _ (wcov_herm x (w k)) u
    change 0 < form (wcov x (w k)) u u
    rw [hreal]
    have hn : 0 < l2 u := by
      have : ∃ i, u i ≠ 0 := by by_contra hh; push Not at hh; exact hu (funext hh)
      obtain ⟨i, hi⟩ := this
      exact Real.sqrt_pos.2 (Finset.sum_pos' (fun _ _ => by positivity) ⟨i, Finset.mem_univ _, by positivity⟩)
    have h1 := (l2_scaled u 0 le_rfl (by simp only [clampMin]; rw [max_eq_left hn.le]; exact hn.ne')).2 hn.le
    have h2 := hlow k _ h1
    rw [power_smul] at h2
    have h3 : 0 < power (wcov x (w k)) u / clampMin (l2 u) 0 ^ 2 :=
      lt_of_lt_of_le (lt_of_lt_of_le (by norm_num) (le_max_left _ _)) h2
    have h4 : 0 < power (wcov x (w k)) u := by
      by_contra hh
      push Not at hh
      exact absurd h3 (not_lt.2 (div_nonpos_of_nonpos_of_nonneg hh (sq_nonneg _)))
    exact_mod_cast h4
  set e : Fin 2 → Fin 2 → ℂ := fun k i => star (W k i) with he'
  have hcol : ∀ k, IsEigenpair (wcov x (w 1)) (wcov x (w 0)) (r.val (1 - k)) (e k) := by
    intro k
    obtain ⟨hm, hrow, -⟩ := hc k
    set m := √(max (power (wcov x (w k)) fun i => r.vec i (1 - k)) (max 1e-7 (eps ^ 2)))
    have : e k = ((m : ℂ)⁻¹) • fun i => r.vec i (1 - k) := by
      funext i
      rw [he', Pi.smul_apply, smul_eq_mul]
      simp only
      rw [hrow i, div_eq_inv_mul]
    rw [this]
    exact eigenpair_smul _ (heig (1 - k))
  have hpe : ∀ (W : Matrix (Fin 2) (Fin 2) ℂ) k, power (wcov x (w k)) (fun i => star (W k i))
      = wenergy (w k) (out W x k) := by
    intro W k
    rw [power_wcov]
    simp only [star_star]
    rfl
  have hdetn : ∀ W : Matrix (Fin 2) (Fin 2) ℂ,
      (Matrix.of fun k i => star (W k i) : Matrix (Fin 2) (Fin 2) ℂ).det = star W.det := by
    intro W
    rw [Matrix.det_fin_two, Matrix.det_fin_two]
    simp [star_sub, star_mul']
  have h0 := hcol 0
  have h1 := hcol 1
  have main := fun (W' : Matrix (Fin 2) (Fin 2) ℂ) (hW' : W'.det ≠ 0) =>
    joint_diag_optimal (fun k => wcov x (w k)) hpd e (r.val 0) (r.val 1) hgap h0 h1
      (fun k => (hpe W k).trans (hun k)) (fun k i => star (W' k i)) (by rw [hdetn]; simpa using hW')
  refine ⟨?_, hun, fun W' hW' => ?_⟩
  · have := (main 1 (by simp)).1
    rw [he', hdetn] at this
    simpa using this
  · have := (main W' hW').2
    rw [he', hdetn, hdetn, norm_star, norm_star] at this
    simp only [hpe] at this
    exact this

/-- **C24 (determinant).** Above the clamps the demixing matrix is not nearly singular: `|det W|²` is at least the reciprocal of the product
of the weighted energies of the two microphones.  So `|det W| ≥ 1e-6`, which `ip2_projected_sources_sum` asks for, unless that product
exceeds `1e12`. -/
theorem ip2_det_lower (x : Fin 2 → Fin N → ℂ) (w : Fin 2 → Fin N → ℝ) (hw : ∀ k n, 0 ≤ w k n)
    (eps : ℝ) (he : 0 < eps) (hr : Ip2Regular x w eps)
    (W : Matrix (Fin 2) (Fin 2) ℂ) (h : ip2Update x w eps = .ok W) :
    1 ≤ ‖W.det‖ ^ 2 * (wenergy (w 0) (x 0) * wenergy (w 1) (x 1)) ∧
    (wenergy (w 0) (x 0) * wenergy (w 1) (x 1) ≤ 1e12 → 1e-6 ≤ ‖W.det‖) := by
  obtain ⟨hW, hun, hopt⟩ := ip2_update_global_minimum x w hw eps he hr.det hr.disc hr.low hr.raw W h
  have hpos : ∀ k, 0 < wenergy (w k) (x k) := by
    intro k
    have h1 := hr.low k (Pi.single k 1) (by
      unfold l2
      rw [Finset.sum_eq_single k (fun j _ hj => by rw [Pi.single_eq_of_ne hj]; simp) (by simp)]
      simp)
    rw [power_wcov] at h1
    have e : (fun n => ∑ c, star ((Pi.single k 1 : Fin 2 → ℂ) c) * x c n) = x k := by
      funext n
      rw [Finset.sum_eq_single k (fun j _ hj => by rw [Pi.single_eq_of_ne hj]; simp) (by simp)]
      simp
    rw [e] at h1
    exact lt_of_lt_of_le (lt_of_lt_of_le (by norm_num) (le_max_left _ _)) h1
  set a := wenergy (w 0) (x 0) with ha
  set b := wenergy (w 1) (x 1) with hb
  have ha0 : 0 < a := hpos 0
  have hb0 : 0 < b := hpos 1
  have hsa : 0 < √a := Real.sqrt_pos.2 ha0
  have hsb : 0 < √b := Real.sqrt_pos.2 hb0
  set D : Matrix (Fin 2) (Fin 2) ℂ := !![((√a)⁻¹ : ℝ), 0; 0, ((√b)⁻¹ : ℝ)] with hD
  have hDdet : D.det = (((√a)⁻¹ * (√b)⁻¹ : ℝ) : ℂ) := by
    rw [hD, Matrix.det_fin_two_of]; push_cast; ring
  have hscale : ∀ (c : ℝ) (y : Fin N → ℂ) (v : Fin N → ℝ), wenergy v (fun n => (c : ℂ) * y n) = c ^ 2 * wenergy v y := by
    intro c y v
    unfold wenergy
    rw [← mul_div_assoc, Finset.mul_sum]
    congr 1
    refine Finset.sum_congr rfl fun n _ => ?_
    rw [norm_mul, mul_pow, Complex.norm_real, Real.norm_eq_abs, sq_abs]
    ring
  have h0 : wenergy (w 0) (out D x 0) = 1 := by
    have : out D x 0 = fun n => (((√a)⁻¹ : ℝ) : ℂ) * x 0 n := by
      funext n; simp [out, hD, Fin.sum_univ_two]
    rw [this, hscale, inv_pow, Real.sq_sqrt ha0.le]
    exact inv_mul_cancel₀ ha0.ne'
  have h1 : wenergy (w 1) (out D x 1) = 1 := by
    have : out D x 1 = fun n => (((√b)⁻¹ : ℝ) : ℂ) * x 1 n := by
      funext n; simp [out, hD, Fin.sum_univ_two]
    rw [this, hscale, inv_pow, Real.sq_sqrt hb0.le]
    exact inv_mul_cancel₀ hb0.ne'
  have hc := hopt D (by rw [hDdet]; exact_mod_cast (by positivity : (√a)⁻¹ * (√b)⁻¹ ≠ 0))
  unfold ivaCost at hc
  simp only [Fin.sum_univ_two, h0, h1, hun] at hc
  have hlog : Real.log ‖D.det‖ ≤ Real.log ‖W.det‖ := by linarith
  have hle : ‖D.det‖ ≤ ‖W.det‖ := (Real.log_le_log_iff (by
    rw [hDdet, Complex.norm_real, Real.norm_eq_abs]; positivity) (norm_pos_iff.2 hW)).1 hlog
  rw [hDdet, Complex.norm_real, Real.norm_eq_abs, abs_of_pos (by positivity)] at hle
  have hsq : a⁻¹ * b⁻¹ ≤ ‖W.det‖ ^ 2 := by
    have := pow_le_pow_left₀ (by positivity) hle 2
    rwa [mul_pow, inv_pow, inv_pow, Real.sq_sqrt ha0.le, Real.sq_sqrt hb0.le] at this
  have hone : 1 ≤ ‖W.det‖ ^ 2 * (a * b) := by
    have := mul_le_mul_of_nonneg_right hsq (by positivity : 0 ≤ a * b)
    have e : a⁻¹ * b⁻¹ * (a * b) = 1 := by field_simp
    linarith
  refine ⟨hone, fun hab => ?_⟩
  by_contra hlt
  push Not at hlt
  have h2 : ‖W.det‖ ^ 2 < (1e-6 : ℝ) ^ 2 := pow_lt_pow_left₀ hlt (norm_nonneg _) (by norm_num)
  have h3 : ‖W.det‖ ^ 2 * (a * b) < (1e-6 : ℝ) ^ 2 * (a * b) := mul_lt_mul_of_pos_right h2 (by positivity)
  have h4 : (1e-6 : ℝ) ^ 2 * (a * b) ≤ (1e-6 : ℝ) ^ 2 * 1e12 := mul_le_mul_of_nonneg_left hab (by norm_num)
  norm_num at h4 h3
  linarith

/-- `V₀ = I`, `V₁ = [[2,1],[1,2]]` are away from the clamps. -/
lemma ip2_regular_demo (x : Fin 2 → Fin N → ℂ) (w : Fin 2 → Fin N → ℝ) (h0 : wcov x (w 0) = !![1, 0; 0, 1])
    (h1 : wcov x (w 1) = !![2, 1; 1, 2]) : Ip2Regular x w 1e-5 := by
  refine ⟨?_, ?_, ?_, ?_⟩
  · rw [h0]; simp [Matrix.det_fin_two]; norm_num
  · rw [h0, h1]; simp [Matrix.det_fin_two, Matrix.adjugate_fin_two, Matrix.trace, Matrix.mul_apply, Fin.sum_univ_two]
    norm_num
  · intro k u hu
    have hs : ‖u 0‖ ^ 2 + ‖u 1‖ ^ 2 = 1 := by
      have : (l2 u) ^ 2 = 1 := by rw [hu]; norm_num
      unfold l2 at this
      rw [Real.sq_sqrt (by positivity), Fin.sum_univ_two] at this
      exact this
    have h2 : (1 : ℝ) ≤ power (wcov x (w k)) u := by
      have hq : ∀ z : ℂ, ‖z‖ ^ 2 = z.re ^ 2 + z.im ^ 2 := fun z => by rw [Complex.sq_norm, Complex.normSq_apply]; ring
      rw [hq, hq] at hs
      fin_cases k
      · change 1 ≤ power (wcov x (w 0)) u
        rw [h0]
        simp [power, Fin.sum_univ_two, Matrix.mulVec, dotProduct]
        nlinarith
      · change 1 ≤ power (wcov x (w 1)) u
        rw [h1]
        simp [power, Fin.sum_univ_two, Matrix.mulVec, dotProduct]
        nlinarith [sq_nonneg ((u 0).re + (u 1).re), sq_nonneg ((u 0).im + (u 1).im)]
    refine le_trans ?_ h2
    norm_num
  · intro l
    rw [h0, h1]
    unfold l2
    rw [Fin.sum_univ_two]
    refine le_trans (by norm_num : (1e-5 : ℝ) ≤ 1) ?_
    apply Real.one_le_sqrt.2
    simp

/-- Non-vacuity of `ip2_update_total`, `ip2_update_diagonalises` (C23), C74 and `ip2_det_lower`: three frames, `V₀ = I`, `V₁ = [[2,1],[1,2]]`,
the default `eps`. -/
example : ∃ (x : Fin 2 → Fin 3 → ℂ) (w : Fin 2 → Fin 3 → ℝ), (∀ k n, 0 ≤ w k n) ∧ Ip2Regular x w 1e-5 ∧
    wenergy (w 0) (x 0) * wenergy (w 1) (x 1) ≤ 1e12 := by
  set x : Fin 2 → Fin 3 → ℂ := ![![1, 0, 1], ![0, 1, 1]] with hx
  set w : Fin 2 → Fin 3 → ℝ := ![![3, 3, 0], ![3, 3, 3]] with hw
  have h0 : wcov x (w 0) = !![1, 0; 0, 1] := by
    ext i j; fin_cases i <;> fin_cases j <;> simp [wcov, hx, hw, Fin.sum_univ_three]
  have h1 : wcov x (w 1) = !![2, 1; 1, 2] := by
    ext i j; fin_cases i <;> fin_cases j <;> simp [wcov, hx, hw, Fin.sum_univ_three] <;> norm_num
  refine ⟨x, w, fun k n => ?_, ip2_regular_demo x w h0 h1, ?_⟩
  · fin_cases k <;> fin_cases n <;> simp [hw]
  · simp [wenergy, hx, hw, Fin.sum_univ_three]; norm_num

/-! ## The forward call -/

/-- **C25.** Anything but two channels is rejected. -/
theorem ip2_rejects_channels (hC : C ≠ 2) (nIter : ℕ) (m : Option ℤ) (eps : ℝ) (X : Sig C F N)
    (model : SourceModel σ F N) (reset : σ → σ) (ms : σ) :
    auxiva2Forward nIter m eps X model reset ms = .error .assertionError := by
  unfold auxiva2Forward
  rw [dif_neg hC]

/-- Three channels. -/
example : auxiva2Forward 5 none 1e-5 (fun _ _ _ => 1 : Sig 3 1 2) (fun _ ms _ => (fun _ _ _ => 1, ms)) id ()
    = .error .assertionError := ip2_rejects_channels (by norm_num) _ _ _ _ _ _ _

/-- **C25.** A reference microphone outside the array is rejected. -/
theorem ip2_rejects_ref_mic (nIter : ℕ) (m : ℤ) (hm : m < 0 ∨ C ≤ m) (eps : ℝ) (X : Sig C F N)
    (model : SourceModel σ F N) (reset : σ → σ) (ms : σ) :
    auxiva2Forward nIter (some m) eps X model reset ms = .error .assertionError := by
  unfold auxiva2Forward
  by_cases hC : C = 2
  · rw [dif_pos hC, if_neg]
    intro h
    have := h m rfl
    omega
  · rw [dif_neg hC]

/-- Microphone 2 of two, and microphone -1. -/
example : auxiva2Forward 5 (some 2) 1e-5 (fun _ _ _ => 1 : Sig 2 1 2) (fun _ ms _ => (fun _ _ _ => 1, ms)) id ()
      = .error .assertionError ∧
    auxiva2Forward 5 (some (-1)) 1e-5 (fun _ _ _ => 1 : Sig 2 1 2) (fun _ ms _ => (fun _ _ _ => 1, ms)) id ()
      = .error .assertionError :=
  ⟨ip2_rejects_ref_mic _ _ (by norm_num) _ _ _ _ _, ip2_rejects_ref_mic _ _ (by norm_num) _ _ _ _ _⟩

private lemma epoch_total (Xo : Sig 2 F N) (model : SourceModel σ F N)
    (hmod : ∀ s ms Y k f n, 0 ≤ (model s ms Y).1 k f n) (eps : ℝ) (he : 0 < eps) (st : Ip2State σ F N) :
    ∃ st', ip2Epoch Xo model eps st = .ok st' ∧
      (∀ f, ip2Update (fun c => Xo c f) (fun k n => (model 2 st.ms st.X).1 k f n
        * max ((∑ f, ∑ n, ‖st.X k f n‖ ^ 2) / (F * N)) 1e-5) eps = .ok (st'.W f)) ∧
      (∀ c f n, st'.X c f n = ∑ d, st'.W f c d * Xo d f n) ∧
      ∀ f, st'.A f = inv2x2Core (st'.W f) 1e-6 := by
  set w' : Weights 2 F N := fun k f n => (model 2 st.ms st.X).1 k f n
    * clampMin ((∑ f, ∑ n, magSq (st.X k f n)) / (F * N)) 1e-5 with hw'
  have h := fun f => ip2_update_total (fun c => Xo c f) (fun k => w' k f) (fun k n => by
    have : (0 : ℝ) ≤ clampMin ((∑ f, ∑ n, magSq (st.X k f n)) / (F * N)) 1e-5 :=
      le_trans (by norm_num) (le_max_right _ _)
    exact mul_nonneg (hmod _ _ _ _ _ _) this) eps he
  choose W hW using h
  refine ⟨⟨fun c f n => ∑ d, W f c d * Xo d f n, W, fun f => inv2x2Core (W f) 1e-6, (model 2 st.ms st.X).2⟩,
    ?_, fun f => ?_, fun _ _ _ => rfl, fun _ => rfl⟩
  swap
  · have := hW f
    simp only [hw', clampMin, magSq_eq] at this
    exact this
  unfold ip2Epoch
  simp only [← hw']
  rw [seqAll_ok_iff.2 hW]
  rfl

/-- What the loop guarantees after at least one iteration. -/
private lemma loop_spec (Xo : Sig 2 F N) (model : SourceModel σ F N)
    (hmod : ∀ s ms Y k f n, 0 ≤ (model s ms Y).1 k f n) (eps : ℝ) (he : 0 < eps) (n : ℕ) (st0 : Ip2State σ F N) :
    ∃ st st', iterM (ip2Epoch Xo model eps) n st0 = .ok st ∧ iterM (ip2Epoch Xo model eps) (n + 1) st0 = .ok st' ∧
      (∀ f, ip2Update (fun c => Xo c f) (fun k n => (model 2 st.ms st.X).1 k f n
        * max ((∑ f, ∑ n, ‖st.X k f n‖ ^ 2) / (F * N)) 1e-5) eps = .ok (st'.W f)) ∧
      (∀ c f n, st'.X c f n = ∑ d, st'.W f c d * Xo d f n) ∧
      ∀ f, st'.A f = inv2x2Core (st'.W f) 1e-6 := by
  obtain ⟨st, h1, -⟩ := iterM_total (fun _ : Ip2State σ F N => True) (ip2Epoch Xo model eps)
    (fun a _ => by
      obtain ⟨st', h1, -⟩ := epoch_total Xo model hmod eps he a
      exact ⟨st', h1, trivial⟩) n st0 trivial
  obtain ⟨st', h2, hst'⟩ := epoch_total Xo model hmod eps he st
  refine ⟨st, st', h1, ?_, hst'⟩
  rw [iterM_snoc, h1]
  exact h2

/-- **C25.** Two channels, a reference microphone among them or none, a nonnegative source model: the call succeeds for
every input and iteration count. -/
theorem ip2_succeeds (nIter : ℕ) (m : Option (Fin 2)) (eps : ℝ) (he : 0 < eps)
    (X : Sig 2 F N) (model : SourceModel σ F N) (hmod : ∀ s ms Y k f n, 0 ≤ (model s ms Y).1 k f n)
    (reset : σ → σ) (ms : σ) :
    ∃ Y, auxiva2Forward nIter (m.map fun m => ((m.1 : ℕ) : ℤ)) eps X model reset ms = .ok Y := by
  obtain ⟨st, h, -⟩ := iterM_total (fun _ : Ip2State σ F N => True) (ip2Epoch X model eps)
    (fun a _ => by
      obtain ⟨st', h1, -⟩ := epoch_total X model hmod eps he a
      exact ⟨st', h1, trivial⟩) nIter ⟨X, fun _ => 1, fun _ => 1, reset ms⟩ trivial
  unfold auxiva2Forward
  rw [dif_pos rfl, if_pos (by
    intro a ha
    cases m with
    | none => cases ha
    | some m => cases ha; have := m.2; constructor <;> dsimp only <;> omega)]
  simp only [Fin.cast_eq_self, bind, Except.bind, h]
  cases m with
  | none => exact ⟨_, rfl⟩
  | some m =>
    simp only [Option.map_some]
    split_ifs <;> exact ⟨_, rfl⟩

private lemma inv_core_mul (W : Matrix (Fin 2) (Fin 2) ℂ) :
    inv2x2Core W 1e-6 * W = (if 1e-6 ≤ ‖W.det‖ then 1 else W.det / 1e-6 : ℂ) • (1 : Matrix (Fin 2) (Fin 2) ℂ) := by
  by_cases h : (1e-6 : ℝ) ≤ ‖W.det‖
  · rw [if_pos h, one_smul]
    obtain ⟨V, hV, -, h2⟩ := inv_2x2_inverse W 1e-6 (by norm_num) h
    simp only [inv2x2, ne_eq, not_true_eq_false, or_self, if_false, and_self, dite_true, Except.ok.injEq] at hV
    rw [← h2, ← hV]
    rfl
  · rw [if_neg h]
    have hV := inv_2x2_clamped W 1e-6 (not_le.1 h)
    simp only [inv2x2, ne_eq, not_true_eq_false, or_self, if_false, and_self, dite_true, Except.ok.injEq] at hV
    have hV' : inv2x2Core W 1e-6 = ((1e-6 : ℝ) : ℂ)⁻¹ • W.adjugate := hV
    rw [hV', Matrix.smul_mul, Matrix.adjugate_mul, smul_smul]
    congr 1
    push_cast
    ring

/-- **C24.** With projection back on microphone `m` and at least one iteration, AuxIVA-IP2 succeeds for every input,
nonnegative source model and `eps > 0`; at every frequency its two outputs add up to microphone `m`, exactly
if the demixing matrix of the last update has `|det| ≥ 1e-6`, and scaled by `det / 1e-6` otherwise.  The last update uses the weights
that the source model returns for the output of one iteration less without projection back (times its mean power). -/
theorem ip2_projected_sources_sum (nIter : ℕ) (m : Fin 2) (eps : ℝ) (he : 0 < eps)
    (X : Sig 2 F N) (model : SourceModel σ F N) (hmod : ∀ s ms Y k f n, 0 ≤ (model s ms Y).1 k f n)
    (reset : σ → σ) (ms : σ) :
    ∃ (prev Y : Sig 2 F N) (ms' : σ) (W : Fin F → Matrix (Fin 2) (Fin 2) ℂ),
      auxiva2Forward nIter none eps X model reset ms = .ok prev ∧
      auxiva2Forward (nIter + 1) (some m) eps X model reset ms = .ok Y ∧
      (∀ f, ip2Update (fun c => X c f) (fun k n => (model 2 ms' prev).1 k f n
        * max ((∑ f, ∑ n, ‖prev k f n‖ ^ 2) / (F * N)) 1e-5) eps = .ok (W f)) ∧
      (∀ f, ∃ a : Fin 2 → ℂ, ∀ k n, Y k f n = a k * out (W f) (fun c => X c f) k n) ∧
      ∀ f n, Y 0 f n + Y 1 f n
        = (if 1e-6 ≤ ‖(W f).det‖ then 1 else (W f).det / 1e-6) * X m f n := by
  obtain ⟨st', st, hst', hst, hw, hX, hA⟩ := loop_spec X model hmod eps he nIter ⟨X, fun _ => 1, fun _ => 1, reset ms⟩
  refine ⟨st'.X, fun c f n => st.A f m c * st.X c f n, st'.ms, st.W, ?_, ?_, hw, ?_, ?_⟩
  · unfold auxiva2Forward
    rw [dif_pos rfl, if_pos (by intro a ha; cases ha)]
    simp only [Fin.cast_eq_self]
    rw [hst']
    rfl
  · unfold auxiva2Forward
    rw [dif_pos rfl, if_pos (by intro a ha; cases ha; constructor <;> omega)]
    simp only [Fin.cast_eq_self]
    rw [hst]
    simp only [bind, Except.bind, if_pos (Nat.succ_pos nIter), pure, Except.pure, Except.ok.injEq]
    funext c f n
    have : (if ((m.1 : ℕ) : ℤ) = 0 then (0 : Fin 2) else 1) = m := by fin_cases m <;> simp
    rw [this]
  · intro f
    exact ⟨fun k => st.A f m k, fun k n => by simp only [hX]; rfl⟩
  · intro f n
    have h := congrFun (congrArg (fun M => M *ᵥ fun d => X d f n) (inv_core_mul (st.W f))) m
    simp only [← hA, Matrix.smul_mulVec, Matrix.one_mulVec, Pi.smul_apply, smul_eq_mul] at h
    rw [← h, ← Matrix.mulVec_mulVec]
    simp only [mulVec, dotProduct, Fin.sum_univ_two (f := fun c => st.A f m c * _), hX]

/-- **C17 (AuxIVA-IP2).** Silence in, silence out (no exception), with or without projection back. -/
theorem ip2_silence (nIter : ℕ) (m : Option (Fin 2)) (eps : ℝ) (he : 0 < eps)
    (X : Sig 2 F N) (hX : ∀ c f n, X c f n = 0) (model : SourceModel σ F N)
    (hmod : ∀ s ms Y k f n, 0 ≤ (model s ms Y).1 k f n) (reset : σ → σ) (ms : σ) :
    ∃ Y, auxiva2Forward nIter (m.map fun m => ((m.1 : ℕ) : ℤ)) eps X model reset ms = .ok Y ∧
      ∀ k f n, Y k f n = 0 := by
  have hst : ∃ st, iterM (ip2Epoch X model eps) nIter ⟨X, fun _ => 1, fun _ => 1, reset ms⟩ = .ok st ∧
      ∀ k f n, st.X k f n = 0 := by
    obtain ⟨st, h, hs⟩ := iterM_total (fun st : Ip2State σ F N => ∀ k f n, st.X k f n = 0)
      (ip2Epoch X model eps)
      (fun a _ => by
        obtain ⟨st', h1, -, h2, -⟩ := epoch_total X model hmod eps he a
        exact ⟨st', h1, fun k f n => by simp [h2, hX]⟩) nIter ⟨X, fun _ => 1, fun _ => 1, reset ms⟩ hX
    exact ⟨st, h, hs⟩
  obtain ⟨st, h, hs⟩ := hst
  unfold auxiva2Forward
  rw [dif_pos rfl, if_pos (by
    intro a ha
    cases m with
    | none => cases ha
    | some m => cases ha; have := m.2; constructor <;> dsimp only <;> omega)]
  simp only [Fin.cast_eq_self]
  rw [h]
  simp only [bind, Except.bind]
  cases m with
  | none => exact ⟨_, rfl, hs⟩
  | some m =>
    simp only [Option.map_some]
    by_cases hn : 0 < nIter
    · rw [if_pos hn]; exact ⟨_, rfl, fun k f n => by simp [hs]⟩
    · rw [if_neg hn]; exact ⟨_, rfl, hs⟩

/-- Zero iterations return the input unchanged (also with projection back). -/
theorem ip2_zero_iterations (m : Option (Fin 2)) (eps : ℝ) (X : Sig 2 F N) (model : SourceModel σ F N)
    (reset : σ → σ) (ms : σ) :
    auxiva2Forward 0 (m.map fun m => ((m.1 : ℕ) : ℤ)) eps X model reset ms = .ok X := by
  unfold auxiva2Forward
  rw [dif_pos rfl, if_pos (by
    intro a ha
    cases m with
    | none => cases ha
    | some m => cases ha; have := m.2; constructor <;> dsimp only <;> omega)]
  cases m <;> rfl

/-- Non-vacuity: a source model satisfying the hypotheses of `ip2_succeeds`, `ip2_projected_sources_sum` and `ip2_silence`. -/
example : ∃ model : SourceModel Unit 1 2, (∀ s ms Y k f n, 0 ≤ (model s ms Y).1 k f n) ∧
    (model 2 () (fun _ _ _ => 1)).1 0 0 0 = 1 :=
  ⟨fun _ ms Y => (fun k f n => ‖Y k f n‖, ms), fun _ _ _ _ _ _ => norm_nonneg _, by simp⟩

end Torchiva.Props
