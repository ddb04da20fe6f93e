import Verif.Spec.Level
import Verif.Proofs.Rearrange
import Verif.Props.RtfPower

/-!
# A gain of the recording and the loaded solves, the beamformers and WPE
-/

namespace Torchiva

open Matrix _root_.Spec Props
open scoped ComplexOrder

section linear
variable {ι κ : Type} [Fintype ι] [DecidableEq ι]

lemma solve_smul_left (c : ℂ) (hc : c ≠ 0) (A : Matrix ι ι ℂ) (b : Matrix ι κ ℂ) :
    solve (c • A) b = (solve A b).map fun x => c⁻¹ • x := by
  by_cases h : IsUnit A.det
  · obtain ⟨x, hx, hs⟩ := solve_spec b h
    rw [hx]
    refine solve_ok_iff.2 ⟨?_, ?_⟩
    · rw [Matrix.det_smul]
      exact ((isUnit_iff_ne_zero.2 hc).pow _).mul h
    · rw [Matrix.smul_mul, Matrix.mul_smul, smul_smul, mul_inv_cancel₀ hc, one_smul, hs]
  · have h' : ¬ IsUnit (c • A).det := by
      rw [Matrix.det_smul]
      intro hu
      exact h (isUnit_of_mul_isUnit_right hu)
    unfold solve
    rw [if_neg h, if_neg h']
    rfl

lemma solve_smul_right (c : ℂ) (A : Matrix ι ι ℂ) (b : Matrix ι κ ℂ) : solve A (c • b) = (solve A b).map fun x => c • x := by
  unfold solve
  split_ifs
  · simp only [Except.map, Matrix.mul_smul]
  · rfl

lemma solve_smul_both (c : ℂ) (hc : c ≠ 0) (A : Matrix ι ι ℂ) (b : Matrix ι κ ℂ) : solve (c • A) (c • b) = solve A b := by
  rw [solve_smul_left c hc, solve_smul_right]
  cases solve A b with
  | error e => rfl
  | ok x => simp only [Except.map, smul_smul, inv_mul_cancel₀ hc, one_smul]

lemma maxAbs_greatest [Nonempty ι] (A : Matrix ι ι ℂ) :
    ∃ m, maxAbs A = .ok m ∧ IsGreatest (Set.range fun p : ι × ι => ‖A p.1 p.2‖) m := by
  refine ⟨_, dif_pos ⟨inferInstance, inferInstance⟩, ?_, ?_⟩
  · obtain ⟨j, _, hj⟩ := Finset.exists_mem_eq_sup' (s := Finset.univ) (Finset.univ_nonempty)
      (fun j => Finset.univ.sup' (Finset.univ_nonempty (α := ι)) fun i => ‖A i j‖)
    obtain ⟨i, _, hi⟩ := Finset.exists_mem_eq_sup' (s := Finset.univ) (Finset.univ_nonempty)
      (fun i => ‖A i j‖)
    exact ⟨(i, j), by rw [hj, hi]⟩
  · rintro _ ⟨⟨i, j⟩, rfl⟩
    exact le_trans (Finset.le_sup' (fun i => ‖A i j‖) (Finset.mem_univ i))
      (Finset.le_sup' (fun j => Finset.univ.sup' (Finset.univ_nonempty (α := ι)) fun i => ‖A i j‖)
        (Finset.mem_univ j))

/-- The load of a matrix with an entry of at least one is proportional to the matrix. -/
lemma load_loud {A : Matrix ι ι ℂ} (h : Loud A) {load : ℝ} (hl : 0 ≤ load) :
    ∃ m, maxAbs A = .ok m ∧ 1 ≤ m ∧ IsGreatest (Set.range fun p : ι × ι => ‖A p.1 p.2‖) m ∧ clampMin (load * m) load = load * m := by
  obtain ⟨i, j, hij⟩ := h
  haveI : Nonempty ι := ⟨i⟩
  obtain ⟨m, hm, hg⟩ := maxAbs_greatest A
  have h1 : 1 ≤ m := hij.trans (hg.2 ⟨(i, j), rfl⟩)
  exact ⟨m, hm, h1, hg, max_eq_left (by nlinarith)⟩

lemma greatest_smul {A : Matrix ι ι ℂ} {m : ℝ} (c : ℂ) (hg : IsGreatest (Set.range fun p : ι × ι => ‖A p.1 p.2‖) m) :
    IsGreatest (Set.range fun p : ι × ι => ‖(c • A) p.1 p.2‖) (‖c‖ * m) := by
  obtain ⟨⟨p, hp⟩, hu⟩ := hg
  refine ⟨⟨p, ?_⟩, ?_⟩
  · simp only at hp
    simp only [Matrix.smul_apply, smul_eq_mul, norm_mul, hp]
  · rintro _ ⟨q, rfl⟩
    simp only [Matrix.smul_apply, smul_eq_mul, norm_mul]
    exact mul_le_mul_of_nonneg_left (hu ⟨q, rfl⟩) (norm_nonneg _)

lemma solveLoaded_gain (c : ℝ) (hc : 0 < c) (A : Matrix ι ι ℂ) (b : Matrix ι κ ℂ) {load : ℝ} (hl : 0 ≤ load)
    (h : Loud A) (h' : Loud ((c : ℂ) • A)) :
    solveLoaded ((c : ℂ) • A) b load = (solveLoaded A b load).map fun x => (c : ℂ)⁻¹ • x := by
  obtain ⟨m, hm, -, hg, hcl⟩ := load_loud h hl
  obtain ⟨m', hm', -, hg', hcl'⟩ := load_loud h' hl
  obtain rfl := hg'.unique (greatest_smul (c : ℂ) hg)
  rw [Complex.norm_of_nonneg hc.le] at *
  unfold solveLoaded
  rw [hm, hm']
  simp only [bind, Except.bind]
  rw [hcl, hcl']
  have hc0 : (c : ℂ) ≠ 0 := by exact_mod_cast hc.ne'
  rw [← solve_smul_left (c : ℂ) hc0, smul_add, smul_smul]
  congr 3
  push_cast
  ring

lemma solveLoaded_gain_both (c : ℝ) (hc : 0 < c) (A : Matrix ι ι ℂ) (b : Matrix ι κ ℂ) {load : ℝ} (hl : 0 ≤ load)
    (h : Loud A) (h' : Loud ((c : ℂ) • A)) :
    solveLoaded ((c : ℂ) • A) ((c : ℂ) • b) load = solveLoaded A b load := by
  have hc0 : (c : ℂ) ≠ 0 := by exact_mod_cast hc.ne'
  have e : ∀ A : Matrix ι ι ℂ, solveLoaded A ((c : ℂ) • b) load = (solveLoaded A b load).map fun x => (c : ℂ) • x := by
    intro A
    unfold solveLoaded
    cases maxAbs A with
    | error e => rfl
    | ok m =>
      simp only [bind, Except.bind]
      exact solve_smul_right _ _ _
  rw [e, solveLoaded_gain c hc A b hl h h']
  cases solveLoaded A b load with
  | error e => rfl
  | ok x => simp only [Except.map, smul_smul, mul_inv_cancel₀ hc0, one_smul]

end linear

section bf
variable {C S F N : ℕ} (Rt Rn : Matrix (Fin C) (Fin C) ℂ)

lemma maskCov_gain (α : Fin F → ℂ) (mask : Fin F → Fin N → ℝ) (X : Sig C F N) (f : Fin F) :
    maskCov mask (gain α X) f = ((‖α f‖ ^ 2 : ℝ) : ℂ) • maskCov mask X f := by
  ext c d
  simp only [maskCov, gain, Matrix.of_apply, Matrix.smul_apply, smul_eq_mul, Finset.mul_sum, star_mul']
  have : α f * star (α f) = ((‖α f‖ ^ 2 : ℝ) : ℂ) := by rw [Complex.star_def, Complex.mul_conj', Complex.ofReal_pow]
  rw [← this]
  exact Finset.sum_congr rfl fun n _ => by ring

lemma maskCov_covOf (mask : Fin F → Fin N → ℝ) (X : Sig C F N) (f : Fin F) : covOf mask X f = maskCov mask X f := rfl

lemma applyBf_gain (α : Fin F → ℂ) (X : Sig C F N) (bf : Fin S × Fin F → Fin C → ℂ) :
    applyBf (gain α X) bf = gain α (applyBf X bf) := by
  funext s f n
  simp only [applyBf, gain, Finset.mul_sum]
  exact Finset.sum_congr rfl fun c _ => by ring

lemma mwfBfRef_gain (c : ℝ) (hc : 0 < c) (eps : ℝ) (ref : Fin C) (h : Loud (Rt + Rn)) (h' : Loud ((c : ℂ) • (Rt + Rn))) :
    mwfBfRef ((c : ℂ) • Rt) ((c : ℂ) • Rn) eps ref = mwfBfRef Rt Rn eps ref := by
  unfold mwfBfRef
  have h2 : (colVec fun k => ((c : ℂ) • Rt) k ref) = (c : ℂ) • colVec fun k => Rt k ref := rfl
  rw [← smul_add, h2, solveLoaded_gain_both c hc _ _ (by norm_num) h h']

lemma mvdrBf2_gain (c : ℂ) (hc : c ≠ 0) (ref : Fin C) : mvdrBf2 (c • Rt) (c • Rn) ref = mvdrBf2 Rt Rn ref := by
  unfold mvdrBf2
  rw [solve_smul_both c hc]

lemma power_smul_mat (c : ℝ) (R : Matrix (Fin C) (Fin C) ℂ) (v : Fin C → ℂ) : power ((c : ℂ) • R) v = c * power R v := by
  unfold power
  rw [Matrix.smul_mulVec, dotProduct_smul, smul_eq_mul, Complex.re_ofReal_mul]

lemma isMaxSnr_gain (c : ℝ) (hc : 0 < c) {v : Fin C → ℂ} (h : IsMaxSnr ((c : ℂ) • Rt) ((c : ℂ) • Rn) v) : IsMaxSnr Rt Rn v := by
  obtain ⟨h1, h2⟩ := h
  simp only [power_smul_mat] at h1 h2
  refine ⟨by nlinarith [mul_pos hc hc], fun u => ?_⟩
  have := h2 u
  have hcc := mul_pos hc hc
  refine le_of_mul_le_mul_left (a := c * c) ?_ hcc
  linarith

lemma rtf_of_vector_gain [NeZero C] (solver) (c : ℂ) (hc : c ≠ 0) (Rt' : Matrix (Fin C) (Fin C) ℂ) (nPower) (ref : Fin C)
    (v v' : Fin C → ℂ) (z : ℂ) (hz : z ≠ 0)
    (h : rtfVector solver Rt Rn nPower = .ok v) (h' : rtfVector solver Rt' (c • Rn) nPower = .ok v') (hv : v' = z • v) :
    mvdrRtf solver Rt' (c • Rn) ref nPower = mvdrRtf solver Rt Rn ref nPower := by
  unfold mvdrRtf
  rw [h, h']
  simp only [bind, Except.bind]
  have e : (c • Rn) *ᵥ v' = (c * z) • (Rn *ᵥ v) := by rw [hv, Matrix.mulVec_smul, Matrix.smul_mulVec, smul_smul, mul_comm]
  have hcz : c * z ≠ 0 := mul_ne_zero hc hz
  rw [e]
  by_cases h0 : (Rn *ᵥ v) ref = 0
  · rw [if_pos h0, if_pos (by simp [h0])]
  · rw [if_neg h0, if_neg (by simp only [Pi.smul_apply, smul_eq_mul]; exact mul_ne_zero hcz h0)]
    simp only [pure, Except.pure]
    congr 1
    funext k
    simp only [Pi.smul_apply, smul_eq_mul]
    exact mul_div_mul_left _ _ hcz

lemma rtf_gain_power [NeZero C] (solver) (c : ℝ) (hc : 0 < c) (n : ℕ) (ref : Fin C) (h : Loud Rn) (h' : Loud ((c : ℂ) • Rn)) :
    mvdrRtf solver ((c : ℂ) • Rt) ((c : ℂ) • Rn) ref (some n) = mvdrRtf solver Rt Rn ref (some n) := by
  have hc0 : (c : ℂ) ≠ 0 := by exact_mod_cast hc.ne'
  have hv : rtfVector solver ((c : ℂ) • Rt) ((c : ℂ) • Rn) (some n) = rtfVector solver Rt Rn (some n) := by
    unfold rtfVector
    simp only
    rw [solveLoaded_gain_both c hc _ _ (by norm_num) h h']
  cases h1 : rtfVector solver Rt Rn (some n) with
  | error e =>
    unfold mvdrRtf
    rw [hv, h1]
    rfl
  | ok v => exact rtf_of_vector_gain Rt Rn solver _ hc0 _ _ ref v v 1 one_ne_zero h1 (hv.trans h1) (one_smul _ _).symm

/-- The two eigenvectors of a pair of matrices and of its multiple. -/
lemma best_gain [NeZero C] (c : ℝ) (hc : 0 < c) (hn : Rn.PosDef) (ht : Rt.IsHermitian) (hbest : UniqueBest Rt Rn)
    (r r' : EigRes (Fin C)) (hg : IsGevd Rt Rn r.val r.vec)
    (hg' : IsGevd ((c : ℂ) • Rt) ((c : ℂ) • Rn) r'.val r'.vec) (hn' : ((c : ℂ) • Rn).PosDef) (ht' : ((c : ℂ) • Rt).IsHermitian) :
    ∃ z : ℂ, z ≠ 0 ∧ (fun k => r'.vec k (Fin.rev 0)) = z • fun k => r.vec k (Fin.rev 0) := by
  have hm := gevd_max ht hn hg
  have hm' := isMaxSnr_gain Rt Rn c hc (gevd_max ht' hn' hg')
  obtain ⟨z, hz⟩ := hbest _ _ hm hm'
  refine ⟨z, ?_, hz⟩
  rintro rfl
  have := (gevd_max ht' hn' hg').1
  rw [hz] at this
  simp [power] at this

lemma rtf_gain_eig [NeZero C] (solver) (c : ℝ) (hc : 0 < c) (hn : Rn.PosDef) (ht : Rt.IsHermitian) (hbest : UniqueBest Rt Rn)
    (hn' : ((c : ℂ) • Rn).PosDef) (ht' : ((c : ℂ) • Rt).IsHermitian) (ref : Fin C)
    (r r' : EigRes (Fin C)) (hr : eigh solver Rt (some Rn) 1e-15 = .ok r) (hg : IsGevd Rt Rn r.val r.vec)
    (hr' : eigh solver ((c : ℂ) • Rt) (some ((c : ℂ) • Rn)) 1e-15 = .ok r')
    (hg' : IsGevd ((c : ℂ) • Rt) ((c : ℂ) • Rn) r'.val r'.vec) :
    mvdrRtf solver ((c : ℂ) • Rt) ((c : ℂ) • Rn) ref none = mvdrRtf solver Rt Rn ref none := by
  obtain ⟨z, hz0, hz⟩ := best_gain Rt Rn c hc hn ht hbest r r' hg hg' hn' ht'
  have hc0 : (c : ℂ) ≠ 0 := by exact_mod_cast hc.ne'
  refine rtf_of_vector_gain Rt Rn solver _ hc0 _ none ref (fun k => r.vec k (Fin.rev 0)) (fun k => r'.vec k (Fin.rev 0)) z hz0 ?_ ?_ hz
  · unfold rtfVector
    simp only [hr]
    rfl
  · unfold rtfVector
    simp only [hr']
    rfl

lemma gevBf_gain [NeZero C] (solver) (c : ℝ) (hc : 0 < c) (hn : Rn.PosDef) (ht : Rt.IsHermitian) (hbest : UniqueBest Rt Rn)
    (hn' : ((c : ℂ) • Rn).PosDef) (ht' : ((c : ℂ) • Rt).IsHermitian) (ref : Fin C)
    (r r' : EigRes (Fin C)) (hr : eigh solver Rt (some Rn) 1e-15 = .ok r) (hg : IsGevd Rt Rn r.val r.vec)
    (hr' : eigh solver ((c : ℂ) • Rt) (some ((c : ℂ) • Rn)) 1e-15 = .ok r')
    (hg' : IsGevd ((c : ℂ) • Rt) ((c : ℂ) • Rn) r'.val r'.vec) :
    gevBf solver ((c : ℂ) • Rt) ((c : ℂ) • Rn) ref = gevBf solver Rt Rn ref := by
  obtain ⟨z, hz0, hz⟩ := best_gain Rt Rn c hc hn ht hbest r r' hg hg' hn' ht'
  have hc0 : (c : ℂ) ≠ 0 := by exact_mod_cast hc.ne'
  rw [gevBf_closed _ _ solver hn' ref r' hr' hg', gevBf_closed _ _ solver hn ref r hr hg]
  congr 1
  funext k
  rw [hz, Matrix.mulVec_smul, power_smul_vec, power_smul_mat, congrFun hz k, Matrix.smul_mulVec]
  simp only [Pi.smul_apply, smul_eq_mul, star_mul']
  have hzz : star z * z = ((‖z‖ ^ 2 : ℝ) : ℂ) := by rw [Complex.star_def, Complex.conj_mul', Complex.ofReal_pow]
  have h1 : ((‖z‖ ^ 2 : ℝ) : ℂ) ≠ 0 := by
    have := norm_pos_iff.2 hz0
    exact_mod_cast (by positivity : ‖z‖ ^ 2 ≠ 0)
  rw [Complex.ofReal_mul, Complex.ofReal_mul, ← hzz]
  rw [← hzz] at h1
  have h2 := left_ne_zero_of_mul h1
  field_simp

/-- With a reference entry of one and a noise power of at most `1 / (2 eps)`, the denominator of the MVDR filter exceeds `eps`. -/
lemma mvdr_denominator (R : Matrix (Fin C) (Fin C) ℂ) (hR : R.PosSemidef) (d : Fin C → ℂ) (ref : Fin C) (hd : d ref = 1) (eps : ℝ)
    (he : 0 < eps) (he1 : eps ≤ 1) (hb : Below (1 / (2 * eps)) R) (m : ℝ)
    (hm : IsGreatest (Set.range fun p : Fin C × Fin C => ‖R p.1 p.2‖) m) (h1 : 1 ≤ m) (a : Fin C → ℂ)
    (ha : (R + ((eps * m : ℝ) : ℂ) • (1 : Matrix (Fin C) (Fin C) ℂ)) *ᵥ a = d) : eps ≤ (∑ c, star (d c) * a c).re := by
  have hl : 0 < eps * m := by positivity
  set L := R + ((eps * m : ℝ) : ℂ) • (1 : Matrix (Fin C) (Fin C) ℂ) with hL
  have hpd : L.PosDef := Matrix.PosDef.posSemidef_add hR (posDef_load hl)
  have hmb : m ≤ 1 / (2 * eps) := by
    obtain ⟨⟨p, hp⟩, -⟩ := hm
    simp only at hp
    rw [← hp]
    exact hb _ _
  set e : Fin C → ℂ := Pi.single ref 1 with he0
  have hLe : power L e = (L ref ref).re := by
    unfold power
    rw [he0, Matrix.mulVec_single_one]
    simp [dotProduct, Pi.single_apply, apply_ite star]
  have hrr : (L ref ref).re ≤ 1 / eps := by
    have h2 : (L ref ref).re = (R ref ref).re + eps * m := by
      rw [hL]
      simp [Matrix.add_apply, Matrix.smul_apply]
    have h3 : (R ref ref).re ≤ m := (Complex.re_le_norm _).trans (hm.2 ⟨(ref, ref), rfl⟩)
    have h4 : 1 / (2 * eps) * 2 = 1 / eps := by field_simp
    rw [h2]
    nlinarith
  have hrp : 0 < (L ref ref).re := by
    have h2 := hpd.diag_pos (i := ref)
    exact (Complex.pos_iff.1 h2).1
  have hg : (∑ c, star (d c) * a c).re = power L a := by
    unfold power
    rw [ha, ← Complex.conj_re, ← Complex.star_def]
    congr 1
    simp only [dotProduct, star_sum, star_mul', star_star, Pi.star_apply]
    exact Finset.sum_congr rfl fun c _ => by ring
  rw [hg]
  set q := (L ref ref).re with hq
  have hpos := power_nonneg hpd.posSemidef (e + (-(q : ℂ)) • a)
  rw [power_add hpd.isHermitian, hLe, power_smul_vec] at hpos
  have hcross : (star ((-(q : ℂ)) • a) ⬝ᵥ L *ᵥ e).re = -q := by
    have h5 : star ((-(q : ℂ)) • a) ⬝ᵥ L *ᵥ e = -(q : ℂ) * (star a ⬝ᵥ L *ᵥ e) := by
      rw [star_smul, smul_dotProduct, smul_eq_mul]
      simp
    have h6 : star a ⬝ᵥ L *ᵥ e = 1 := by
      rw [herm_swap hpd.isHermitian, ha, he0]
      simp [dotProduct, Pi.single_apply, apply_ite star, hd]
    rw [h5, h6, mul_one]
    simp
  rw [hcross, norm_neg, Complex.norm_of_nonneg hrp.le] at hpos
  have h7 : 1 ≤ q * power L a := by
    have : 0 ≤ q * (q * power L a - 1) := by nlinarith
    have := nonneg_of_mul_nonneg_right this hrp
    linarith
  have h8 : 0 ≤ power L a := power_nonneg hpd.posSemidef a
  have h9 : eps * (1 / eps) = 1 := by field_simp
  have h10 : 1 ≤ 1 / eps * power L a := h7.trans (mul_le_mul_of_nonneg_right hrr h8)
  calc eps ≤ eps * (1 / eps * power L a) := by nlinarith
    _ = power L a := by rw [← mul_assoc, h9, one_mul]

lemma mvdrBf_gain (c : ℝ) (hc : 0 < c) (R : Matrix (Fin C) (Fin C) ℂ) (hR : R.PosSemidef) (hR' : ((c : ℂ) • R).PosSemidef)
    (d : Fin C → ℂ) (ref : Fin C) (hd : d ref = 1) (eps : ℝ) (he : 0 < eps) (he1 : eps ≤ 1)
    (h : Loud R) (h' : Loud ((c : ℂ) • R)) (hb : Below (1 / (2 * eps)) R) (hb' : Below (1 / (2 * eps)) ((c : ℂ) • R)) :
    mvdrBf ((c : ℂ) • R) d eps = mvdrBf R d eps := by
  have hc0 : (c : ℂ) ≠ 0 := by exact_mod_cast hc.ne'
  have key : ∀ R : Matrix (Fin C) (Fin C) ℂ, R.PosSemidef → Loud R → Below (1 / (2 * eps)) R →
      ∃ a : Matrix (Fin C) Unit ℂ, solveLoaded R (colVec d) eps = .ok a ∧ eps ≤ (∑ k, star (d k) * a k ()).re := by
    intro R hR h hb
    obtain ⟨m, hm, h1, hg, hcl⟩ := load_loud h he.le
    haveI : Nonempty (Fin C) := ⟨ref⟩
    obtain ⟨m', a, hg', ha, hs⟩ := solve_loaded_psd R hR (colVec d) eps he
    obtain rfl := hg.unique hg'
    rw [show max (eps * m) eps = eps * m from hcl] at hs
    refine ⟨a, ha, mvdr_denominator R hR d ref hd eps he he1 hb m hg h1 (fun k => a k ()) ?_⟩
    funext k
    have := congrFun (congrFun hs k) ()
    rw [Matrix.mul_apply] at this
    exact this
  obtain ⟨a, ha, hd1⟩ := key R hR h hb
  obtain ⟨a', ha', hd1'⟩ := key _ hR' h' hb'
  have hrel := solveLoaded_gain c hc R (colVec d) he.le h h'
  rw [ha, ha'] at hrel
  obtain rfl := Except.ok.inj hrel
  unfold mvdrBf
  rw [ha, ha']
  simp only [bind, Except.bind]
  rw [show clampMin (∑ k, star (d k) * ((c : ℂ)⁻¹ • a) k ()).re eps = _ from max_eq_left hd1',
    show clampMin (∑ k, star (d k) * a k ()).re eps = _ from max_eq_left hd1]
  rw [if_neg (by linarith), if_neg (by linarith)]
  simp only [pure, Except.pure]
  congr 1
  funext k
  have e : (∑ k, star (d k) * ((c : ℂ)⁻¹ • a) k ()).re = c⁻¹ * (∑ k, star (d k) * a k ()).re := by
    rw [← Complex.re_ofReal_mul, Finset.mul_sum]
    congr 1
    refine Finset.sum_congr rfl fun k _ => ?_
    simp only [Matrix.smul_apply, smul_eq_mul, Complex.ofReal_inv]
    ring
  rw [e]
  simp only [Matrix.smul_apply, smul_eq_mul, Complex.ofReal_mul, Complex.ofReal_inv]
  exact mul_div_mul_left _ _ (inv_ne_zero hc0)

end bf

/-! ## WPE -/

section wpe
variable {C F N T : ℕ}

/-- Delayed taps after a gain. -/
def gainTaps (α : Fin F → ℂ) (Xb : Taps C F T N) : Taps C F T N := fun c f t n => α f * Xb c f t n

lemma delayedTaps_past (X : Sig C F N) (T D : ℕ) (c : Fin C) (f : Fin F) (t : Fin T) (n : Fin N) :
    delayedTaps X T D c f t n = Torchiva.Spec.past (X c f) (D + T - t) n := xbarRow_eq _ _ _ _ _

lemma delayedTaps_gain (α : Fin F → ℂ) (X : Sig C F N) (T D : ℕ) : delayedTaps (gain α X) T D = gainTaps α (delayedTaps X T D) := by
  funext c f t n
  rw [gainTaps, delayedTaps_past, delayedTaps_past]
  unfold Torchiva.Spec.past gain
  split_ifs
  · rfl
  · rw [mul_zero]

private lemma gain_pair (z x y w : ℂ) : w * (z * x) * star (z * y) = ((‖z‖ ^ 2 : ℝ) : ℂ) * (w * x * star y) := by
  have : z * star z = ((‖z‖ ^ 2 : ℝ) : ℂ) := by rw [Complex.star_def, Complex.mul_conj', Complex.ofReal_pow]
  rw [← this, star_mul']
  ring

lemma wpeAcm_gain (α : Fin F → ℂ) (w : Fin F → Fin N → ℝ) (Xb : Taps C F T N) (f : Fin F) :
    wpeAcm w (gainTaps α Xb) f = ((‖α f‖ ^ 2 : ℝ) : ℂ) • wpeAcm w Xb f := by
  ext p q
  simp only [wpeAcm, gainTaps, Matrix.of_apply, Matrix.smul_apply, smul_eq_mul, Finset.mul_sum, gain_pair]

lemma wpeXcv_gain (α : Fin F → ℂ) (w : Fin F → Fin N → ℝ) (X : Sig C F N) (Xb : Taps C F T N) (f : Fin F) :
    wpeXcv w (gain α X) (gainTaps α Xb) f = ((‖α f‖ ^ 2 : ℝ) : ℂ) • wpeXcv w X Xb f := by
  ext p q
  simp only [wpeXcv, gainTaps, gain, Matrix.of_apply, Matrix.smul_apply, smul_eq_mul, Finset.mul_sum, gain_pair]

lemma wpeDerev_gain (α : Fin F → ℂ) (H : Fin F → Matrix (Fin C × Fin T) (Fin C) ℂ) (X : Sig C F N) (Xb : Taps C F T N) :
    wpeDerev H (gain α X) (gainTaps α Xb) = gain α (wpeDerev H X Xb) := by
  funext s f n
  simp only [wpeDerev, gain, gainTaps, mul_sub, Finset.mul_sum]
  congr 1
  exact Finset.sum_congr rfl fun c _ => Finset.sum_congr rfl fun t _ => by ring

lemma wpeFilter_gain (α : Fin F → ℂ) (hα : ∀ f, α f ≠ 0) (w : Fin F → Fin N → ℝ) (X : Sig C F N) (Xb : Taps C F T N) (eps : ℝ)
    (he : 0 ≤ eps) (h : ∀ f, Loud (wpeAcm w Xb f)) (h' : ∀ f, Loud (wpeAcm w (gainTaps α Xb) f)) :
    wpeFilter w (gain α X) (gainTaps α Xb) eps = wpeFilter w X Xb eps := by
  unfold wpeFilter
  congr 1
  funext f
  have hc : 0 < ‖α f‖ ^ 2 := by have := norm_pos_iff.2 (hα f); positivity
  have h2 := h' f
  rw [wpeAcm_gain] at h2
  rw [wpeAcm_gain, wpeXcv_gain, solveLoaded_gain_both _ hc _ _ he (h f) h2]

/-- The weights when no frame is weak. -/
lemma wpeDefaultWeights_idle (Y : Sig C F N) (eps : ℝ) (he : 0 < eps) (h : ∀ f n, eps ≤ avgPower Y f n) :
    wpeDefaultWeights Y eps = .ok fun f n => 1 / avgPower Y f n / ∑ n, 1 / avgPower Y f n := by
  have e : ∀ f n, clampMin ((∑ c, magSq (Y c f n)) / C) eps = avgPower Y f n := by
    intro f n
    have : (∑ c, magSq (Y c f n)) / C = avgPower Y f n := by
      unfold avgPower
      simp only [magSq_eq]
    rw [this]
    exact max_eq_left (h f n)
  unfold wpeDefaultWeights
  simp only [e]
  refine if_neg ?_
  rintro ⟨⟨f, n⟩, h0 | h0⟩
  · have := h f n
    simp only at h0
    linarith
  · have : 0 < ∑ n, 1 / avgPower Y f n := by
      refine Finset.sum_pos (fun n _ => ?_) ⟨n, Finset.mem_univ _⟩
      have := h f n
      have : 0 < avgPower Y f n := by linarith
      positivity
    simp only at h0
    linarith

lemma avgPower_gain (α : Fin F → ℂ) (Y : Sig C F N) (f : Fin F) (n : Fin N) : avgPower (gain α Y) f n = ‖α f‖ ^ 2 * avgPower Y f n := by
  simp only [avgPower, gain, norm_mul, mul_pow, ← Finset.mul_sum, mul_div_assoc]

lemma idleWeights_gain (α : Fin F → ℂ) (hα : ∀ f, α f ≠ 0) (Y : Sig C F N) (f : Fin F) (n : Fin N) :
    1 / avgPower (gain α Y) f n / (∑ n, 1 / avgPower (gain α Y) f n) = 1 / avgPower Y f n / ∑ n, 1 / avgPower Y f n := by
  have hc : ‖α f‖ ^ 2 ≠ 0 := by have := norm_pos_iff.2 (hα f); positivity
  simp only [avgPower_gain, one_div, mul_inv, ← Finset.mul_sum]
  exact mul_div_mul_left _ _ (inv_ne_zero hc)

lemma loud_of_idle [NeZero N] {T D : ℕ} {eps : ℝ} (he : 0 < eps) {X Y : Sig C F N} (h : WpeIdle T D eps X Y) (f : Fin F) :
    Loud (wpeAcm (fun f n => 1 / avgPower Y f n / ∑ n, 1 / avgPower Y f n) (delayedTaps X T D) f) := by
  obtain ⟨h1, h2⟩ := h
  obtain ⟨c, δ, hd1, hd2, hp⟩ := h2 f
  have hpos : 0 < ∑ n, 1 / avgPower Y f n := by
    refine Finset.sum_pos (fun n _ => ?_) ⟨0, Finset.mem_univ _⟩
    have := h1 f n
    have : 0 < avgPower Y f n := by linarith
    positivity
  have hT : D + T - δ < T := by omega
  refine ⟨(c, ⟨D + T - δ, hT⟩), (c, ⟨D + T - δ, hT⟩), ?_⟩
  have e : wpeAcm (fun f n => 1 / avgPower Y f n / ∑ n, 1 / avgPower Y f n) (delayedTaps X T D) f
      (c, ⟨D + T - δ, hT⟩) (c, ⟨D + T - δ, hT⟩)
      = (((∑ n, 1 / avgPower Y f n * ‖Torchiva.Spec.past (X c f) δ n‖ ^ 2) / ∑ n, 1 / avgPower Y f n : ℝ) : ℂ) := by
    simp only [wpeAcm, Matrix.of_apply, delayedTaps_past]
    rw [show D + T - (D + T - δ) = δ by omega]
    rw [Finset.sum_div, Complex.ofReal_sum]
    refine Finset.sum_congr rfl fun n _ => ?_
    rw [mul_assoc, Complex.star_def, Complex.mul_conj']
    push_cast
    ring
  rw [e, Complex.norm_real, Real.norm_eq_abs]
  refine le_trans ?_ (le_abs_self _)
  rwa [le_div_iff₀ hpos, one_mul]

/-- One iteration commutes with the gain. -/
lemma wpeStep_gain {σ : Type} [NeZero N] (α : Fin F → ℂ) (hα : ∀ f, α f ≠ 0) (T D : ℕ) (eps : ℝ) (he : 0 < eps) (X : Sig C F N)
    (st : WpeState σ C F N) (h : WpeIdle T D eps X st.Y) (h' : WpeIdle T D eps (gain α X) (gain α st.Y)) :
    wpeStep (gain α X) (delayedTaps (gain α X) T D) none eps ⟨gain α st.Y, st.ms⟩
      = (wpeStep X (delayedTaps X T D) none eps st).map fun st => ⟨gain α st.Y, st.ms⟩ := by
  unfold wpeStep
  simp only
  rw [wpeDefaultWeights_idle _ eps he h.1, wpeDefaultWeights_idle _ eps he h'.1]
  have hw : (fun f n => 1 / avgPower (gain α st.Y) f n / ∑ n, 1 / avgPower (gain α st.Y) f n)
      = fun f n => 1 / avgPower st.Y f n / ∑ n, 1 / avgPower st.Y f n := by
    funext f n
    exact idleWeights_gain α hα st.Y f n
  have hl := loud_of_idle he h
  have hl' := loud_of_idle he h'
  rw [hw] at hl' ⊢
  rw [delayedTaps_gain] at hl' ⊢
  simp only [Except.map, bind, Except.bind]
  rw [wpeFilter_gain α hα _ X _ eps he.le hl hl']
  generalize wpeFilter _ X (delayedTaps X T D) eps = r
  cases r with
  | error e => rfl
  | ok H =>
    simp only [pure, Except.pure, wpeDerev_gain]

end wpe

end Torchiva
