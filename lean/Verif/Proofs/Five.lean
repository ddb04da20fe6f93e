import Verif.Model.Five
import Verif.Spec.Five
import Verif.Proofs.EigN
import Verif.Proofs.Eig2
import Verif.Proofs.TIssCost
import Verif.Props.Linalg

/-! # Helper lemmas for FIVE -/

namespace Torchiva

open Matrix Spec

variable {C F N : ℕ}

/-- `∑ₙ wₙ x xᴴ`. -/
noncomputable def wgram (x : Fin C → Fin N → ℂ) (w : Fin N → ℝ) : Matrix (Fin C) (Fin C) ℂ :=
  Matrix.of fun c d => ∑ n, (w n : ℂ) * x c n * star (x d n)

lemma wgram_herm (x : Fin C → Fin N → ℂ) (w : Fin N → ℝ) : (wgram x w)ᴴ = wgram x w := by
  ext c d
  simp only [wgram, Matrix.conjTranspose_apply, Matrix.of_apply, star_sum, star_mul', star_star]
  refine Finset.sum_congr rfl fun n _ => ?_
  simp only [Complex.star_def, Complex.conj_ofReal]
  ring

lemma fiveWCov_eq (x : Fin C → Fin N → ℂ) (w : Fin N → ℝ) : fiveWCov x w = wgram x w := by
  unfold fiveWCov
  simp only
  rw [show (Matrix.of fun c d => ∑ n, (w n : ℂ) * x c n * star (x d n) : Matrix (Fin C) (Fin C) ℂ)
    = wgram x w from rfl, wgram_herm]
  ext c d
  simp only [Matrix.smul_apply, Matrix.add_apply, smul_eq_mul]
  ring

lemma fiveCov_eq (x : Fin C → Fin N → ℂ) : fiveCov x = ((1 / N : ℝ) : ℂ) • wgram x fun _ => 1 := by
  have h : (Matrix.of fun c d => (∑ n, x c n * star (x d n)) / N : Matrix (Fin C) (Fin C) ℂ)
      = ((1 / N : ℝ) : ℂ) • wgram x fun _ => 1 := by
    ext c d
    simp only [wgram, Matrix.of_apply, Matrix.smul_apply, smul_eq_mul, Complex.ofReal_one, one_mul]
    push_cast
    ring
  unfold fiveCov
  simp only
  rw [h, Matrix.conjTranspose_smul, wgram_herm]
  ext c d
  simp only [Matrix.smul_apply, Matrix.add_apply, smul_eq_mul, Complex.star_def, Complex.conj_ofReal]
  ring

lemma fiveCov_herm (x : Fin C → Fin N → ℂ) : (fiveCov x).IsHermitian := by
  unfold Matrix.IsHermitian
  rw [fiveCov_eq, Matrix.conjTranspose_smul, wgram_herm, Complex.star_def, Complex.conj_ofReal]

lemma wgram_form (x : Fin C → Fin N → ℂ) (w : Fin N → ℝ) (u v : Fin C → ℂ) :
    star u ⬝ᵥ wgram x w *ᵥ v = ∑ n, (w n : ℂ) * filt u x n * star (filt v x n) := by
  simp only [dotProduct, mulVec, wgram, Matrix.of_apply, Pi.star_apply, filt, star_sum, star_mul', star_star,
    Finset.sum_mul, Finset.mul_sum]
  have : ∀ n : Fin N, (∑ i, ∑ j, (w n : ℂ) * (star (u j) * x j n) * (v i * star (x i n)))
      = ∑ j, ∑ i, (w n : ℂ) * (star (u j) * x j n) * (v i * star (x i n)) := fun n => Finset.sum_comm
  simp only [this]
  symm
  rw [Finset.sum_comm]
  refine Finset.sum_congr rfl fun c _ => ?_
  rw [Finset.sum_comm]
  refine Finset.sum_congr rfl fun d _ => ?_
  exact Finset.sum_congr rfl fun n _ => by ring

lemma wgram_power (x : Fin C → Fin N → ℂ) (w : Fin N → ℝ) (u : Fin C → ℂ) :
    power (wgram x w) u = wPower w (filt u x) := by
  unfold power wPower
  rw [wgram_form, Complex.re_sum]
  refine Finset.sum_congr rfl fun n _ => ?_
  rw [mul_assoc, Complex.star_def, Complex.mul_conj', ← Complex.ofReal_pow, ← Complex.ofReal_mul, Complex.ofReal_re]

lemma fiveCov_form (x : Fin C → Fin N → ℂ) (u : Fin C → ℂ) :
    star u ⬝ᵥ fiveCov x *ᵥ u = ((meanPower (filt u x) : ℝ) : ℂ) := by
  rw [fiveCov_eq, Matrix.smul_mulVec, dotProduct_smul, wgram_form, smul_eq_mul]
  unfold meanPower
  push_cast
  rw [one_div, ← div_eq_inv_mul]
  congr 1
  refine Finset.sum_congr rfl fun n _ => ?_
  rw [one_mul, Complex.star_def, Complex.mul_conj']

lemma fiveCov_power (x : Fin C → Fin N → ℂ) (u : Fin C → ℂ) :
    power (fiveCov x) u = meanPower (filt u x) := by
  unfold power
  rw [fiveCov_form, Complex.ofReal_re]

lemma fiveCov_row (x : Fin C → Fin N → ℂ) (u : Fin C → ℂ) (r : Fin C) :
    (fiveCov x *ᵥ u) r = xcorr (x r) (filt u x) := by
  rw [fiveCov_eq, Matrix.smul_mulVec, Pi.smul_apply, smul_eq_mul]
  simp only [mulVec, dotProduct, wgram, Matrix.of_apply, Complex.ofReal_one, one_mul, xcorr, filt, star_sum,
    star_mul', star_star]
  push_cast
  rw [one_div, ← div_eq_inv_mul]
  congr 1
  simp only [Finset.sum_mul, Finset.mul_sum]
  rw [Finset.sum_comm]
  exact Finset.sum_congr rfl fun n _ => Finset.sum_congr rfl fun c _ => by ring

/-- Power of a unit vector in the eigenbasis. -/
lemma power_coords {V E : Matrix (Fin C) (Fin C) ℂ} {d : Fin C → ℝ} (ho : Eᴴ * E = 1)
    (he : V * E = E * diagonal (fun i => (d i : ℂ))) (t : Fin C → ℂ) (ht : star t ⬝ᵥ t = 1) :
    ∃ p : Fin C → ℝ, (∀ i, 0 ≤ p i) ∧ ∑ i, p i = 1 ∧ power V t = ∑ i, d i * p i := by
  have ho' : E * Eᴴ = 1 := mul_eq_one_comm.1 ho
  set c := Eᴴ *ᵥ t with hcdef
  have htE : t = E *ᵥ c := by rw [hcdef, Matrix.mulVec_mulVec, ho', Matrix.one_mulVec]
  have h1 : star t ⬝ᵥ V *ᵥ t = ((∑ i, d i * ‖c i‖ ^ 2 : ℝ) : ℂ) := by
    have e1 : V *ᵥ t = E *ᵥ (diagonal (fun i => (d i : ℂ)) *ᵥ c) := by
      rw [htE, Matrix.mulVec_mulVec, he, ← Matrix.mulVec_mulVec]
    have e2 : star t ᵥ* E = star c := by
      rw [hcdef, Matrix.star_mulVec, Matrix.conjTranspose_conjTranspose]
    rw [e1, Matrix.dotProduct_mulVec, e2]
    simp only [dotProduct, Pi.star_apply, Matrix.mulVec_diagonal]
    push_cast
    refine Finset.sum_congr rfl fun i _ => ?_
    rw [mul_comm (star (c i)), mul_assoc, Complex.star_def, Complex.mul_conj']
  have h2 : ∑ i, ‖c i‖ ^ 2 = 1 := by
    have : star c ⬝ᵥ c = 1 := by
      rw [← ht]
      rw [hcdef, Matrix.star_mulVec, Matrix.conjTranspose_conjTranspose, Matrix.dotProduct_mulVec,
        Matrix.vecMul_vecMul, ho', Matrix.vecMul_one]
    have h3 : ((∑ i, ‖c i‖ ^ 2 : ℝ) : ℂ) = 1 := by
      rw [← this]
      push_cast
      simp only [dotProduct, Pi.star_apply]
      refine Finset.sum_congr rfl fun i _ => ?_
      rw [mul_comm, Complex.star_def, Complex.mul_conj']
    exact_mod_cast h3
  refine ⟨fun i => ‖c i‖ ^ 2, fun i => by positivity, h2, ?_⟩
  unfold power
  rw [h1, Complex.ofReal_re]

/-- The first column of an ascending orthonormal eigendecomposition minimises the power among unit vectors. -/
lemma solver_min [NeZero C] {solver} (hc : EighContract C solver) {V : Matrix (Fin C) (Fin C) ℂ}
    (hV : V.IsHermitian) (t : Fin C → ℂ) (ht : star t ⬝ᵥ t = 1) :
    power V (fun c => (solver V).vec c 0) ≤ power V t := by
  have hmono : Monotone (solver V).val := hc.ascending V hV
  obtain ⟨p, hp0, hp1, hp⟩ := power_coords (hc.orthonormal V hV) (hc.eigen V hV) t ht
  rw [power_eigvec (hc.orthonormal V hV) (hc.eigen V hV) 0, hp]
  calc (solver V).val 0 = ∑ i, (solver V).val 0 * p i := by rw [← Finset.mul_sum, hp1, mul_one]
    _ ≤ _ := Finset.sum_le_sum fun i _ => mul_le_mul_of_nonneg_right (hmono (Fin.zero_le i)) (hp0 i)

/-- The last column maximises it. -/
lemma solver_max [NeZero C] {solver} (hc : EighContract C solver) {V : Matrix (Fin C) (Fin C) ℂ}
    (hV : V.IsHermitian) (t : Fin C → ℂ) (ht : star t ⬝ᵥ t = 1) :
    power V t ≤ power V (fun c => (solver V).vec c (Fin.rev 0)) := by
  have hmono : Monotone (solver V).val := hc.ascending V hV
  obtain ⟨p, hp0, hp1, hp⟩ := power_coords (hc.orthonormal V hV) (hc.eigen V hV) t ht
  rw [power_eigvec (hc.orthonormal V hV) (hc.eigen V hV) (Fin.rev 0), hp]
  calc _ ≤ ∑ i, (solver V).val (Fin.rev 0) * p i := Finset.sum_le_sum fun i _ =>
        mul_le_mul_of_nonneg_right (hmono (by rw [Fin.le_rev_iff]; exact Fin.zero_le _)) (hp0 i)
    _ = _ := by rw [← Finset.mul_sum, hp1, mul_one]

lemma dot_self_eq_one (t : Fin C → ℂ) : star t ⬝ᵥ t = 1 ↔ ∑ c, ‖t c‖ ^ 2 = 1 := by
  have : star t ⬝ᵥ t = ((∑ c, ‖t c‖ ^ 2 : ℝ) : ℂ) := by
    push_cast
    simp only [dotProduct, Pi.star_apply]
    exact Finset.sum_congr rfl fun i _ => by rw [Complex.star_def, Complex.conj_mul']
  rw [this]
  exact_mod_cast Iff.rfl

/-- Whitening: algebra of `Q` and `Qinv`. -/
lemma whiten_spec (hC : C ≠ 2) {solver} (hc : EighContract C solver) {Cx : Matrix (Fin C) (Fin C) ℂ}
    (hCx : Cx.IsHermitian) :
    ∃ wh, fiveWhiten solver Cx = .ok wh ∧ wh.Qinv * wh.Q = 1 ∧ wh.Q * wh.Qinv = 1 ∧
      ((∀ v, 1e-5 * ∑ k, ‖v k‖ ^ 2 ≤ power Cx v) → wh.Q * Cx * wh.Qᴴ = 1 ∧ Cx * wh.Qᴴ = wh.Qinv) := by
  set E : Matrix (Fin C) (Fin C) ℂ := Matrix.of fun i j => (solver Cx).vec i (Fin.rev j) with hE
  set d : Fin C → ℝ := fun i => (solver Cx).val i.rev with hd
  set s : Fin C → ℝ := fun i => √(clampMin (d i) 1e-5) with hs
  have hs0 : ∀ i, 0 < s i := fun i => Real.sqrt_pos.2 (lt_of_lt_of_le (by norm_num) (le_max_right _ _))
  have ho : Eᴴ * E = 1 := by
    ext i j
    have := congrFun (congrFun (hc.orthonormal Cx hCx) i.rev) j.rev
    rw [Matrix.mul_apply] at this ⊢
    simp only [Matrix.conjTranspose_apply, hE, Matrix.of_apply] at this ⊢
    rw [this]
    simp [Matrix.one_apply]
  have ho' : E * Eᴴ = 1 := mul_eq_one_comm.1 ho
  have he : Cx * E = E * diagonal (fun i => (d i : ℂ)) := by
    ext i j
    have := congrFun (congrFun (hc.eigen Cx hCx) i) j.rev
    rw [Matrix.mul_diagonal, Matrix.mul_apply] at this ⊢
    simp only [hE, Matrix.of_apply] at this ⊢
    exact this
  have hQ : (Matrix.of fun i j => ((1 / s i : ℝ) : ℂ) * Eᴴ i j : Matrix (Fin C) (Fin C) ℂ)
      = diagonal (fun i => ((1 / s i : ℝ) : ℂ)) * Eᴴ := by
    ext i j; rw [Matrix.diagonal_mul]; rfl
  have hQi : (Matrix.of fun i j => E i j * (s j : ℂ) : Matrix (Fin C) (Fin C) ℂ)
      = E * diagonal (fun i => (s i : ℂ)) := by
    ext i j; rw [Matrix.mul_diagonal]; rfl
  have hdd : (diagonal (fun i => (s i : ℂ)) : Matrix (Fin C) (Fin C) ℂ) * diagonal (fun i => ((1 / s i : ℝ) : ℂ)) = 1 := by
    rw [Matrix.diagonal_mul_diagonal, ← Matrix.diagonal_one]
    congr 1
    funext i
    have : (s i : ℂ) ≠ 0 := by exact_mod_cast (hs0 i).ne'
    push_cast
    field_simp
  have h1 : (E * diagonal (fun i => (s i : ℂ))) * (diagonal (fun i => ((1 / s i : ℝ) : ℂ)) * Eᴴ) = 1 := by
    rw [Matrix.mul_assoc, ← Matrix.mul_assoc (diagonal _), hdd, Matrix.one_mul, ho']
  refine ⟨⟨Matrix.of fun i j => ((1 / s i : ℝ) : ℂ) * Eᴴ i j, Matrix.of fun i j => E i j * (s j : ℂ)⟩,
    ?_, ?_, ?_, ?_⟩
  rotate_left
  · show (Matrix.of fun i j => E i j * (s j : ℂ) : Matrix (Fin C) (Fin C) ℂ)
      * (Matrix.of fun i j => ((1 / s i : ℝ) : ℂ) * Eᴴ i j : Matrix (Fin C) (Fin C) ℂ) = 1
    rw [hQ, hQi, h1]
  · show (Matrix.of fun i j => ((1 / s i : ℝ) : ℂ) * Eᴴ i j : Matrix (Fin C) (Fin C) ℂ)
      * (Matrix.of fun i j => E i j * (s j : ℂ) : Matrix (Fin C) (Fin C) ℂ) = 1
    rw [hQ, hQi]
    exact mul_eq_one_comm.1 h1
  · intro hm
    show (Matrix.of fun i j => ((1 / s i : ℝ) : ℂ) * Eᴴ i j : Matrix (Fin C) (Fin C) ℂ) * Cx
        * (Matrix.of fun i j => ((1 / s i : ℝ) : ℂ) * Eᴴ i j : Matrix (Fin C) (Fin C) ℂ)ᴴ = 1 ∧
      Cx * (Matrix.of fun i j => ((1 / s i : ℝ) : ℂ) * Eᴴ i j : Matrix (Fin C) (Fin C) ℂ)ᴴ
        = (Matrix.of fun i j => E i j * (s j : ℂ) : Matrix (Fin C) (Fin C) ℂ)
    have hds : ∀ i, d i = s i ^ 2 := by
      intro i
      have hdi : 1e-5 ≤ d i := solver_val_ge hc hCx hm i.rev
      simp only [hs, clampMin]
      rw [max_eq_left hdi, Real.sq_sqrt (le_trans (by norm_num) hdi)]
    have h2 : Cx * (diagonal (fun i => ((1 / s i : ℝ) : ℂ)) * Eᴴ)ᴴ = E * diagonal (fun i => (s i : ℂ)) := by
      rw [Matrix.conjTranspose_mul, Matrix.conjTranspose_conjTranspose, Matrix.diagonal_conjTranspose,
        ← Matrix.mul_assoc, he, Matrix.mul_assoc, Matrix.diagonal_mul_diagonal]
      congr 2
      funext i
      have : (s i : ℂ) ≠ 0 := by exact_mod_cast (hs0 i).ne'
      simp only [Pi.star_apply, Complex.star_def, Complex.conj_ofReal]
      rw [hds]
      push_cast
      field_simp
    rw [hQ, hQi]
    refine ⟨?_, h2⟩
    rw [Matrix.mul_assoc, h2]
    exact mul_eq_one_comm.1 h1
  · unfold fiveWhiten
    simp only [eigh, hC, dif_neg, not_false_eq_true]
    rfl

/-- The first whitened channel is the principal component scaled to unit power. -/
lemma whiten_first [NeZero C] (hC : C ≠ 2) {solver} (hc : EighContract C solver) {x : Fin C → Fin N → ℂ}
    (hm : ∀ v, 1e-5 * ∑ k, ‖v k‖ ^ 2 ≤ power (fiveCov x) v) {wh} (h : fiveWhiten solver (fiveCov x) = .ok wh) :
    IsPrincipal x (fun c => star (wh.Q 0 c)) := by
  have hH := fiveCov_herm x
  unfold fiveWhiten at h
  simp only [eigh, hC, dif_neg, not_false_eq_true, bind, Except.bind, pure, Except.pure, Except.ok.injEq] at h
  set v : Fin C → ℂ := fun c => (solver (fiveCov x)).vec c (Fin.rev 0) with hv
  have hpv : meanPower (filt v x) = (solver (fiveCov x)).val (Fin.rev 0) := by
    rw [← fiveCov_power]
    exact power_eigvec (hc.orthonormal _ hH) (hc.eigen _ hH) (Fin.rev 0)
  refine ⟨v, orthonormal_col (hc.orthonormal _ hH) _, fun t ht => ?_, ?_⟩
  · rw [← fiveCov_power, ← fiveCov_power]
    exact solver_max hc hH t ((dot_self_eq_one t).2 ht)
  · funext c
    rw [← h, hpv]
    simp only [Matrix.of_apply, Matrix.conjTranspose_apply, star_mul', star_star, clampMin]
    rw [max_eq_left (solver_val_ge hc hH hm _), Complex.star_def, Complex.conj_ofReal]
    push_cast
    ring

/-- One iteration at one frequency, in terms of the unwhitened signal. -/
lemma five_step [NeZero C] (x : Fin C → Fin N → ℂ) (w : Fin N → ℝ) (wh : Whiten C)
    (h1 : wh.Qinv * wh.Q = 1) (h2 : wh.Q * fiveCov x * wh.Qᴴ = 1) (h3 : fiveCov x * wh.Qᴴ = wh.Qinv)
    (ref : Fin C) (ev : Fin C → ℂ) (hev : star ev ⬝ᵥ ev = 1)
    (hmin : ∀ t, star t ⬝ᵥ t = 1 →
      power (wgram (fun c n => ∑ d, wh.Q c d * x d n) w) ev ≤ power (wgram (fun c n => ∑ d, wh.Q c d * x d n) w) t) :
    IsExtractor x w (wh.Qᴴ *ᵥ ev) ∧ ∀ n,
      ∑ c, star (ev c * star (∑ c, wh.Qinv ref c * ev c)) * ∑ d, wh.Q c d * x d n
        = xcorr (x ref) (filt (wh.Qᴴ *ᵥ ev) x) * filt (wh.Qᴴ *ᵥ ev) x n := by
  have hf : ∀ (t : Fin C → ℂ), filt t (fun c n => ∑ d, wh.Q c d * x d n) = filt (wh.Qᴴ *ᵥ t) x := by
    intro t
    funext n
    simp only [filt, mulVec, dotProduct, Matrix.conjTranspose_apply, star_sum, star_mul', star_star,
      Finset.mul_sum, Finset.sum_mul]
    rw [Finset.sum_comm]
    exact Finset.sum_congr rfl fun d _ => Finset.sum_congr rfl fun c _ => by ring
  have hmp : ∀ t : Fin C → ℂ, star t ⬝ᵥ t = ((meanPower (filt (wh.Qᴴ *ᵥ t) x) : ℝ) : ℂ) := by
    intro t
    rw [← fiveCov_form, Matrix.star_mulVec, Matrix.conjTranspose_conjTranspose, ← Matrix.dotProduct_mulVec,
      Matrix.mulVec_mulVec, Matrix.mulVec_mulVec, h2, Matrix.one_mulVec]
  refine ⟨⟨?_, fun v hv => ?_⟩, fun n => ?_⟩
  · have := hmp ev
    rw [hev] at this
    exact_mod_cast this.symm
  · have hQ : wh.Qᴴ *ᵥ (wh.Qinvᴴ *ᵥ v) = v := by
      rw [Matrix.mulVec_mulVec, ← Matrix.conjTranspose_mul, h1, Matrix.conjTranspose_one, Matrix.one_mulVec]
    have ht : star (wh.Qinvᴴ *ᵥ v) ⬝ᵥ (wh.Qinvᴴ *ᵥ v) = 1 := by rw [hmp, hQ, hv]; simp
    have := hmin _ ht
    rw [wgram_power, wgram_power, hf, hf, hQ] at this
    exact this
  · have hz : ∑ c, wh.Qinv ref c * ev c = xcorr (x ref) (filt (wh.Qᴴ *ᵥ ev) x) := by
      rw [← fiveCov_row, Matrix.mulVec_mulVec, h3]
      rfl
    rw [hz, ← hf]
    simp only [star_mul', star_star, filt, Finset.mul_sum]
    exact Finset.sum_congr rfl fun c _ => Finset.sum_congr rfl fun d _ => by ring

/-- One iteration at one frequency with the exact eigenvector solver. -/
lemma five_step_solver [NeZero C] {solver} (hc : EighContract C solver) (x : Fin C → Fin N → ℂ) (w : Fin N → ℝ)
    (wh : Whiten C) (h1 : wh.Qinv * wh.Q = 1) (h2 : wh.Q * fiveCov x * wh.Qᴴ = 1) (h3 : fiveCov x * wh.Qᴴ = wh.Qinv)
    (ref : Fin C) :
    ∃ u, IsExtractor x w u ∧ ∀ n,
      ∑ c, star (smallestEigh solver (fiveWCov (fun c n => ∑ d, wh.Q c d * x d n) w) c
        * star (∑ c, wh.Qinv ref c * smallestEigh solver (fiveWCov (fun c n => ∑ d, wh.Q c d * x d n) w) c))
        * ∑ d, wh.Q c d * x d n = xcorr (x ref) (filt u x) * filt u x n := by
  have hVe := fiveWCov_eq (fun c n => ∑ d, wh.Q c d * x d n) w
  have hVh := wgram_herm (fun c n => ∑ d, wh.Q c d * x d n) w
  rw [hVe]
  have ho : ∑ c, ‖smallestEigh solver (wgram (fun c n => ∑ d, wh.Q c d * x d n) w) c‖ ^ 2 = 1 :=
    orthonormal_col (hc.orthonormal _ hVh) 0
  have hf := five_step x w wh h1 h2 h3 ref (smallestEigh solver (wgram (fun c n => ∑ d, wh.Q c d * x d n) w))
    ((dot_self_eq_one _).2 ho) (fun t ht => solver_min hc hVh t ht)
  exact ⟨_, hf.1, hf.2⟩

end Torchiva
