import Verif.Model.AuxIva
import Verif.Spec.TIss
import Verif.Proofs.TIssCost
import Verif.Props.Linalg
import Verif.Proofs.Demo
import Verif.Proofs.Eig2

/-!
# Properties C17, C19-C22: AuxIVA-IP
-/

namespace Torchiva.Props

open Torchiva Matrix Spec

variable {σ : Type} {s C F N : ℕ}

/-! ## C22 orthogonal constraint -/

/-- **C22.** Square: no background. -/
theorem orthogonal_constraint_square (W : Matrix (Fin C) (Fin C) ℂ) (Cx : Matrix (Fin C) (Fin C) ℂ)
    (load : ℝ) : orthogonalConstraint W Cx load = .ok none := by
  simp [orthogonalConstraint]

/-- **C22.** More rows than channels are rejected. -/
theorem orthogonal_constraint_rejects (h : C < s) (W : Matrix (Fin s) (Fin C) ℂ)
    (Cx : Matrix (Fin C) (Fin C) ℂ) (load : ℝ) :
    orthogonalConstraint W Cx load = .error .valueError := by
  unfold orthogonalConstraint
  rw [dif_neg (by omega), dif_pos h]

/-- Three rows for two channels. -/
example : orthogonalConstraint (Demo.demix 3 2) (inputCov (Demo.sig 2 1 4) 0) 1e-5 = .error .valueError :=
  orthogonal_constraint_rejects (by norm_num) _ _ _

private lemma ortho_over (hs : s < C) (W : Matrix (Fin s) (Fin C) ℂ) (Cx : Matrix (Fin C) (Fin C) ℂ)
    (load : ℝ) (hl : 0 < load) :
    ∃ J, orthogonalConstraint W Cx load = .ok (some J) ∧ ∀ b : Fin (C - s),
      IsUniqueMin (ridgeCost
        (fun k => 1 / max (l2 fun d : Fin s => (W * Cx) k (Fin.castLE hs.le d)) load)
        (Matrix.of fun (k : Fin s) (d : Fin s) => (W * Cx) k (Fin.castLE hs.le d))
        (fun k => (W * Cx) k ⟨s + b, by omega⟩) load) (fun d => star (J b d)) := by
  obtain ⟨x, hx, hm⟩ := solve_loaded_general_ridge
    (Matrix.of fun (k : Fin s) (d : Fin s) => (W * Cx) k (Fin.castLE hs.le d))
    (Matrix.of fun (k : Fin s) (d : Fin (C - s)) => (W * Cx) k ⟨s + d, by omega⟩) load load hl
  refine ⟨xᴴ, ?_, fun b => ?_⟩
  · unfold orthogonalConstraint
    rw [dif_neg (by omega), dif_neg (by omega)]
    simp only [hx]
    rfl
  · have := hm b
    simp only [Matrix.conjTranspose_apply, star_star]
    exact this

/-- **C22.** With fewer sources than channels and the sample covariance of the input, the returned row
for background channel `b` is the unique minimiser of
`∑ₖ (|corr(yₖ, j·x₁ - x_b)| / max ‖A k‖ load)² + load ‖j‖²` with `y = W x`. -/
theorem orthogonal_constraint_uncorrelated (hs : s < C) (W : Matrix (Fin s) (Fin C) ℂ) (X : Sig C F N)
    (f : Fin F) (load : ℝ) (hl : 0 < load) :
    ∃ J, orthogonalConstraint W (inputCov X f) load = .ok (some J) ∧ ∀ b : Fin (C - s),
      let y : Fin s → Fin N → ℂ := fun k n => ∑ c, W k c * X c f n
      IsUniqueMin (fun j : Fin s → ℂ =>
        ∑ k, (1 / max (l2 fun d : Fin s => corr (y k) (X (Fin.castLE hs.le d) f)) load) ^ 2
            * ‖corr (y k) (fun n => (∑ d, j d * X (Fin.castLE hs.le d) f n) - X ⟨s + b, by omega⟩ f n)‖ ^ 2
          + load * ∑ d, ‖j d‖ ^ 2) (J b) := by
  obtain ⟨J, hJ, hm⟩ := ortho_over hs W (inputCov X f) load hl
  refine ⟨J, hJ, ?_⟩
  intro b y
  have hA : ∀ (k : Fin s) (d : Fin C), (W * inputCov X f) k d = corr (y k) (X d f) := by
    intro k d
    simp only [Matrix.mul_apply, inputCov, Matrix.of_apply, corr, y, Finset.sum_mul, mul_div_assoc']
    rw [← Finset.sum_div]
    congr 1
    rw [Finset.sum_comm]
    exact Finset.sum_congr rfl fun c _ => by
      rw [Finset.mul_sum]; exact Finset.sum_congr rfl fun n _ => by ring
  have hcost : ∀ j : Fin s → ℂ, ridgeCost
        (fun k => 1 / max (l2 fun d : Fin s => (W * inputCov X f) k (Fin.castLE hs.le d)) load)
        (Matrix.of fun (k : Fin s) (d : Fin s) => (W * inputCov X f) k (Fin.castLE hs.le d))
        (fun k => (W * inputCov X f) k ⟨s + b, by omega⟩) load (fun d => star (j d))
      = ∑ k, (1 / max (l2 fun d : Fin s => corr (y k) (X (Fin.castLE hs.le d) f)) load) ^ 2
            * ‖corr (y k) (fun n => (∑ d, j d * X (Fin.castLE hs.le d) f n) - X ⟨s + b, by omega⟩ f n)‖ ^ 2
          + load * ∑ d, ‖j d‖ ^ 2 := by
    intro j
    unfold ridgeCost
    simp only [norm_star, hA]
    congr 1
    refine Finset.sum_congr rfl fun k _ => ?_
    congr 3
    simp only [mulVec, dotProduct, Matrix.of_apply, corr, star_sub, star_sum, star_mul', mul_sub,
      Finset.sum_sub_distrib, sub_div, Finset.mul_sum]
    congr 1
    rw [Finset.sum_comm, Finset.sum_div]
    refine Finset.sum_congr rfl fun d _ => ?_
    rw [div_mul_eq_mul_div, Finset.sum_mul]
    congr 1
    exact Finset.sum_congr rfl fun n _ => by ring
  intro j
  have hj := hm b (fun d => star (j d))
  rw [hcost, hcost] at hj
  refine ⟨hj.1, fun heq => ?_⟩
  funext d
  exact star_injective (congrFun (hj.2 heq) d)

/-- Two sources, three channels. -/
example : ∃ J, orthogonalConstraint (Demo.demix 2 3) (inputCov (Demo.sig 3 2 4) 1) 1e-5 = .ok (some J) :=
  (orthogonal_constraint_uncorrelated (by norm_num) (Demo.demix 2 3) (Demo.sig 3 2 4) 1 1e-5 (by norm_num)).imp
    fun _ h => h.1

/-! ## C19 the iterative-projection row update -/

private lemma scale_eq (x : Fin C → Fin N → ℂ) (w : Fin N → ℝ) (v : Fin C → ℂ) :
    (∑ c, ∑ d, v c * star (v d) * weightedCov x w c d).re = ∑ n, w n * ‖∑ c, v c * x c n‖ ^ 2 := by
  have h : ∑ c, ∑ d, v c * star (v d) * weightedCov x w c d
      = ((∑ n, w n * ‖∑ c, v c * x c n‖ ^ 2 : ℝ) : ℂ) := by
    push_cast
    have e : ∀ n : Fin N, ((w n : ℂ)) * ((‖∑ c, v c * x c n‖ : ℝ) : ℂ) ^ 2
        = ∑ c, ∑ d, v c * star (v d) * ((x c n * (w n : ℂ)) * star (x d n)) := by
      intro n
      rw [← Complex.mul_conj']
      rw [map_sum, Finset.sum_mul_sum, Finset.mul_sum]
      refine Finset.sum_congr rfl fun c _ => ?_
      rw [Finset.mul_sum]
      refine Finset.sum_congr rfl fun d _ => ?_
      simp only [map_mul, Complex.star_def]
      ring
    simp only [e]
    symm
    rw [Finset.sum_comm]
    refine Finset.sum_congr rfl fun c _ => ?_
    rw [Finset.sum_comm]
    refine Finset.sum_congr rfl fun d _ => ?_
    simp only [weightedCov, Matrix.of_apply, Finset.mul_sum]
  rw [h, Complex.ofReal_re]

/-- **C19.** `x` are the microphone signals at one frequency, `w` the frame weights of source `k`,
`V = ∑ₙ wₙ x xᴴ`, `M = [W; J -I]`.  The new row is `conj(z) / √max(E, eps)` where `z` is the unique ridge
solution of `(M V) z = e_k` and `E` is the weighted energy of `conj(z)·x`.  The weighted energy of the
updated source is therefore one, or `E / eps < 1` when clamped. -/
theorem auxiva_row_update (hs : s ≤ C) (x : Fin C → Fin N → ℂ) (w : Fin N → ℝ) (hw : ∀ n, 0 ≤ w n)
    (W : Matrix (Fin s) (Fin C) ℂ) (J : Option (Matrix (Fin (C - s)) (Fin s) ℂ))
    (hJ : s < C → J.isSome) (k : Fin s) (eps : ℝ) (he : 0 < eps) :
    ∃ (z row : Fin C → ℂ), ipNewRow hs W J (weightedCov x w) k eps = .ok row ∧
      (let A := stackRows W (J.getD 0) * weightedCov x w
       IsUniqueMin (ridgeCost (fun i => 1 / max (l2 (A i)) eps) A
         (fun i => if i.1 = k.1 then 1 else 0) eps) z) ∧
      (let E := ∑ n, w n * ‖∑ c, star (z c) * x c n‖ ^ 2
       (∀ c, row c = star (z c) / (√(max E eps) : ℝ)) ∧
       (eps ≤ E → ∑ n, w n * ‖∑ c, row c * x c n‖ ^ 2 = 1) ∧
       ∑ n, w n * ‖∑ c, row c * x c n‖ ^ 2 ≤ 1) := by
  have hstack : stackWV hs W J (weightedCov x w) = stackRows W (J.getD 0) * weightedCov x w := by
    ext i d
    simp only [stackWV, stackRows, Matrix.of_apply, Matrix.mul_apply]
    by_cases h : i.1 < s
    · simp only [h, dif_pos]
    · simp only [h, dif_neg, not_false_eq_true]
      obtain ⟨J', rfl⟩ := Option.isSome_iff_exists.1 (hJ (by omega))
      simp only [Option.getD_some]
      rw [sum_split hs (fun e => (if h : e.1 < s then J' ⟨i - s, by omega⟩ ⟨e, h⟩ else if e = i then -1 else 0)
        * weightedCov x w e d), sub_eq_add_neg]
      congr 1
      · refine Finset.sum_congr rfl fun e _ => ?_
        rw [dif_pos (show (Fin.castLE hs e).1 < s from e.2)]
        rfl
      · rw [Finset.sum_eq_single (⟨i - s, by omega⟩ : Fin (C - s))]
        · have e : (⟨s + (i.1 - s), by omega⟩ : Fin C) = i := Fin.ext (by simp; omega)
          rw [dif_neg (by simp), e, if_pos rfl, neg_one_mul]
        · intro b _ hb
          rw [dif_neg (by simp), if_neg, zero_mul]
          intro hh
          apply hb
          ext
          have := congrArg Fin.val hh
          simp at this ⊢
          omega
        · simp
  obtain ⟨sol, hsol, hmin⟩ := solve_loaded_general_ridge (stackWV hs W J (weightedCov x w))
    (Matrix.of fun i (_ : Fin 1) => if i.1 = k.1 then (1 : ℂ) else 0) eps eps he
  set E := ∑ n, w n * ‖∑ c, star (sol c 0) * x c n‖ ^ 2 with hE
  have hE0 : 0 ≤ E := Finset.sum_nonneg fun n _ => mul_nonneg (hw n) (by positivity)
  have hm0 : 0 < max E eps := lt_of_lt_of_le he (le_max_right _ _)
  have henergy : ∑ n, w n * ‖∑ c, star (sol c 0) / (√(max E eps) : ℝ) * x c n‖ ^ 2 = E / max E eps := by
    rw [hE, Finset.sum_div]
    refine Finset.sum_congr rfl fun n _ => ?_
    have : ∑ c, star (sol c 0) / (√(max E eps) : ℝ) * x c n
        = (∑ c, star (sol c 0) * x c n) / (√(max E eps) : ℝ) := by
      rw [Finset.sum_div]; exact Finset.sum_congr rfl fun c _ => by ring
    rw [← hE, this, norm_div, Complex.norm_of_nonneg (Real.sqrt_nonneg _), div_pow, Real.sq_sqrt hm0.le]
    ring
  refine ⟨fun c => sol c 0, fun c => star (sol c 0) / (√(max E eps) : ℝ), ?_, ?_, fun c => rfl, ?_, ?_⟩
  · unfold ipNewRow
    simp only [hsol]
    simp only [bind, Except.bind, pure, Except.pure, Except.ok.injEq]
    funext c
    rw [scale_eq]
    rfl
  · rw [← hstack]; exact hmin 0
  · intro h
    rw [henergy, max_eq_left h]
    exact div_self (by linarith)
  · rw [henergy]
    exact (div_le_one hm0).2 (le_max_left _ _)

/-- Non-vacuity of C19: one frame of two microphones. -/
example : ∃ (x : Fin 2 → Fin 1 → ℂ) (w : Fin 1 → ℝ) (J : Option (Matrix (Fin (2 - 1)) (Fin 1) ℂ)),
    (∀ n, 0 ≤ w n) ∧ (1 < 2 → J.isSome) ∧ x 1 0 = Complex.I :=
  ⟨fun c _ => if c = 0 then 1 else Complex.I, fun _ => 1, some 0, by norm_num, by simp, by simp⟩

private lemma ortho_total (hs : s ≤ C) (W : Matrix (Fin s) (Fin C) ℂ) (Cx) (load : ℝ) (hl : 0 < load) :
    ∃ J, orthogonalConstraint W Cx load = .ok J ∧ (J.isSome ↔ s < C) := by
  rcases hs.lt_or_eq with h | h
  · obtain ⟨J, hJ, -⟩ := ortho_over h W Cx load hl
    exact ⟨_, hJ, by simp [h]⟩
  · subst h
    exact ⟨none, orthogonal_constraint_square W Cx load, by simp⟩

private lemma src_update_ok (hs : s ≤ C) (x : Fin C → Fin N → ℂ) (Cx) (w : Fin s → Fin N → ℝ)
    (hw : ∀ k n, 0 ≤ w k n) (eps : ℝ) (he : 0 < eps) (W : Matrix (Fin s) (Fin C) ℂ) (k : Fin s) :
    ∃ W' J, ipSrcUpdate hs x Cx w eps W k = .ok (W', J) ∧ (J.isSome ↔ s < C) ∧
      (∀ i, i ≠ k → W' i = W i) ∧ ∑ n, w k n * ‖∑ c, W' k c * x c n‖ ^ 2 ≤ 1 := by
  obtain ⟨J, hJ, hJs⟩ := ortho_total hs W Cx eps he
  obtain ⟨z, row, hrow, -, -, -, hle⟩ := auxiva_row_update hs x (w k) (hw k) W J hJs.2 k eps he
  refine ⟨W.updateRow k row, J, ?_, hJs, ?_, ?_⟩
  · unfold ipSrcUpdate
    simp only [hJ, hrow, bind, Except.bind, pure, Except.pure]
  · intro i hi; exact Matrix.updateRow_ne hi
  · simpa using hle

private lemma sweep_ok (hs : s ≤ C) (x : Fin C → Fin N → ℂ) (Cx) (w : Fin s → Fin N → ℝ)
    (hw : ∀ k n, 0 ≤ w k n) (eps : ℝ) (he : 0 < eps) (l : List (Fin s)) (hnd : l.Nodup)
    (st : Matrix (Fin s) (Fin C) ℂ × Option (Matrix (Fin (C - s)) (Fin s) ℂ))
    (hst : st.2.isSome ↔ s < C) :
    ∃ r, ipSweep hs x Cx w eps l st = .ok r ∧ (r.2.isSome ↔ s < C) ∧
      (∀ i, i ∉ l → r.1 i = st.1 i) ∧ ∀ k ∈ l, ∑ n, w k n * ‖∑ c, r.1 k c * x c n‖ ^ 2 ≤ 1 := by
  induction l generalizing st with
  | nil => exact ⟨st, rfl, hst, fun _ _ => rfl, by simp⟩
  | cons k l ih =>
    obtain ⟨W', J, h1, hJ, hother, hk⟩ := src_update_ok hs x Cx w hw eps he st.1 k
    obtain ⟨r, hr, hrJ, hri, hrl⟩ := ih (List.nodup_cons.1 hnd).2 (W', J) hJ
    refine ⟨r, ?_, hrJ, ?_, ?_⟩
    · simp only [ipSweep, h1]; exact hr
    · intro i hi
      rw [List.mem_cons, not_or] at hi
      rw [hri i hi.2]; exact hother i hi.1
    · intro i hi
      rcases List.mem_cons.1 hi with rfl | hi
      · rw [hri i (List.nodup_cons.1 hnd).1]; exact hk
      · exact hrl i hi

/-- **C19 (sweep).** After a sweep over all sources every source has weighted energy at most one. -/
theorem auxiva_sweep_energy (hs : s ≤ C) (x : Fin C → Fin N → ℂ) (Cx) (w : Fin s → Fin N → ℝ)
    (hw : ∀ k n, 0 ≤ w k n) (eps : ℝ) (he : 0 < eps) (W : Matrix (Fin s) (Fin C) ℂ)
    (J : Option (Matrix (Fin (C - s)) (Fin s) ℂ)) (hJ : J.isSome ↔ s < C) :
    ∃ r, ipSweep hs x Cx w eps (List.finRange s) (W, J) = .ok r ∧
      ∀ k, ∑ n, w k n * ‖∑ c, r.1 k c * x c n‖ ^ 2 ≤ 1 := by
  obtain ⟨r, hr, -, -, h⟩ := sweep_ok hs x Cx w hw eps he (List.finRange s) (List.nodup_finRange s) (W, J) hJ
  exact ⟨r, hr, fun k => h k (List.mem_finRange k)⟩

/-- Two sources, three channels, positive weights that are not constant. -/
example : ∃ r, ipSweep (by norm_num : 2 ≤ 3) (Demo.frames 3 4) (inputCov (Demo.sig 3 1 4) 0) (fun k n => k.1 + n.1 + 1) 1e-5
    (List.finRange 2) (Demo.demix 2 3, some 0) = .ok r ∧
      ∀ k, ∑ n, ((k.1 : ℝ) + n.1 + 1) * ‖∑ c, r.1 k c * Demo.frames 3 4 c n‖ ^ 2 ≤ 1 :=
  auxiva_sweep_energy _ _ _ _ (fun _ _ => by positivity) _ (by norm_num) _ _ (by simp)

/-- **C19.** One source update leaves the demixing rows of all other sources alone. -/
theorem auxiva_other_rows_unchanged (hs : s ≤ C) (x : Fin C → Fin N → ℂ) (Cx) (w : Fin s → Fin N → ℝ)
    (eps : ℝ) (W W' : Matrix (Fin s) (Fin C) ℂ) (J) (k i : Fin s) (hi : i ≠ k)
    (h : ipSrcUpdate hs x Cx w eps W k = .ok (W', J)) : W' i = W i := by
  unfold ipSrcUpdate at h
  cases h1 : orthogonalConstraint W Cx eps with
  | error e => rw [h1] at h; cases h
  | ok J' =>
    rw [h1] at h
    simp only [bind, Except.bind] at h
    cases h2 : ipNewRow hs W J' (weightedCov x (w k)) k eps with
    | error e => rw [h2] at h; cases h
    | ok row =>
      rw [h2] at h
      simp only [pure, Except.pure, Except.ok.injEq, Prod.mk.injEq] at h
      rw [← h.1]
      exact Matrix.updateRow_ne hi

/-- The update of source 0 succeeds and keeps row 1. -/
example : ∃ W' J, ipSrcUpdate (by norm_num : 2 ≤ 3) (Demo.frames 3 4) (inputCov (Demo.sig 3 1 4) 0)
    (fun k n => k.1 + n.1 + 1) 1e-5 (Demo.demix 2 3) 0 = .ok (W', J) ∧ W' 1 = Demo.demix 2 3 1 := by
  obtain ⟨W', J, h, -⟩ := src_update_ok (by norm_num : 2 ≤ 3) (Demo.frames 3 4) (inputCov (Demo.sig 3 1 4) 0)
    (fun k n => k.1 + n.1 + 1) (fun _ _ => by positivity) 1e-5 (by norm_num) (Demo.demix 2 3) 0
  exact ⟨W', J, h, auxiva_other_rows_unchanged _ _ _ _ _ _ _ _ 0 1 (by decide) h⟩

/-! ## C21 projection back -/

/-- **C21 (determined).** `a` is the unique ridge solution of `Wᵀ a = e_m`; if `W` is invertible, the
scaled sources add up to microphone `m` up to `∑ c, ρ c * x c` with
`∑ c (|ρ c| / max ‖W[:, c]‖ 1e-5)² ≤ 1e-5 ‖row m of W⁻¹‖²`. -/
theorem auxiva_projection_back_determined (W : Matrix (Fin C) (Fin C) ℂ) (m : Fin C) :
    ∃ a, projectionBackDemixing W none m = .ok a ∧
      IsUniqueMin (ridgeCost (fun c => 1 / max (l2 fun k => W k c) 1e-5) Wᵀ
        (fun c => if c = m then 1 else 0) 1e-5) a ∧
      ∃ ρ : Fin C → ℂ,
        (∀ x : Fin C → ℂ, ∑ k, (∑ c, W k c * x c) * a k = x m + ∑ c, ρ c * x c) ∧
        (IsUnit W.det → ∑ c, (‖ρ c‖ / max (l2 fun k => W k c) 1e-5) ^ 2 ≤ 1e-5 * ∑ k, ‖W⁻¹ m k‖ ^ 2) := by
  obtain ⟨a, ha, hmin⟩ := solve_loaded_general_ridge Wᵀ
    (Matrix.of fun (c : Fin C) (_ : Fin 1) => if c.1 = m.1 then (1 : ℂ) else 0) 1e-5 1e-5 (by norm_num)
  have hmin0 : IsUniqueMin (ridgeCost (fun c => 1 / max (l2 fun k => W k c) 1e-5) Wᵀ
        (fun c => if c = m then 1 else 0) 1e-5) (fun k => a k 0) := by
    have := hmin 0
    simp only [Matrix.of_apply, ← Fin.ext_iff] at this
    exact this
  refine ⟨fun k => a k 0, ?_, hmin0, fun c => (∑ k, W k c * a k 0) - if c = m then 1 else 0, ?_, ?_⟩
  · unfold projectionBackDemixing
    simp only [m.2, if_true, ha]
    rfl
  · intro x
    simp only [sub_mul, Finset.sum_sub_distrib, ite_mul, one_mul, zero_mul, Finset.sum_ite_eq',
      Finset.mem_univ, if_true, Finset.sum_mul]
    rw [Finset.sum_comm]
    rw [add_sub_cancel]
    exact Finset.sum_congr rfl fun c _ => Finset.sum_congr rfl fun k _ => by ring
  · intro hW
    have h1 := (hmin0 (fun k => W⁻¹ m k)).1
    unfold ridgeCost at h1
    have h2 : ∀ c, (Wᵀ *ᵥ fun k => W⁻¹ m k) c - (if c = m then 1 else 0) = 0 := by
      intro c
      have e := congrFun (congrFun (Matrix.nonsing_inv_mul _ hW) m) c
      rw [Matrix.mul_apply, Matrix.one_apply] at e
      simp only [mulVec, dotProduct, Matrix.transpose_apply]
      rw [sub_eq_zero, Finset.sum_congr rfl fun k _ => mul_comm (W k c) (W⁻¹ m k), e]
      simp [eq_comm]
    simp only [h2, norm_zero, ne_eq, OfNat.ofNat_ne_zero, not_false_eq_true, zero_pow, mul_zero,
      Finset.sum_const_zero, zero_add] at h1
    have h3 : 0 ≤ 1e-5 * ∑ j, ‖a j 0‖ ^ 2 :=
      mul_nonneg (by norm_num) (Finset.sum_nonneg fun _ _ => by positivity)
    refine le_trans (le_of_eq ?_) (le_trans (le_add_of_nonneg_right h3) h1)
    refine Finset.sum_congr rfl fun c _ => ?_
    simp only [mulVec, dotProduct, Matrix.transpose_apply]
    rw [div_pow, one_div, inv_pow]
    ring

/-- The premise about the determinant holds for a matrix that is not triangular. -/
example : IsUnit (Demo.demix 2 2).det := by
  have h : (Demo.demix 2 2).det = 5 := by
    rw [Matrix.det_fin_two]
    simp [Demo.demix]
    norm_num
  rw [h]
  exact isUnit_iff_ne_zero.2 (by norm_num)

/-- **C21 (over-determined).** With background row matrix `J` and `z = J x₁ - x₂`: the scaled sources plus
some combination of the background signals equal microphone `m` up to `∑ d, ρ d * x d` over the first
`s` channels, and `(ρ, a)` minimises the ridge cost over all source scales. -/
theorem auxiva_projection_back_overdetermined (hs : s ≤ C) (W : Matrix (Fin s) (Fin C) ℂ)
    (J : Matrix (Fin (C - s)) (Fin s) ℂ) (m : Fin C) :
    ∃ a, projectionBackDemixing W (some J) m = .ok a ∧
      ∃ (ρ : Fin s → ℂ) (β : Fin (C - s) → ℂ),
        (∀ x : Fin C → ℂ, (∑ k, (∑ c, W k c * x c) * a k)
            + ∑ b, β b * ((∑ d, J b d * x (Fin.castLE hs d)) - x ⟨s + b, by omega⟩)
          = x m + ∑ d, ρ d * x (Fin.castLE hs d)) ∧
        (let B : Fin s → Fin s → ℂ := fun d k =>
            W k (Fin.castLE hs d) + ∑ b : Fin (C - s), W k ⟨s + b, by omega⟩ * J b d
         let target : Fin s → ℂ := fun d =>
            if _h : m.1 < s then (if d.1 = m then 1 else 0) else J ⟨m - s, by omega⟩ d
         (∀ d, ρ d = (∑ k, B d k * a k) - target d) ∧
         ∀ a' : Fin s → ℂ,
            ∑ d, (‖ρ d‖ / max (l2 (B d)) 1e-5) ^ 2 + 1e-5 * ∑ k, ‖a k‖ ^ 2
              ≤ ∑ d, (‖(∑ k, B d k * a' k) - target d‖ / max (l2 (B d)) 1e-5) ^ 2
                + 1e-5 * ∑ k, ‖a' k‖ ^ 2) := by
  set target : Fin s → ℂ := fun d =>
    if _h : m.1 < s then (if d.1 = m then 1 else 0) else J ⟨m - s, by omega⟩ d with htarget
  set A : Matrix (Fin s) (Fin s) ℂ := Matrix.of fun k d => W k (Fin.castLE hs d) with hA
  set B : Matrix (Fin s) (Fin (C - s)) ℂ := Matrix.of fun k d => W k ⟨s + d, by omega⟩ with hB
  obtain ⟨a, ha, hmin⟩ := solve_loaded_general_ridge (A + B * J)ᵀ
    (Matrix.of fun (d : Fin s) (_ : Fin 1) => target d) 1e-5 1e-5 (by norm_num)
  have hAB : ∀ d k, (A + B * J)ᵀ d k = W k (Fin.castLE hs d) + ∑ b : Fin (C - s), W k ⟨s + b, by omega⟩ * J b d := by
    intro d k
    rw [Matrix.transpose_apply, Matrix.add_apply, Matrix.mul_apply]
    rfl
  refine ⟨fun k => a k 0, ?_, fun d => (∑ k, (A + B * J)ᵀ d k * a k 0) - target d,
    fun b => (∑ k, W k ⟨s + b, by omega⟩ * a k 0) - if m.1 = s + b then 1 else 0, ?_, ?_, ?_⟩
  · unfold projectionBackDemixing
    simp only [dif_pos hs]
    by_cases h1 : m.1 < s
    · have : (Matrix.of fun (d : Fin s) (_ : Fin 1) => target d)
          = Matrix.of fun (d : Fin s) (_ : Fin 1) => if d.1 = m.1 then (1 : ℂ) else 0 := by
        ext d _; simp [htarget, h1]
      rw [this] at ha
      simp only [if_pos h1, bind, Except.bind]
      rw [← hA, ← hB, ha]; rfl
    · have h2 : m.1 - s < C - s := by omega
      have : (Matrix.of fun (d : Fin s) (_ : Fin 1) => target d)
          = Matrix.of fun (d : Fin s) (_ : Fin 1) => J ⟨m - s, h2⟩ d := by
        ext d _; simp [htarget, h1]
      rw [this] at ha
      simp only [if_neg h1, dif_pos h2, bind, Except.bind]
      rw [← hA, ← hB, ha]; rfl
  · intro x
    have e1 : ∑ k, (∑ c, W k c * x c) * a k 0
        = (∑ d : Fin s, (∑ k, W k (Fin.castLE hs d) * a k 0) * x (Fin.castLE hs d))
          + ∑ b : Fin (C - s), (∑ k, W k ⟨s + b, by omega⟩ * a k 0) * x ⟨s + b, by omega⟩ := by
      have : ∑ k, (∑ c, W k c * x c) * a k 0 = ∑ c, (∑ k, W k c * a k 0) * x c := by
        simp only [Finset.sum_mul]
        rw [Finset.sum_comm]
        exact Finset.sum_congr rfl fun c _ => Finset.sum_congr rfl fun k _ => by ring
      rw [this, sum_split hs]
    have e2 : ∑ d : Fin s, (∑ k, (A + B * J)ᵀ d k * a k 0) * x (Fin.castLE hs d)
        = (∑ d : Fin s, (∑ k, W k (Fin.castLE hs d) * a k 0) * x (Fin.castLE hs d))
          + ∑ b : Fin (C - s), (∑ k, W k ⟨s + b, by omega⟩ * a k 0) * ∑ d, J b d * x (Fin.castLE hs d) := by
      simp only [hAB, add_mul, Finset.sum_add_distrib]
      congr 1
      have h1 : ∀ d, (∑ k, (∑ b : Fin (C - s), W k ⟨s + b, by omega⟩ * J b d) * a k 0) * x (Fin.castLE hs d)
          = ∑ b : Fin (C - s), ∑ k, W k ⟨s + b, by omega⟩ * a k 0 * (J b d * x (Fin.castLE hs d)) := by
        intro d
        rw [Finset.sum_comm, Finset.sum_mul]
        refine Finset.sum_congr rfl fun k _ => ?_
        rw [Finset.sum_mul, Finset.sum_mul]
        exact Finset.sum_congr rfl fun c _ => by ring
      simp only [h1]
      rw [Finset.sum_comm]
      refine Finset.sum_congr rfl fun b _ => ?_
      rw [Finset.sum_mul, Finset.sum_comm]
      exact Finset.sum_congr rfl fun k _ => by rw [Finset.mul_sum]
    have e3 : (∑ b : Fin (C - s), (if m.1 = s + b then (1 : ℂ) else 0)
          * ((∑ d, J b d * x (Fin.castLE hs d)) - x ⟨s + b, by omega⟩))
        = (∑ d : Fin s, target d * x (Fin.castLE hs d)) - x m := by
      by_cases hms : m.1 < s
      · rw [Finset.sum_eq_zero (fun c _ => by rw [if_neg (by omega), zero_mul])]
        simp only [htarget, dif_pos hms]
        rw [Finset.sum_eq_single (⟨m, hms⟩ : Fin s)]
        · simp
        · intro d _ hd
          rw [if_neg (fun hh => hd (Fin.ext hh)), zero_mul]
        · simp
      · simp only [htarget, dif_neg hms]
        rw [Finset.sum_eq_single (⟨m - s, by omega⟩ : Fin (C - s))]
        · rw [if_pos (by simp; omega), one_mul]
          have e : (⟨s + (m.1 - s), by omega⟩ : Fin C) = m := Fin.ext (by simp; omega)
          simp only [e]
        · intro c _ hcc
          rw [if_neg (fun hh => hcc (Fin.ext (by simp; omega))), zero_mul]
        · simp
    simp only [sub_mul, Finset.sum_sub_distrib]
    rw [e1, e2, e3]
    simp only [mul_sub, Finset.sum_sub_distrib]
    ring
  · intro d
    simp only [hAB]
  · intro a'
    have h1 := (hmin 0 a').1
    unfold ridgeCost at h1
    have hrow : ∀ d, (A + B * J)ᵀ d = fun k => W k (Fin.castLE hs d)
        + ∑ b : Fin (C - s), W k ⟨s + b, by omega⟩ * J b d := fun d => funext fun k => hAB d k
    refine le_trans (le_of_eq ?_) (h1.trans (le_of_eq ?_))
    · congr 1
      refine Finset.sum_congr rfl fun d _ => ?_
      rw [div_pow, div_eq_inv_mul, ← inv_pow, ← one_div]
      simp only [mulVec, dotProduct, Matrix.of_apply, hAB, hrow]
    · congr 1
      refine Finset.sum_congr rfl fun d _ => ?_
      symm
      rw [div_pow, div_eq_inv_mul, ← inv_pow, ← one_div]
      simp only [mulVec, dotProduct, Matrix.of_apply, hAB, hrow]

/-- Two sources, three channels, reference among the background channels. -/
example : ∃ a, projectionBackDemixing (Demo.demix 2 3) (some (Matrix.of fun _ d => (d.1 : ℂ) + Complex.I)) 2 = .ok a :=
  (auxiva_projection_back_overdetermined (by norm_num) (Demo.demix 2 3)
    (Matrix.of fun _ d => (d.1 : ℂ) + Complex.I) 2).imp fun _ h => h.1

/-! ## The whole forward call -/

/-- **C20 is violated.** The default `n_src = None` always raises `TypeError`. -/
theorem auxiva_default_n_src_violated (p : IpParams) (X : Sig C F N) (model : SourceModel σ F N)
    (reset : σ → σ) (ms : σ) : auxivaForward p none X model reset ms = .error .typeError := rfl

/-- More sources than channels: `ValueError`. -/
theorem auxiva_underdetermined_rejected (p : IpParams) (k : ℕ) (hk : C < k) (X : Sig C F N)
    (model : SourceModel σ F N) (reset : σ → σ) (ms : σ) :
    auxivaForward p (some k) X model reset ms = .error .valueError := by
  unfold auxivaForward
  simp only
  rw [dif_neg (by omega)]

/-- Three sources out of two channels. -/
example : auxivaForward ⟨10, some 0, 1e-5⟩ (some 3) (Demo.sig 2 3 4) (laplaceModel 1e-5) id () = .error .valueError :=
  auxiva_underdetermined_rejected _ 3 (by norm_num) _ _ _ _

/-- The source model returns nonnegative weights. -/
def NonnegModel (model : SourceModel σ F N) : Prop := ∀ s ms Y k f n, 0 ≤ (model s ms Y).1 k f n

private lemma epoch_ok (hs : s ≤ C) (X : Sig C F N) (model : SourceModel σ F N) (hmod : NonnegModel model)
    (eps : ℝ) (he : 0 < eps) (st : IpState σ s C F N) (hJ : ∀ f, (st.J f).isSome ↔ s < C) :
    ∃ st', ipEpoch hs X model eps st = .ok st' ∧ (∀ f, (st'.J f).isSome ↔ s < C) ∧
      st'.Y = demix X st'.W ∧ st'.ms = (model s st.ms st.Y).2 ∧
      ∀ k f, ∑ n, (model s st.ms st.Y).1 k f n * sourceGain st.Y eps k * ‖st'.Y k f n‖ ^ 2 ≤ 1 := by
  set g := sourceGain st.Y eps with hg
  have hg0 : ∀ k, 0 ≤ g k := fun k => he.le.trans (le_max_right _ _)
  have h := fun f => sweep_ok hs (fun c => X c f) (inputCov X f)
    (fun k n => (model s st.ms st.Y).1 k f n * g k)
    (fun k n => mul_nonneg (hmod _ _ _ _ _ _) (hg0 k)) eps he (List.finRange s) (List.nodup_finRange s)
    (Matrix.of fun k c => st.W f k c / (clampMin (√(g k)) eps : ℝ), st.J f) (hJ f)
  choose r hr hrJ _ hrE using h
  refine ⟨⟨demix X fun f => (r f).1, fun f => (r f).1, fun f => (r f).2, (model s st.ms st.Y).2⟩, ?_, hrJ, rfl, rfl,
    fun k f => hrE f k (List.mem_finRange k)⟩
  unfold ipEpoch
  simp only [← hg]
  rw [seqAll_ok_iff.2 hr]
  rfl

/-- **C72 / C17.** For every input, nonnegative source model, `n_src ≤ n_chan`, iteration count and `eps > 0`, and
every reference microphone among the channels, AuxIVA-IP succeeds and returns `n_src` signals, each a
linear filter `W` of the current input frame (times a scale). -/
theorem auxiva_output (p : IpParams) (he : 0 < p.eps) (s : ℕ) (hs : s ≤ C) (X : Sig C F N)
    (model : SourceModel σ F N) (hmod : NonnegModel model) (reset : σ → σ) (ms : σ)
    (hm : ∀ m, p.projBackMic = some m → m < C) :
    ∃ (out : IpOut σ s F N) (W : Fin F → Matrix (Fin s) (Fin C) ℂ) (a : Fin F → Fin s → ℂ),
      auxivaForward p (some s) X model reset ms = .ok ⟨s, out⟩ ∧
      (p.projBackMic = none → a = fun _ _ => 1) ∧
      ∀ k f n, out.Y k f n = (∑ c, W f k c * X c f n) * a f k := by
  set W0 : Fin F → Matrix (Fin s) (Fin C) ℂ := fun _ => Matrix.of fun k c => if k.1 = c.1 then 1 else 0 with hW0
  have h0 := fun f => ortho_total hs (W0 f) (inputCov X f) p.eps he
  choose J0 hJ0 hJ0s using h0
  have hJ0' : (seqAll fun f => orthogonalConstraint
      (Matrix.of fun (k : Fin s) (c : Fin C) => if k.1 = c.1 then (1 : ℂ) else 0) (inputCov X f) p.eps)
      = .ok J0 := seqAll_ok_iff.2 hJ0
  obtain ⟨st, hst, hstJ, hstY⟩ := iterM_total
    (fun st : IpState σ s C F N => (∀ f, (st.J f).isSome ↔ s < C) ∧ st.Y = demix X st.W)
    (ipEpoch hs X model p.eps)
    (fun a ha => by
      obtain ⟨a', h1, h2, h3, -⟩ := epoch_ok hs X model hmod p.eps he a ha.1
      exact ⟨a', h1, h2, h3⟩) p.nIter
    ⟨fun k => X (Fin.castLE hs k), W0, J0, reset ms⟩
    ⟨hJ0s, by
      funext k f n
      simp only [demix, hW0, Matrix.of_apply]
      rw [Finset.sum_eq_single (Fin.castLE hs k)]
      · simp
      · intro c _ hc
        rw [if_neg (fun h => hc (Fin.ext h.symm)), zero_mul]
      · simp⟩
  cases hmic : p.projBackMic with
  | none =>
    refine ⟨⟨st.Y, st.ms⟩, st.W, fun _ _ => 1, ?_, fun _ => rfl, ?_⟩
    · unfold auxivaForward
      simp only [dif_pos hs, ← hW0, hJ0', bind, Except.bind, hst, hmic]
      rfl
    · intro k f n
      simp only [hstY, demix, mul_one]
  | some m =>
    have hmC := hm m hmic
    have hpb : ∀ f, ∃ a, projectionBackDemixing (st.W f) (st.J f) m = .ok a := by
      intro f
      rcases hs.lt_or_eq with h | h
      · obtain ⟨J, hJ⟩ := Option.isSome_iff_exists.1 ((hstJ f).2 h)
        rw [hJ]
        obtain ⟨a, ha, -⟩ := auxiva_projection_back_overdetermined hs (st.W f) J ⟨m, hmC⟩
        exact ⟨a, ha⟩
      · subst h
        have : st.J f = none := by
          cases hJ : st.J f with
          | none => rfl
          | some J => have := (hstJ f).1 (by simp [hJ]); omega
        rw [this]
        obtain ⟨a, ha, -⟩ := auxiva_projection_back_determined (st.W f) ⟨m, hmC⟩
        exact ⟨a, ha⟩
    choose a ha using hpb
    refine ⟨⟨fun k f n => st.Y k f n * a f k, st.ms⟩, st.W, a, ?_, fun h => by (first | cases h | simp at h), ?_⟩
    · unfold auxivaForward
      simp only [dif_pos hs, ← hW0, hJ0', bind, Except.bind, hst, hmic]
      rw [seqAll_ok_iff.2 ha]
      rfl
    · intro k f n
      simp only [hstY, demix]

/-- The Laplace model, two sources out of three channels, projection back on microphone 2. -/
example : ∃ out : IpOut Unit 2 3 4, auxivaForward ⟨10, some 2, 1e-5⟩ (some 2) (Demo.sig 3 3 4) (laplaceModel 1e-5) id ()
    = .ok ⟨2, out⟩ := by
  obtain ⟨out, -, -, h, -⟩ := auxiva_output ⟨10, some 2, 1e-5⟩ (by norm_num) 2 (by norm_num) (Demo.sig 3 3 4) (laplaceModel 1e-5)
    (fun s ms Y k f n => Demo.laplace_nonneg s ms Y k f n) id () (by simp)
  exact ⟨out, h⟩

/-- **C19 (forward).** After at least one iteration and without projection back, the returned sources have weighted
energy at most one at every frequency, for the weights the source model returns, in the state it has by then, for the output of one
iteration less (times the mean power of that output, clamped at `eps`). -/
theorem auxiva_output_energy (p : IpParams) (he : 0 < p.eps) (hp : p.projBackMic = none)
    (s : ℕ) (hs : s ≤ C) (X : Sig C F N) (model : SourceModel σ F N) (hmod : NonnegModel model)
    (reset : σ → σ) (ms : σ) :
    ∃ prev out : IpOut σ s F N, auxivaForward p (some s) X model reset ms = .ok ⟨s, prev⟩ ∧
      auxivaForward { p with nIter := p.nIter + 1 } (some s) X model reset ms = .ok ⟨s, out⟩ ∧
      out.ms = (model s prev.ms prev.Y).2 ∧
      ∀ k f, ∑ n, (model s prev.ms prev.Y).1 k f n
        * max ((∑ f, ∑ n, ‖prev.Y k f n‖ ^ 2) / (F * N)) p.eps * ‖out.Y k f n‖ ^ 2 ≤ 1 := by
  set W0 : Fin F → Matrix (Fin s) (Fin C) ℂ := fun _ => Matrix.of fun k c => if k.1 = c.1 then 1 else 0 with hW0
  have h0 := fun f => ortho_total hs (W0 f) (inputCov X f) p.eps he
  choose J0 hJ0 hJ0s using h0
  have hJ0' : (seqAll fun f => orthogonalConstraint
      (Matrix.of fun (k : Fin s) (c : Fin C) => if k.1 = c.1 then (1 : ℂ) else 0) (inputCov X f) p.eps)
      = .ok J0 := seqAll_ok_iff.2 hJ0
  obtain ⟨st, hst, hJ⟩ := iterM_total (fun st : IpState σ s C F N => ∀ f, (st.J f).isSome ↔ s < C) (ipEpoch hs X model p.eps)
    (fun a ha => by
      obtain ⟨b, h1, h2, -⟩ := epoch_ok hs X model hmod p.eps he a ha
      exact ⟨b, h1, h2⟩) p.nIter ⟨fun k => X (Fin.castLE hs k), W0, J0, reset ms⟩ hJ0s
  obtain ⟨st', hst', -, -, hms, hE⟩ := epoch_ok hs X model hmod p.eps he st hJ
  have hst2 : iterM (ipEpoch hs X model p.eps) (p.nIter + 1) ⟨fun k => X (Fin.castLE hs k), W0, J0, reset ms⟩ = .ok st' := by
    rw [iterM_snoc, hst]
    exact hst'
  refine ⟨⟨st.Y, st.ms⟩, ⟨st'.Y, st'.ms⟩, ?_, ?_, hms, ?_⟩
  · unfold auxivaForward
    simp only [dif_pos hs, ← hW0, hJ0', bind, Except.bind, hst, hp]
    rfl
  · unfold auxivaForward
    simp only [dif_pos hs, ← hW0, hJ0', bind, Except.bind, hst2, hp]
    rfl
  · intro k f
    have := hE k f
    simp only [sourceGain, clampMin, magSq_eq] at this
    exact this

/-- Non-vacuity: a source model satisfying the hypotheses, and two sources out of three channels. -/
example : ∃ (model : SourceModel Unit 1 2) (p : IpParams), NonnegModel model ∧ 0 < p.eps ∧
    p.projBackMic = none ∧ 2 ≤ 3 :=
  ⟨fun _ ms Y => (fun k f n => ‖Y k f n‖, ms), ⟨5, none, 1e-5⟩, fun _ _ _ _ _ _ => norm_nonneg _,
    by norm_num, rfl, by norm_num⟩

/-- **C17 (AuxIVA-IP).** Silence in, silence out. -/
theorem auxiva_silence (p : IpParams) (he : 0 < p.eps) (s : ℕ) (hs : s ≤ C) (X : Sig C F N)
    (hX : ∀ c f n, X c f n = 0) (model : SourceModel σ F N) (hmod : NonnegModel model)
    (reset : σ → σ) (ms : σ) (hm : ∀ m, p.projBackMic = some m → m < C) :
    ∃ out : IpOut σ s F N, auxivaForward p (some s) X model reset ms = .ok ⟨s, out⟩ ∧
      ∀ k f n, out.Y k f n = 0 := by
  obtain ⟨out, W, a, h, -, hY⟩ := auxiva_output p he s hs X model hmod reset ms hm
  exact ⟨out, h, fun k f n => by simp [hY, hX]⟩

example : ∃ out : IpOut Unit 2 3 4, auxivaForward ⟨10, some 2, 1e-5⟩ (some 2) (fun _ _ _ => 0 : Sig 3 3 4) (laplaceModel 1e-5)
    id () = .ok ⟨2, out⟩ ∧ ∀ k f n, out.Y k f n = 0 :=
  auxiva_silence _ (by norm_num) 2 (by norm_num) _ (fun _ _ _ => rfl) _
    (fun s ms Y k f n => Demo.laplace_nonneg s ms Y k f n) _ _ (by simp)

/-- **C73 is violated.** Unlike T-ISS, AuxIVA-IP with `n_iter = 0` and projection back does not return its input: every
channel except the reference microphone is zeroed and the reference is scaled by `1/(1+1e-5)`. -/
theorem auxiva_zero_iterations_violated (eps : ℝ) (m : Fin C) (X : Sig C F N)
    (model : SourceModel σ F N) (reset : σ → σ) (ms : σ) :
    ∃ out : IpOut σ C F N, auxivaForward ⟨0, some m.1, eps⟩ (some C) X model reset ms = .ok ⟨C, out⟩ ∧
      ∀ k f n, out.Y k f n = if k = m then X m f n / (1 + 1e-5) else 0 := by
  have hpb : projectionBackDemixing (1 : Matrix (Fin C) (Fin C) ℂ) none m
      = .ok fun k => if k = m then 1 / (1 + 1e-5) else 0 := by
    unfold projectionBackDemixing
    simp only [m.2, if_true]
    obtain ⟨x, hx, hn⟩ := solveLoadedGeneral_normal (1 : Matrix (Fin C) (Fin C) ℂ)ᵀ
      (Matrix.of fun (c : Fin C) (_ : Fin 1) => if c.1 = m.1 then (1 : ℂ) else 0) 1e-5
      (load := 1e-5) (by norm_num)
    rw [hx]
    simp only [bind, Except.bind, pure, Except.pure, Except.ok.injEq]
    funext k
    have h := hn 0 k
    have hw : ∀ i, rowWeight (1 : Matrix (Fin C) (Fin C) ℂ)ᵀ 1e-5 i = 1 := by
      intro i
      unfold rowWeight clampMin
      have : ∑ j, ‖(1 : Matrix (Fin C) (Fin C) ℂ)ᵀ i j‖ ^ 2 = 1 := by
        rw [Finset.sum_eq_single i]
        · simp
        · intro j _ hj; simp [Matrix.one_apply, hj]
        · simp
      rw [this, Real.sqrt_one, max_eq_left (by norm_num)]
      norm_num
    simp only [hw] at h
    simp only [Matrix.transpose_one, Matrix.one_mulVec, Matrix.of_apply] at h
    rw [Finset.sum_eq_single k (by intro j _ hj; simp [Matrix.one_apply, hj]) (by simp)] at h
    simp only [Matrix.one_apply_eq, star_one, one_mul, Complex.ofReal_one, one_pow] at h
    have hne : (1 + 1e-5 : ℂ) ≠ 0 := by norm_num
    have h' : x k 0 * (1 + 1e-5) = if k.1 = m.1 then 1 else 0 := by
      push_cast at h
      linear_combination h
    rw [eq_div_of_mul_eq hne h']
    by_cases hk : k = m
    · simp [hk]
    · have : k.1 ≠ m.1 := fun hh => hk (Fin.ext hh)
      simp [hk, this]
  have hW0 : (Matrix.of fun (k c : Fin C) => if k.1 = c.1 then (1 : ℂ) else 0) = 1 := by
    ext k c; simp [Matrix.one_apply, Fin.ext_iff]
  refine ⟨⟨fun k f n => X k f n * (if k = m then 1 / (1 + 1e-5) else 0), reset ms⟩, ?_, ?_⟩
  · unfold auxivaForward
    simp only [le_refl, dif_pos, hW0]
    have h1 : (seqAll fun f => orthogonalConstraint (1 : Matrix (Fin C) (Fin C) ℂ) (inputCov X f) eps)
        = .ok fun _ => none := seqAll_ok_iff.2 fun f => orthogonal_constraint_square _ _ _
    have h2 : (seqAll fun _ : Fin F => projectionBackDemixing (1 : Matrix (Fin C) (Fin C) ℂ) none m)
        = .ok fun _ k => if k = m then 1 / (1 + 1e-5) else 0 := seqAll_ok_iff.2 fun f => hpb
    simp only [h1, bind, Except.bind, iterM, h2]
    rfl
  · intro k f n
    simp only
    by_cases hk : k = m
    · subst hk; simp; ring
    · simp [hk]

end Torchiva.Props
