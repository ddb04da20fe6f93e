import Verif.Props.ContrastIp
import Verif.Props.Contrast
import Mathlib.Analysis.Normed.Module.FiniteDimension
import Mathlib.Topology.Order.MonotoneConvergence

/-!
# The objective of IVA is bounded below and converges (C152)
-/

namespace Torchiva.Props

open Torchiva Matrix Spec Filter Topology

variable {C F N : ℕ}

private lemma det_le_rows (W : Matrix (Fin C) (Fin C) ℂ) : ‖W.det‖ ≤ (C.factorial : ℝ) * ∏ k, ‖(W k : Fin C → ℂ)‖ := by
  rw [Matrix.det_apply]
  refine le_trans (norm_sum_le _ _) ?_
  have h : ∀ σ : Equiv.Perm (Fin C), ‖Equiv.Perm.sign σ • ∏ i, W (σ i) i‖ ≤ ∏ k, ‖(W k : Fin C → ℂ)‖ := fun σ => by
    have h1 : ‖Equiv.Perm.sign σ • ∏ i, W (σ i) i‖ = ‖∏ i, W (σ i) i‖ := by
      rcases Int.units_eq_one_or (Equiv.Perm.sign σ) with h | h <;> simp [h]
    rw [h1, norm_prod, ← Equiv.prod_comp σ fun k => ‖(W k : Fin C → ℂ)‖]
    exact Finset.prod_le_prod (fun _ _ => norm_nonneg _) fun i _ => norm_le_pi_norm (W (σ i)) i
  refine le_trans (Finset.sum_le_sum fun σ _ => h σ) ?_
  simp [Fintype.card_perm]

private lemma coeff_le {ι : Type} [Fintype ι] (v : ι → Fin N → ℂ) (hv : LinearIndependent ℂ v) :
    ∃ K : ℝ, 0 < K ∧ ∀ u : ι → ℂ, ‖u‖ ≤ K * ‖∑ i, u i • v i‖ := by
  classical
  have hk : LinearMap.ker (Fintype.linearCombination ℂ v) = ⊥ :=
    LinearMap.ker_eq_bot'.2 fun u hu => funext (Fintype.linearIndependent_iff.1 hv u (by simpa [Fintype.linearCombination_apply] using hu))
  obtain ⟨K, hK, h⟩ := LinearMap.exists_antilipschitzWith (Fintype.linearCombination ℂ v) hk
  refine ⟨K, hK, fun u => ?_⟩
  have := h.le_mul_dist u 0
  simpa [Fintype.linearCombination_apply] using this

private lemma sup_le_meanNorm (hN : 0 < N) (y : Fin F → Fin N → ℂ) (f : Fin F) : ‖y f‖ ≤ N * meanNorm y := by
  have hNr : (0 : ℝ) < N := by exact_mod_cast hN
  have e : (N : ℝ) * meanNorm y = ∑ n, √(framePower y n) := by unfold meanNorm; field_simp
  rw [e]
  refine (pi_norm_le_iff_of_nonneg (Finset.sum_nonneg fun _ _ => Real.sqrt_nonneg _)).2 fun n => ?_
  refine le_trans ?_ (Finset.single_le_sum (f := fun n => √(framePower y n)) (fun _ _ => Real.sqrt_nonneg _) (Finset.mem_univ n))
  refine Real.le_sqrt_of_sq_le ?_
  exact Finset.single_le_sum (f := fun f => ‖y f n‖ ^ 2) (fun _ _ => by positivity) (Finset.mem_univ f)

/-- The signals from which the outputs are formed at one frequency: the channels, and the channels delayed by `D + 1, ..., D + T`
frames. -/
def heard (X : Fin C → Fin F → Fin N → ℂ) (T D : ℕ) (f : Fin F) : Fin C ⊕ Fin C × Fin T → Fin N → ℂ
  | .inl c => X c f
  | .inr (c, t) => fun n => past (X c f) n (D + 1 + t)

/-- **C152.**  If the channels and their delayed copies are linearly independent at every frequency, the scale-free Laplace objective is
bounded below: one bound holds for all invertible demixing matrices and all dereverberation filters, and none of the outputs is
silent. -/
theorem laplace_objective_bounded (hN : 0 < N) (X : Fin C → Fin F → Fin N → ℂ) (T D : ℕ)
    (hX : ∀ f, LinearIndependent ℂ (heard X T D f)) :
    ∃ B : ℝ, ∀ (W : Fin F → Matrix (Fin C) (Fin C) ℂ) (G : Fin C → Fin F → Fin C → Fin T → ℂ) (Y : Fin C → Fin F → Fin N → ℂ),
      (∀ f, (W f).det ≠ 0) →
      (∀ k f n, Y k f n = (∑ c, W f k c * X c f n) - ∑ c, ∑ t, G k f c t * past (X c f) n (D + 1 + t)) →
      B ≤ laplaceLoss Y + logdetTerm W ∧ (0 < F → ∀ k, 0 < meanNorm (Y k)) := by
  have hNr : (0 : ℝ) < N := by exact_mod_cast hN
  choose K hK hle using fun f => coeff_le (heard X T D f) (hX f)
  refine ⟨∑ f, (-2 * (C * Real.log (K f * N)) - 2 * Real.log C.factorial), fun W G Y hW hY => ?_⟩
  have hrow : ∀ f k, 0 < ‖(W f k : Fin C → ℂ)‖ := fun f k => by
    refine norm_pos_iff.2 fun h0 => hW f (Matrix.det_eq_zero_of_row_eq_zero k fun c => congrFun h0 c)
  have hb : ∀ k f, ‖(W f k : Fin C → ℂ)‖ ≤ K f * N * meanNorm (Y k) := fun k f => by
    set u : Fin C ⊕ Fin C × Fin T → ℂ := Sum.elim (W f k) fun ct => - G k f ct.1 ct.2 with hu
    have h1 : ∑ i, u i • heard X T D f i = Y k f := by
      funext n
      rw [hY, Fintype.sum_sum_type]
      simp [hu, heard, Fintype.sum_prod_type, Finset.sum_apply, sub_eq_add_neg]
    have h2 : ‖(W f k : Fin C → ℂ)‖ ≤ ‖u‖ := (pi_norm_le_iff_of_nonneg (norm_nonneg _)).2 fun c => norm_le_pi_norm u (.inl c)
    have h3 := hle f u
    rw [h1] at h3
    calc ‖(W f k : Fin C → ℂ)‖ ≤ K f * ‖Y k f‖ := h2.trans h3
      _ ≤ K f * (N * meanNorm (Y k)) := mul_le_mul_of_nonneg_left (sup_le_meanNorm hN _ f) (hK f).le
      _ = _ := by ring
  have hm : 0 < F → ∀ k, 0 < meanNorm (Y k) := fun hF k => by
    have h := lt_of_lt_of_le (hrow ⟨0, hF⟩ k) (hb k ⟨0, hF⟩)
    exact (mul_pos_iff_of_pos_left (mul_pos (hK _) hNr)).1 h
  refine ⟨?_, hm⟩
  have e1 : laplaceLoss Y = ∑ f : Fin F, ∑ k, 2 * Real.log (meanNorm (Y k)) := by
    simp only [laplaceLoss, Finset.sum_const, Finset.card_univ, Fintype.card_fin, nsmul_eq_mul, Finset.mul_sum]
    exact Finset.sum_congr rfl fun k _ => by ring
  have e2 : logdetTerm W = ∑ f, - 2 * Real.log ‖(W f).det‖ := by simp [logdetTerm, Finset.mul_sum]
  rw [e1, e2, ← Finset.sum_add_distrib]
  refine Finset.sum_le_sum fun f _ => ?_
  have hF : 0 < F := f.pos
  have hdet : Real.log ‖(W f).det‖ ≤ Real.log C.factorial + ∑ k, Real.log ‖(W f k : Fin C → ℂ)‖ := by
    have h1 := Real.log_le_log (norm_pos_iff.2 (hW f)) (det_le_rows (W f))
    rwa [Real.log_mul (by exact_mod_cast C.factorial_ne_zero) (Finset.prod_ne_zero_iff.2 fun k _ => (hrow f k).ne'),
      Real.log_prod fun k _ => (hrow f k).ne'] at h1
  have hlog : ∀ k, Real.log ‖(W f k : Fin C → ℂ)‖ ≤ Real.log (K f * N) + Real.log (meanNorm (Y k)) := fun k => by
    have h1 := Real.log_le_log (hrow f k) (hb k f)
    rwa [Real.log_mul (mul_pos (hK f) hNr).ne' (hm hF k).ne'] at h1
  have hsum := Finset.sum_le_sum fun k (_ : k ∈ Finset.univ) => hlog k
  rw [Finset.sum_add_distrib, Finset.sum_const, Finset.card_univ, Fintype.card_fin, nsmul_eq_mul] at hsum
  rw [← Finset.mul_sum]
  linarith

/-- One channel with the frames `1` and `2`, and its copy delayed by one frame. -/
example : ∀ f, LinearIndependent ℂ (heard (fun (_ : Fin 1) (_ : Fin 1) (n : Fin 2) => if n = 0 then (1 : ℂ) else 2) 1 0 f) := by
  intro f
  rw [Fintype.linearIndependent_iff]
  intro g hg
  have h0 := congrFun hg 0
  have h1 := congrFun hg 1
  simp [Fintype.sum_sum_type, Fintype.sum_prod_type, heard, past] at h0 h1
  rintro (c | ⟨c, t⟩)
  · rw [Subsingleton.elim c 0]; exact h0
  · rw [h0] at h1
    rw [Subsingleton.elim c 0, Subsingleton.elim t 0]
    simpa using h1

/-- **C152 (T-ISS).**  Determined T-ISS with `LaplaceModel(eps=e)` and no projection back, with or without dereverberation: `o n` is what
the call with `n` iterations returns.  If the channels and their delayed copies are linearly independent at every frequency and no
frame of the outputs falls below the floor of the source model, the objective never increases and converges to a finite limit as
the number of iterations grows. -/
theorem tiss_laplace_converges (p : TissParams) (he : 0 < p.eps) (hF : 0 < F) (hN : 0 < N) (hp : p.projBackMic = none)
    (X : Sig C F N) (hX : ∀ f, LinearIndependent ℂ (heard X p.nTaps p.nDelay f)) (e : ℝ) (hee : 0 < e) (reset : Unit → Unit)
    (o : ℕ → TissOut Unit C C F N)
    (h : ∀ n, tissForward { p with nIter := n } none X (laplaceModel e) reset () = .ok ⟨C, o n⟩)
    (hloud : ∀ i k n, e ≤ 2 * √(framePower ((o i).Y k) n)) :
    Antitone (fun n => laplaceLoss (o n).Y + logdetTerm (fun f => Matrix.of fun k c => (o n).W k f c)) ∧
    ∃ l, Tendsto (fun n => laplaceLoss (o n).Y + logdetTerm (fun f => Matrix.of fun k c => (o n).W k f c)) atTop (𝓝 l) := by
  obtain ⟨B, hB⟩ := laplace_objective_bounded hN X p.nTaps p.nDelay hX
  have key : ∀ n, B ≤ laplaceLoss (o n).Y + logdetTerm (fun f => Matrix.of fun k c => (o n).W k f c) ∧ ∀ k, 0 < meanNorm ((o n).Y k) := by
    intro n
    obtain ⟨a, G, ha, hG, hY⟩ := tiss_output_filters_input { p with nIter := n } none X _ reset () C (o n) (h n)
    have := hB (fun f => Matrix.of fun k c => (o n).W k f c) (fun k f c t => G k f c (p.nDelay + 1 + t)) (o n).Y
      (fun f => (tiss_demixing_invertible { p with nIter := n } he X _ reset () (o n) (h n) f).ne_zero) fun k f m => by
        rw [hY k f m, ha (.inl hp), one_mul]
        congr 1
        refine Finset.sum_congr rfl fun c _ => ?_
        change ∑ d ∈ Finset.range (p.nDelay + p.nTaps + 1), G k f c d * past (X c f) m d = _
        rw [show p.nDelay + p.nTaps + 1 = p.nDelay + 1 + p.nTaps by ring, Finset.sum_range_add, Finset.sum_eq_zero, zero_add, Finset.sum_range]
        intro d hd
        rw [hG k f c d (.inl (by have := Finset.mem_range.1 hd; show d ≤ p.nDelay; omega)), zero_mul]
    exact ⟨this.1, this.2 hF⟩
  have hanti : Antitone (fun n => laplaceLoss (o n).Y + logdetTerm (fun f => Matrix.of fun k c => (o n).W k f c)) :=
    antitone_nat_of_succ_le fun n => tiss_laplace_descent { p with nIter := n } he hN hp X e hee reset (o n) (o (n + 1)) (h n) (h (n + 1))
      (hloud n) (key (n + 1)).2
  exact ⟨hanti, _, tendsto_atTop_ciInf hanti ⟨B, by rintro _ ⟨n, rfl⟩; exact (key n).1⟩⟩

/-- Without dereverberation the condition is that the channels are linearly independent. -/
lemma heard_no_taps (X : Fin C → Fin F → Fin N → ℂ) (D : ℕ) (f : Fin F) (h : LinearIndependent ℂ fun c => X c f) :
    LinearIndependent ℂ (heard X 0 D f) := by
  rw [Fintype.linearIndependent_iff] at h ⊢
  intro g hg i
  rw [Fintype.sum_sum_type] at hg
  rcases i with c | ⟨-, t⟩
  · exact h (fun c => g (.inl c)) (by simpa [heard, Fintype.sum_prod_type] using hg) c
  · exact t.elim0

/-- Non-vacuity of `tiss_laplace_converges`: one channel with the frames `1` and `2`.  Every output is a multiple of the channel by a number
between `1 / 2` and `2`. -/
example : ∃ (p : TissParams) (X : Sig 1 1 2) (o : ℕ → TissOut Unit 1 1 1 2), 0 < p.eps ∧ p.projBackMic = none ∧
    (∀ f, LinearIndependent ℂ (heard X p.nTaps p.nDelay f)) ∧
    (∀ n, tissForward { p with nIter := n } none X (laplaceModel 1e-5) id () = .ok ⟨1, o n⟩) ∧
    ∀ i k n, 1e-5 ≤ 2 * √(framePower ((o i).Y k) n) := by
  set p : TissParams := ⟨0, 0, 0, none, false, 1e-5⟩ with hp
  set X : Sig 1 1 2 := fun _ _ n => if n = 0 then 1 else 2 with hX
  have he : 0 < p.eps := by norm_num [hp]
  have hex : ∀ n : ℕ, ∃ o : TissOut Unit 1 1 1 2, tissForward { p with nIter := n } none X (laplaceModel 1e-5) id () = .ok ⟨1, o⟩ :=
    fun n => tiss_succeeds { p with nIter := n } he none X (fun k h => by cases h) (fun m h => by cases h) (laplaceModel 1e-5) id ()
  choose o ho using hex
  have hr : ∀ i, ∃ r : ℝ, 1 / 2 ≤ r ∧ r ≤ 2 ∧ ∀ n, (o i).Y 0 0 n = (r : ℂ) * X 0 0 n := by
    intro i
    induction i with
    | zero =>
      obtain ⟨o0, h0, hY⟩ : ∃ o0 : TissOut Unit 1 1 1 2, tissForward p none X (laplaceModel 1e-5) id () = .ok ⟨1, o0⟩ ∧
          ∀ k f n, o0.Y k f n = X (Fin.castLE le_rfl k) f n := tiss_zero_iterations p rfl he none le_rfl X (laplaceModel 1e-5) id ()
      have : o 0 = o0 := by
        have := (ho 0).symm.trans h0
        simpa using this
      refine ⟨1, by norm_num, by norm_num, fun n => ?_⟩
      rw [this, hY 0 0 n]
      simp [hX]
    | succ i ih =>
      obtain ⟨r, h1, h2, hY⟩ := ih
      have hstep := tiss_single_channel { p with nIter := i } he (by norm_num [hp]) rfl rfl X (laplaceModel 1e-5) id (o i) (o (i + 1))
        (ho i) (ho (i + 1)) 0
      have hr0 : 0 < r := by linarith
      have hn0 : ‖(o i).Y 0 0 0‖ = r := by rw [hY]; simp [hX, abs_of_pos hr0]
      have hn1 : ‖(o i).Y 0 0 1‖ = 2 * r := by rw [hY]; simp [hX, abs_of_pos hr0]; ring
      have hg : max ((∑ f, ∑ n, ‖(o i).Y 0 f n‖ ^ 2) / (((1 : ℕ) : ℝ) * ((2 : ℕ) : ℝ))) p.eps = 5 * r ^ 2 / 2 := by
        rw [Fin.sum_univ_one, Fin.sum_univ_two, hn0, hn1, max_eq_left]
        · push_cast; ring
        · simp only [hp]; push_cast; nlinarith
      have hw0 : (laplaceModel 1e-5 1 () (o i).Y).1 0 0 0 = 1 / (2 * r) := by
        simp only [laplaceModel, laplaceForward, clampMin, magSq_eq, Fin.sum_univ_one, hn0, Real.sqrt_sq hr0.le]
        rw [max_eq_left (by linarith)]
      have hw1 : (laplaceModel 1e-5 1 () (o i).Y).1 0 0 1 = 1 / (4 * r) := by
        simp only [laplaceModel, laplaceForward, clampMin, magSq_eq, Fin.sum_univ_one, hn1, Real.sqrt_sq (show 0 ≤ 2 * r by linarith)]
        rw [max_eq_left (by linarith)]; ring
      have hq : max ((∑ n, (laplaceModel 1e-5 1 () (o i).Y).1 0 0 n * ‖(o i).Y 0 0 n‖ ^ 2) / ((2 : ℕ) : ℝ)) p.eps = 3 * r / 4 := by
        rw [Fin.sum_univ_two, hn0, hn1, hw0, hw1, show (1 / (2 * r) * r ^ 2 + 1 / (4 * r) * (2 * r) ^ 2) / ((2 : ℕ) : ℝ) = 3 * r / 4 by
          push_cast; field_simp; ring]
        exact max_eq_left (by simp only [hp]; linarith)
      set d : ℝ := √(5 * r ^ 2 / 2 * (3 * r / 4)) with hd
      have hd0 : 0 < d := Real.sqrt_pos.2 (by positivity)
      have hd2 : d ^ 2 = 15 * r ^ 3 / 8 := by rw [hd, Real.sq_sqrt (by positivity)]; ring
      refine ⟨r / d, ?_, ?_, fun n => ?_⟩
      · rw [le_div_iff₀ hd0]
        refine le_of_sq_le_sq ?_ hr0.le
        rw [mul_pow, hd2]
        nlinarith [sq_nonneg r, mul_nonneg (sq_nonneg r) (sub_nonneg.2 h2)]
      · rw [div_le_iff₀ hd0]
        refine le_of_sq_le_sq ?_ (by positivity)
        rw [mul_pow, hd2]
        nlinarith [sq_nonneg r, mul_nonneg (sq_nonneg r) (sub_nonneg.2 h1)]
      · rw [hstep n, hY n]
        change _ / ((√(max ((∑ f, ∑ n, ‖(o i).Y 0 f n‖ ^ 2) / (((1 : ℕ) : ℝ) * ((2 : ℕ) : ℝ))) p.eps * _) : ℝ) : ℂ) = _
        rw [hg]
        change _ / ((√(_ * max ((∑ n, (laplaceModel 1e-5 1 () (o i).Y).1 0 0 n * ‖(o i).Y 0 0 n‖ ^ 2) / ((2 : ℕ) : ℝ)) p.eps) : ℝ) : ℂ) = _
        rw [hq, ← hd]
        push_cast
        ring
  refine ⟨p, X, o, he, rfl, fun f => heard_no_taps X 0 f ?_, ho, fun i k n => ?_⟩
  · rw [Fintype.linearIndependent_iff]
    intro g hg c
    have := congrFun hg 0
    simp [hX] at this
    rw [Subsingleton.elim c 0]; exact this
  · obtain ⟨r, h1, -, hY⟩ := hr i
    obtain rfl : k = 0 := Subsingleton.elim _ _
    have h3 : 1 / 2 ≤ √(framePower ((o i).Y 0) n) := by
      refine Real.le_sqrt_of_sq_le ?_
      simp only [framePower, Fin.sum_univ_one, hY n, norm_mul, Complex.norm_real, Real.norm_eq_abs]
      have h4 : 1 ≤ ‖X 0 0 n‖ := by simp only [hX]; split_ifs <;> norm_num
      rw [abs_of_pos (by linarith : 0 < r)]
      exact pow_le_pow_left₀ (by norm_num) (by nlinarith) 2
    linarith

/-- **C154.**  Two linearly independent channels, AuxIVA-IP2 with `LaplaceModel(eps=e)` and no projection back.  There is a
bound, which depends on the recording only, such that for every number `K` of iterations that are away from the clamps (`Y n` is the
output after `n` iterations, `W n` its demixing matrices) the objective does not increase in any of them, stays above the bound, and in
one of them decreases by at most the `K`-th part of the distance of the start from the bound. -/
theorem ip2_laplace_settles (eps : ℝ) (he : 0 < eps) (hF : 0 < F) (hN : 0 < N) (X : Sig 2 F N)
    (hX : ∀ f, LinearIndependent ℂ fun c => X c f) (e : ℝ) (hee : 0 < e) (reset : Unit → Unit) :
    ∃ B : ℝ, ∀ (K : ℕ) (Y : ℕ → Sig 2 F N), (∀ n ≤ K, auxiva2Forward n none eps X (laplaceModel e) reset () = .ok (Y n)) →
      (∀ i < K, ∀ f, Ip2Regular (fun c => X c f) (fun k n => 1 / max (2 * √(framePower (Y i k) n)) e
        * max ((∑ f, ∑ n, ‖Y i k f n‖ ^ 2) / (F * N)) 1e-5) eps) →
      (∀ i < K, ∀ k n, e ≤ 2 * √(framePower (Y i k) n)) →
      ∃ W : ℕ → Fin F → Matrix (Fin 2) (Fin 2) ℂ,
        (∀ n ≤ K, (∀ f, (W n f).det ≠ 0) ∧ ∀ k f m, Y n k f m = ∑ c, W n f k c * X c f m) ∧
        (∀ n < K, laplaceLoss (Y (n + 1)) + logdetTerm (W (n + 1)) ≤ laplaceLoss (Y n) + logdetTerm (W n)) ∧
        (∀ n ≤ K, B ≤ laplaceLoss (Y n) + logdetTerm (W n)) ∧
        (0 < K → ∃ n < K, (laplaceLoss (Y n) + logdetTerm (W n)) - (laplaceLoss (Y (n + 1)) + logdetTerm (W (n + 1)))
          ≤ (laplaceLoss (Y 0) + logdetTerm (W 0) - B) / K) := by
  obtain ⟨B, hB⟩ := laplace_objective_bounded hN X 0 0 fun f => heard_no_taps X 0 f (hX f)
  refine ⟨B, fun K Y h hreg hloud => ?_⟩
  have huniq : ∀ (f : Fin F) (k : Fin 2) (U V : Matrix (Fin 2) (Fin 2) ℂ),
      (∀ m, ∑ c, U k c * X c f m = ∑ c, V k c * X c f m) → ∀ c, U k c = V k c := fun f k U V hUV c => by
    have := Fintype.linearIndependent_iff.1 (hX f) (fun c => U k c - V k c) (by
      funext m
      have := hUV m
      simp only [Fin.sum_univ_two, Pi.add_apply, Pi.smul_apply, smul_eq_mul, Pi.zero_apply] at this ⊢
      linear_combination this) c
    exact sub_eq_zero.1 this
  have hex : ∀ n, ∃ W : Fin F → Matrix (Fin 2) (Fin 2) ℂ, n ≤ K →
      (∀ f, (W f).det ≠ 0) ∧ ∀ k f m, Y n k f m = ∑ c, W f k c * X c f m := by
    intro n
    induction n with
    | zero =>
      refine ⟨fun _ => 1, fun hn => ⟨fun f => by simp, fun k f m => ?_⟩⟩
      have h0 := (h 0 hn).symm.trans (ip2_zero_iterations none eps X (laplaceModel e) reset ())
      rw [Except.ok.inj h0]
      simp [Matrix.one_apply]
    | succ n ih =>
      obtain ⟨W, hW⟩ := ih
      by_cases hn : n + 1 ≤ K
      · obtain ⟨h1, h2⟩ := hW (by omega)
        obtain ⟨W', h3, h4, -⟩ := ip2_laplace_descent n eps he hF hN X e hee reset (Y n) (Y (n + 1)) (h n (by omega)) (h (n + 1) hn)
          (hreg n (by omega)) (hloud n (by omega)) W h1 h2
        exact ⟨W', fun _ => ⟨h3, h4⟩⟩
      · exact ⟨W, fun h => absurd h hn⟩
  choose W hW using hex
  have hdesc : ∀ n < K, laplaceLoss (Y (n + 1)) + logdetTerm (W (n + 1)) ≤ laplaceLoss (Y n) + logdetTerm (W n) := fun n hn => by
    obtain ⟨h1, h2⟩ := hW n (by omega)
    obtain ⟨W', h3, h4, h5⟩ := ip2_laplace_descent n eps he hF hN X e hee reset (Y n) (Y (n + 1)) (h n (by omega)) (h (n + 1) hn)
      (hreg n hn) (hloud n hn) (W n) h1 h2
    have : W' = W (n + 1) := by
      funext f
      ext k c
      exact huniq f k _ _ (fun m => (h4 k f m).symm.trans ((hW (n + 1) hn).2 k f m)) c
    rwa [this] at h5
  have hbd : ∀ n ≤ K, B ≤ laplaceLoss (Y n) + logdetTerm (W n) := fun n hn =>
    (hB (W n) (fun _ _ _ => Fin.elim0) (Y n) (hW n hn).1 fun k f m => by rw [(hW n hn).2 k f m]; simp).1
  refine ⟨W, hW, hdesc, hbd, fun hK => ?_⟩
  by_contra hc
  push Not at hc
  have hK' : (0 : ℝ) < K := by exact_mod_cast hK
  have hsum := Finset.sum_lt_sum_of_nonempty (Finset.nonempty_range_iff.2 hK.ne') fun n hn => hc n (Finset.mem_range.1 hn)
  rw [Finset.sum_range_sub', Finset.sum_const, Finset.card_range, nsmul_eq_mul, mul_div_cancel₀ _ hK'.ne'] at hsum
  have := hbd K le_rfl
  linarith

/-- A recording and an iteration to which `ip2_laplace_settles` applies. -/
example : ∃ (X : Sig 2 1 2) (Y : ℕ → Sig 2 1 2), (∀ f, LinearIndependent ℂ fun c => X c f) ∧
    (∀ n ≤ 1, auxiva2Forward n none 1e-5 X (laplaceModel 1e-5) id () = .ok (Y n)) ∧
    (∀ i < 1, ∀ f, Ip2Regular (fun c => X c f) (fun k n => 1 / max (2 * √(framePower (Y i k) n)) 1e-5
      * max ((∑ f, ∑ n, ‖Y i k f n‖ ^ 2) / ((1 : ℕ) * (2 : ℕ))) 1e-5) 1e-5) ∧
    ∀ i < 1, ∀ k n, (1e-5 : ℝ) ≤ 2 * √(framePower (Y i k) n) := by
  obtain ⟨X, Y', h0, h1, hr, hl, -, hX⟩ := ip2_laplace_demo
  refine ⟨X, fun n => if n = 0 then X else Y', hX, fun n hn => ?_, fun i hi f => ?_, fun i hi k n => ?_⟩
  · interval_cases n
    exacts [h0, h1]
  · obtain rfl : i = 0 := by omega
    exact hr f
  · obtain rfl : i = 0 := by omega
    exact hl k n

end Torchiva.Props
