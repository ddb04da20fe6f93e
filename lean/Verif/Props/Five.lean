import Verif.Proofs.Five

/-!
# Properties C26-C29, C31: FIVE
-/

namespace Torchiva.Props

open Torchiva Matrix Spec
open scoped ComplexOrder

variable {σ : Type} {C F N : ℕ}

/-- The input is well conditioned at one frequency: every filter `v` has output power at least
`1e-5 ‖v‖²`, i.e. all eigenvalues of the sample covariance are at least 1e-5. -/
def WellConditioned (x : Fin C → Fin N → ℂ) : Prop :=
  ∀ v : Fin C → ℂ, 1e-5 * ∑ k, ‖v k‖ ^ 2 ≤ meanPower (filt v x)

private lemma wc_power {x : Fin C → Fin N → ℂ} (h : WellConditioned x) :
    ∀ v, 1e-5 * ∑ k, ‖v k‖ ^ 2 ≤ power (fiveCov x) v := fun v => by
  rw [fiveCov_power]; exact h v

/-- **C27 (partial: any number of channels except two).** The whitened channels are uncorrelated with unit power. -/
theorem five_whitening_partial (hC : C ≠ 2) (solver) (hc : EighContract C solver) (x : Fin C → Fin N → ℂ)
    (hx : WellConditioned x) :
    ∃ wh, fiveWhiten solver (fiveCov x) = .ok wh ∧
      ∀ i j, xcorr (fun n => ∑ d, wh.Q i d * x d n) (fun n => ∑ d, wh.Q j d * x d n) = if i = j then 1 else 0 := by
  obtain ⟨wh, h, -, -, h2⟩ := whiten_spec hC hc (fiveCov_herm x)
  refine ⟨wh, h, fun i j => ?_⟩
  have e := congrFun (congrFun (h2 (wc_power hx)).1 i) j
  have hf : ∀ j, (fun n => ∑ d, wh.Q j d * x d n) = filt (fun d => star (wh.Q j d)) x := by
    intro j; funext n; simp [filt]
  rw [Matrix.one_apply] at e
  rw [← e, hf j]
  have h3 : (wh.Q * fiveCov x * wh.Qᴴ) i j = ∑ d, wh.Q i d * (fiveCov x *ᵥ fun d => star (wh.Q j d)) d := by
    rw [Matrix.mul_assoc, Matrix.mul_apply]
    rfl
  rw [h3]
  simp only [fiveCov_row, xcorr, Finset.sum_mul, Finset.sum_div, Finset.mul_sum]
  rw [Finset.sum_comm]
  exact Finset.sum_congr rfl fun n _ => Finset.sum_congr rfl fun c _ => by ring

private noncomputable def x4 : Fin 2 → Fin 4 → ℂ :=
  ![![1, 1, 1, 1], ![Complex.I, Complex.I, Complex.I, -Complex.I]]

private lemma x4_cov : fiveCov x4 = !![1, -Complex.I / 2; Complex.I / 2, 1] := by
  rw [fiveCov_eq]
  ext i j
  fin_cases i <;> fin_cases j <;> simp [wgram, x4, Fin.sum_univ_four] <;> ring

private lemma x4_eigh (solver) : eigh solver (fiveCov x4) none 1e-15
    = .ok ⟨![0.5, 1.5], Matrix.of fun i j => (!![-(1 / 2), Complex.I / 2; -Complex.I / 2, 1 / 2] : Matrix (Fin 2) (Fin 2) ℂ) i j
        / ((√(1 / 2) : ℝ) : ℂ)⟩ := by
  have hs : √(max (1 : ℝ) 1e-15) = 1 := by
    rw [max_eq_left (by norm_num)]; exact Real.sqrt_one
  have h1 : (1e-15 : ℝ) ≤ √(1 / 2) := by
    apply Real.le_sqrt_of_sq_le; norm_num
  rw [x4_cov]
  unfold eigh
  rw [dif_pos rfl]
  rw [show (Option.map (fun B : Matrix (Fin 2) (Fin 2) ℂ => (⟨2, 2, B⟩ : DynMat)) none) = none from rfl, eigh2x2_none]
  unfold eigh2x2Plain
  have e1 : ((!![1, -Complex.I / 2; Complex.I / 2, 1] : Matrix (Fin 2) (Fin 2) ℂ) 0 0).re
      + ((!![1, -Complex.I / 2; Complex.I / 2, 1] : Matrix (Fin 2) (Fin 2) ℂ) 1 1).re = 2 := by simp; norm_num
  have e2 : ((!![1, -Complex.I / 2; Complex.I / 2, 1] : Matrix (Fin 2) (Fin 2) ℂ) 0 0).re
      * ((!![1, -Complex.I / 2; Complex.I / 2, 1] : Matrix (Fin 2) (Fin 2) ℂ) 1 1).re
      - magSq ((!![1, -Complex.I / 2; Complex.I / 2, 1] : Matrix (Fin 2) (Fin 2) ℂ) 0 1) = 3 / 4 := by
    rw [magSq_eq]; simp; norm_num
  simp only [e1, e2]
  have e3 : √(clampMin ((2 : ℝ) ^ 2 - 4 * (3 / 4)) 1e-15) = 1 := by
    rw [← hs]; congr 1; simp only [clampMin]; norm_num
  rw [e3]
  have e4 : (0.5 : ℝ) * (2 - 1) = 0.5 := by norm_num
  have e5 : (0.5 : ℝ) * (2 + 1) = 1.5 := by norm_num
  rw [e4, e5]
  have hV : (!![((0.5 : ℝ) : ℂ) - (!![1, -Complex.I / 2; Complex.I / 2, 1] : Matrix (Fin 2) (Fin 2) ℂ) 1 1,
        (!![1, -Complex.I / 2; Complex.I / 2, 1] : Matrix (Fin 2) (Fin 2) ℂ) 1 0;
      (!![1, -Complex.I / 2; Complex.I / 2, 1] : Matrix (Fin 2) (Fin 2) ℂ) 0 1,
        ((1.5 : ℝ) : ℂ) - (!![1, -Complex.I / 2; Complex.I / 2, 1] : Matrix (Fin 2) (Fin 2) ℂ) 0 0] : Matrix (Fin 2) (Fin 2) ℂ)
      = !![-(1 / 2), Complex.I / 2; -Complex.I / 2, 1 / 2] := by
    ext i j; fin_cases i <;> fin_cases j <;> simp <;> norm_num
  rw [hV]
  unfold normalizeCols
  have hn : ∀ j : Fin 2, clampMin (√(∑ i, magSq ((!![-(1 / 2), Complex.I / 2; -Complex.I / 2, 1 / 2] : Matrix (Fin 2) (Fin 2) ℂ) i j))) 1e-15
      = √(1 / 2) := by
    intro j
    have : ∑ i, magSq ((!![-(1 / 2), Complex.I / 2; -Complex.I / 2, 1 / 2] : Matrix (Fin 2) (Fin 2) ℂ) i j) = 1 / 2 := by
      rw [Fin.sum_univ_two, magSq_eq, magSq_eq]
      fin_cases j <;> simp <;> norm_num
    rw [this]
    exact max_eq_left h1
  have hne : √(1 / 2 : ℝ) ≠ 0 := (Real.sqrt_pos.2 (by norm_num)).ne'
  have hdv : (fun i j : Fin 2 => divide ((!![-(1 / 2), Complex.I / 2; -Complex.I / 2, 1 / 2] : Matrix (Fin 2) (Fin 2) ℂ) i j)
      (√(∑ i, magSq ((!![-(1 / 2), Complex.I / 2; -Complex.I / 2, 1 / 2] : Matrix (Fin 2) (Fin 2) ℂ) i j))) 1e-15)
      = fun i j => (!![-(1 / 2), Complex.I / 2; -Complex.I / 2, 1 / 2] : Matrix (Fin 2) (Fin 2) ℂ) i j / ((√(1 / 2) : ℝ) : ℂ) := by
    funext i j
    rw [divide, hn]
  simp only [hn, hne, or_self, if_false]
  rw [hdv]
  rfl

/-- **C27 is violated** with two complex channels: for four well-conditioned frames with covariance
`[[1, -i/2], [i/2, 1]]` the first "whitened" channel has power 1/3 instead of 1. -/
theorem five_whitening_two_channel_violated :
    ∃ x : Fin 2 → Fin 4 → ℂ, WellConditioned x ∧ ∀ solver, ∃ wh, fiveWhiten solver (fiveCov x) = .ok wh ∧
      xcorr (fun n => ∑ d, wh.Q 0 d * x d n) (fun n => ∑ d, wh.Q 0 d * x d n) = 1 / 3 := by
  refine ⟨x4, ?_, fun solver => ?_⟩
  · intro v
    have : meanPower (filt v x4) = (3 * ‖star (v 0) + star (v 1) * Complex.I‖ ^ 2
        + ‖star (v 0) - star (v 1) * Complex.I‖ ^ 2) / 4 := by
      simp only [meanPower, filt, Fin.sum_univ_four, Fin.sum_univ_two, x4]
      simp
      rw [← sub_eq_add_neg]
      ring
    rw [this, Fin.sum_univ_two]
    have hp := parallelogram_law_with_norm ℝ (star (v 0)) (star (v 1) * Complex.I)
    rw [norm_mul, Complex.norm_I, mul_one, norm_star, norm_star] at hp
    nlinarith [sq_nonneg ‖star (v 0) + star (v 1) * Complex.I‖, sq_nonneg ‖v 0‖, sq_nonneg ‖v 1‖]
  · refine ⟨_, by unfold fiveWhiten; rw [x4_eigh]; rfl, ?_⟩
    have hs : ((√(clampMin 1.5 1e-5) : ℝ) : ℂ) ^ 2 = 1.5 := by
      rw [← Complex.ofReal_pow, Real.sq_sqrt (show (0 : ℝ) ≤ clampMin 1.5 1e-5 from le_trans (by norm_num : (0 : ℝ) ≤ 1.5) (le_max_left _ _))]
      simp only [clampMin]
      rw [max_eq_left (by norm_num)]
      push_cast; norm_num
    have hh : ((√(1 / 2) : ℝ) : ℂ) ^ 2 = 1 / 2 := by
      rw [← Complex.ofReal_pow, Real.sq_sqrt (by norm_num)]; push_cast; norm_num
    have hs0 : ((√(clampMin 1.5 1e-5) : ℝ) : ℂ) ≠ 0 := by
      intro h; rw [h] at hs; norm_num at hs
    have hh0 : ((√(1 / 2) : ℝ) : ℂ) ≠ 0 := by
      intro h; rw [h] at hh; norm_num at hh
    have hr0 : (0 : Fin 2).rev = 1 := rfl
    set a := ((√(clampMin 1.5 1e-5) : ℝ) : ℂ) with ha
    set b := ((√(1 / 2) : ℝ) : ℂ) with hb
    have hbs : star b = b := Complex.conj_ofReal _
    have has : star a = a := Complex.conj_ofReal _
    have q0 : ((1 / √(clampMin ((![0.5, 1.5] : Fin 2 → ℝ) (Fin.rev 0)) 1e-5) : ℝ) : ℂ) = 1 / a := by
      rw [ha, hr0]; push_cast; rfl
    have hy : ∀ n, (∑ d, (((1 / √(clampMin ((![0.5, 1.5] : Fin 2 → ℝ) (Fin.rev 0)) 1e-5) : ℝ) : ℂ)
        * star ((!![-(1 / 2), Complex.I / 2; -Complex.I / 2, 1 / 2] : Matrix (Fin 2) (Fin 2) ℂ) d (Fin.rev 0) / b)) * x4 d n)
        = if n = 3 then -Complex.I / (a * b) else 0 := by
      intro n
      rw [q0, hr0, Fin.sum_univ_two, star_div₀, star_div₀, hbs]
      fin_cases n <;> simp [x4] <;> field_simp <;> ring
    show xcorr (fun n => ∑ d, (((1 / √(clampMin ((![0.5, 1.5] : Fin 2 → ℝ) (Fin.rev 0)) 1e-5) : ℝ) : ℂ)
        * star ((!![-(1 / 2), Complex.I / 2; -Complex.I / 2, 1 / 2] : Matrix (Fin 2) (Fin 2) ℂ) d (Fin.rev 0) / b)) * x4 d n)
      (fun n => ∑ d, (((1 / √(clampMin ((![0.5, 1.5] : Fin 2 → ℝ) (Fin.rev 0)) 1e-5) : ℝ) : ℂ)
        * star ((!![-(1 / 2), Complex.I / 2; -Complex.I / 2, 1 / 2] : Matrix (Fin 2) (Fin 2) ℂ) d (Fin.rev 0) / b)) * x4 d n) = 1 / 3
    simp only [hy, xcorr, Fin.sum_univ_four]
    have hst : star (-Complex.I / (a * b)) = Complex.I / (a * b) := by
      rw [star_div₀, star_mul', hbs, has]; simp
    rw [if_neg (by decide), if_neg (by decide), if_neg (by decide), if_pos trivial, hst]
    have : -Complex.I / (a * b) * (Complex.I / (a * b)) = 1 / (a ^ 2 * b ^ 2) := by
      field_simp; rw [Complex.I_sq]; ring
    rw [star_zero, this, hs, hh]
    norm_num

private lemma five_epoch [NeZero C] {solver} (hc : EighContract C solver) (X : Sig C (F + 1) N) (wh : Fin F → Whiten C)
    (h1 : ∀ f, (wh f).Qinv * (wh f).Q = 1)
    (h2 : ∀ f : Fin F, (wh f).Q * fiveCov (fun c => X c f.succ) * (wh f).Qᴴ = 1 ∧
      fiveCov (fun c => X c f.succ) * (wh f).Qᴴ = (wh f).Qinv) (ref : Fin C) (model : SourceModel σ F N)
    (st : FiveState σ F N) :
    ∃ u : Fin F → Fin C → ℂ, (∀ f, IsExtractor (fun c => X c f.succ) ((model 1 st.ms fun _ => st.Y).1 0 f) (u f)) ∧
      fiveEpoch solver none (fun c f n => ∑ d, (wh f).Q c d * X d f.succ n)
        (fun f c => (wh f).Qinv ref c) model st = .ok ⟨fun f n => xcorr (X ref f.succ)
          (filt (u f) fun c => X c f.succ) * filt (u f) (fun c => X c f.succ) n, (model 1 st.ms fun _ => st.Y).2⟩ := by
  choose u hu hv using fun f : Fin F => five_step_solver hc (fun c => X c f.succ)
    ((model 1 st.ms fun _ => st.Y).1 0 f) (wh f) (h1 f) (h2 f).1 (h2 f).2 ref
  refine ⟨u, hu, ?_⟩
  unfold fiveEpoch fiveVectors
  simp only [bind, Except.bind, pure, Except.pure]
  rw [Except.ok.injEq, FiveState.mk.injEq]
  refine ⟨?_, rfl⟩
  funext f n
  rw [← hv f n]

/-- The results of `nIter` and of `nIter + 1` iterations belong to one run. -/
theorem five_next [NeZero C] (hC : C ≠ 2) (solver) (hc : EighContract C solver) (nIter : ℕ) (ref : Fin C)
    (X : Sig C (F + 1) N) (hX : ∀ f : Fin F, WellConditioned fun c => X c f.succ)
    (model : SourceModel σ F N) (reset : σ → σ) (ms : σ) :
    ∃ Y Y', fiveForward solver nIter ref none X model reset ms = .ok Y ∧
      fiveForward solver (nIter + 1) ref none X model reset ms = .ok Y' ∧ (∀ n, Y 0 0 n = 0) ∧
      ∃ (ms' : σ) (u : Fin F → Fin C → ℂ), FiveRun (fun f c => X c f.succ) ref
          (fun ms Y => ((model 1 ms fun _ => Y).1 0, (model 1 ms fun _ => Y).2)) (reset ms) nIter
          (fun f n => Y 0 f.succ n) ms' ∧
        (∀ f, IsExtractor (fun c => X c f.succ) ((model 1 ms' fun _ f n => Y 0 f.succ n).1 0 f) (u f)) ∧
        ∀ f n, Y' 0 f.succ n = xcorr (X ref f.succ) (filt (u f) fun c => X c f.succ) * filt (u f) (fun c => X c f.succ) n := by
  choose wh hwh hw1 _ hw3 using fun f : Fin F => whiten_spec hC hc (fiveCov_herm fun c => X c f.succ)
  have hseq : (seqAll fun f : Fin F => fiveWhiten solver (fiveCov fun c => X c f.succ)) = .ok wh :=
    seqAll_ok_iff.2 hwh
  set M : σ → (Fin F → Fin N → ℂ) → (Fin F → Fin N → ℝ) × σ :=
    fun ms Y => ((model 1 ms fun _ => Y).1 0, (model 1 ms fun _ => Y).2) with hM
  have hstep : ∀ (n k : ℕ) (st : FiveState σ F N), FiveRun (fun f c => X c f.succ) ref M (reset ms) k st.Y st.ms →
      ∃ st', iterM (fiveEpoch solver none (fun c f n => ∑ d, (wh f).Q c d * X d f.succ n)
        (fun f c => (wh f).Qinv ref c) model) n st = .ok st' ∧
        FiveRun (fun f c => X c f.succ) ref M (reset ms) (k + n) st'.Y st'.ms := by
    intro n
    induction n with
    | zero => intro k st h; exact ⟨st, rfl, h⟩
    | succ n ih =>
      intro k st h
      obtain ⟨u, hu, he⟩ := five_epoch hc X wh hw1 (fun f => hw3 f (wc_power (hX f))) ref model st
      obtain ⟨st', h1, h2⟩ := ih (k + 1) ⟨fun f n => xcorr (X ref f.succ) (filt (u f) fun c => X c f.succ)
        * filt (u f) (fun c => X c f.succ) n, (model 1 st.ms fun _ => st.Y).2⟩ (FiveRun.step k st.Y st.ms u h hu)
      refine ⟨st', ?_, by rw [← add_assoc, add_right_comm]; exact h2⟩
      rw [iterM, he]
      exact h1
  have h0 : FiveRun (fun f c => X c f.succ) ref M (reset ms) 0
      (fun f n => (∑ c, (wh f).Q 0 c * (fiveCov fun c => X c f.succ) c ref) * ∑ d, (wh f).Q 0 d * X d f.succ n)
      (reset ms) := by
    have h := FiveRun.init (x := fun f c => X c f.succ) (ref := ref) (model := M) (ms0 := reset ms)
      (fun f c => star ((wh f).Q 0 c)) (fun f => whiten_first hC hc (wc_power (hX f)) (hwh f))
    convert h using 3 with f n
    rename_i n
    congr 1
    · have hH := fiveCov_herm fun c => X c f.succ
      have := fiveCov_row (fun c => X c f.succ) (fun c => star ((wh f).Q 0 c)) ref
      have h2 : xcorr (filt (fun c => star ((wh f).Q 0 c)) fun c => X c f.succ) (X ref f.succ)
          = star (xcorr (X ref f.succ) (filt (fun c => star ((wh f).Q 0 c)) fun c => X c f.succ)) := by
        simp only [xcorr, star_div₀, star_sum, star_mul', star_star, star_natCast]
        congr 1
        exact Finset.sum_congr rfl fun n _ => mul_comm _ _
      rw [h2, ← this]
      simp only [mulVec, dotProduct, star_sum, star_mul', star_star]
      refine Finset.sum_congr rfl fun c _ => ?_
      have h3 := congrFun (congrFun hH c) ref
      rw [Matrix.conjTranspose_apply] at h3
      rw [h3, mul_comm]
    · simp [filt]
  obtain ⟨st', h1, h2⟩ := hstep nIter 0 ⟨_, _⟩ h0
  rw [zero_add] at h2
  obtain ⟨u, hu, he⟩ := five_epoch hc X wh hw1 (fun f => hw3 f (wc_power (hX f))) ref model st'
  have hY : (fun f n => if h : f.succ = 0 then 0 else st'.Y (f.succ.pred h) n) = st'.Y := by
    funext f n
    rw [dif_neg (Fin.succ_ne_zero f), Fin.pred_succ]
  refine ⟨fun _ f n => if h : f = 0 then 0 else st'.Y (f.pred h) n,
    fun _ f n => if h : f = 0 then 0 else xcorr (X ref (f.pred h).succ) (filt (u (f.pred h)) fun c => X c (f.pred h).succ) *
      filt (u (f.pred h)) (fun c => X c (f.pred h).succ) n, ?_, ?_, fun n => by simp, st'.ms, u, ?_, ?_, fun f n => ?_⟩
  · unfold fiveForward
    simp only [hseq, bind, Except.bind]
    rw [h1]
    rfl
  · unfold fiveForward
    simp only [hseq, bind, Except.bind]
    rw [iterM_snoc, h1]
    dsimp only [bind, Except.bind]
    rw [he]
    rfl
  · rw [hY]; exact h2
  · rw [hY]; exact hu
  · dsimp only
    rw [dif_neg (Fin.succ_ne_zero f)]
    simp only [Fin.pred_succ]

/-- **C26, C31.** With any number of channels except two and well-conditioned input, FIVE with the exact
eigenvector solver succeeds, whatever the source model.  Its output has a zero DC bin, and at the other frequencies
it is the result of a run of the extraction algorithm: each iteration minimises the weighted energy among unit-power
filters and projects the reference microphone on the result. -/
theorem five_run [NeZero C] (hC : C ≠ 2) (solver) (hc : EighContract C solver) (nIter : ℕ) (ref : Fin C)
    (X : Sig C (F + 1) N) (hX : ∀ f : Fin F, WellConditioned fun c => X c f.succ)
    (model : SourceModel σ F N) (reset : σ → σ) (ms : σ) :
    ∃ Y, fiveForward solver nIter ref none X model reset ms = .ok Y ∧ (∀ n, Y 0 0 n = 0) ∧
      ∃ ms', FiveRun (fun f c => X c f.succ) ref
        (fun ms Y => ((model 1 ms fun _ => Y).1 0, (model 1 ms fun _ => Y).2)) (reset ms) nIter
        (fun f n => Y 0 f.succ n) ms' := by
  obtain ⟨Y, -, h, -, h0, ms', -, hr, -⟩ := five_next hC solver hc nIter ref X hX model reset ms
  exact ⟨Y, h, h0, ms', hr⟩

/-- **C26.** Whatever the parameters, if FIVE returns a signal its DC bin is exactly zero.  (The type says that
it is one signal with as many frequencies and frames as the input.) -/
theorem five_dc_bin [NeZero C] (solver) (nIter : ℕ) (ref : Fin C) (nPower : Option ℕ) (X : Sig C (F + 1) N)
    (model : SourceModel σ F N) (reset : σ → σ) (ms : σ) (Y : Sig 1 (F + 1) N)
    (h : fiveForward solver nIter ref nPower X model reset ms = .ok Y) (s : Fin 1) (n : Fin N) : Y s 0 n = 0 := by
  unfold fiveForward at h
  simp only [bind, Except.bind, pure, Except.pure] at h
  split at h
  · cases h
  · split at h
    · cases h
    · cases h
      simp

private lemma filt_phase {x : Fin C → Fin N → ℂ} {u u' : Fin C → ℂ} {z : ℂ} (h : u' = fun c => z * u c) :
    filt u' x = fun n => star z * filt u x n := by
  funext n
  rw [h]
  simp only [filt, star_mul', Finset.mul_sum]
  exact Finset.sum_congr rfl fun c _ => by ring

private lemma phase_sq {z : ℂ} (hz : ‖z‖ = 1) : z * star z = 1 := by
  rw [Complex.star_def, Complex.mul_conj', hz]; simp

private lemma proj_phase {x : Fin C → Fin N → ℂ} {u u' : Fin C → ℂ} {z : ℂ} (hz : ‖z‖ = 1)
    (h : u' = fun c => z * u c) (r : Fin N → ℂ) (n : Fin N) :
    xcorr r (filt u' x) * filt u' x n = xcorr r (filt u x) * filt u x n := by
  have : xcorr r (filt u' x) = z * xcorr r (filt u x) := by
    rw [filt_phase h]
    simp only [xcorr, star_mul', star_star, ← mul_div_assoc, Finset.mul_sum]
    congr 1
    exact Finset.sum_congr rfl fun n _ => by ring
  rw [this, filt_phase h]
  linear_combination xcorr r (filt u x) * filt u x n * phase_sq hz

private lemma run_unique {x : Fin F → Fin C → Fin N → ℂ} {ref : Fin C}
    {model : σ → (Fin F → Fin N → ℂ) → (Fin F → Fin N → ℝ) × σ} {ms0 : σ}
    (hmag : ∀ ms Y Y', (∀ f n, ‖Y f n‖ = ‖Y' f n‖) → model ms Y = model ms Y')
    (hu0 : ∀ f, UniqueUpToPhase (IsPrincipal (x f)))
    (hu : ∀ f ms Y, UniqueUpToPhase (IsExtractor (x f) ((model ms Y).1 f)))
    (k : ℕ) : ∀ Y ms Y' ms', FiveRun x ref model ms0 k Y ms → FiveRun x ref model ms0 k Y' ms' →
      ms = ms' ∧ (∀ f n, ‖Y f n‖ = ‖Y' f n‖) ∧ (k ≠ 0 → Y = Y') := by
  induction k with
  | zero =>
    intro Y ms Y' ms' h h'
    cases h with
    | init u hp =>
      cases h' with
      | init u' hp' =>
        refine ⟨rfl, fun f n => ?_, fun h => absurd rfl h⟩
        obtain ⟨z, hz, he⟩ := hu0 f _ _ (hp f) (hp' f)
        dsimp only
        rw [filt_phase he]
        have : xcorr (fun n => star z * filt (u f) (x f) n) (x f ref) = star z * xcorr (filt (u f) (x f)) (x f ref) := by
          simp only [xcorr, ← mul_div_assoc, Finset.mul_sum]
          congr 1
          exact Finset.sum_congr rfl fun n _ => by ring
        rw [this]
        simp only [norm_mul, norm_star, hz, one_mul]
  | succ k ih =>
    intro Y ms Y' ms' h h'
    cases h with
    | step _ Y0 ms0 u h hp =>
      cases h' with
      | step _ Y0' ms0' u' h' hp' =>
        obtain ⟨h1, h2, -⟩ := ih _ _ _ _ h h'
        subst h1
        rw [← hmag ms0 Y0 Y0' h2] at hp'
        have key : ∀ f n, xcorr (x f ref) (filt (u f) (x f)) * filt (u f) (x f) n
            = xcorr (x f ref) (filt (u' f) (x f)) * filt (u' f) (x f) n := by
          intro f n
          obtain ⟨z, hz, he⟩ := hu f _ _ _ _ (hp f) (hp' f)
          exact (proj_phase hz he _ _).symm
        refine ⟨by rw [hmag ms0 Y0 Y0' h2], fun f n => by dsimp only; rw [key], fun _ => ?_⟩
        funext f n
        exact key f n

/-- **C28 (partial: simple extreme eigenvalues, weights that depend on magnitudes only, any number of channels except
two).** After at least one iteration the output is the same for any two correct eigensolvers. -/
theorem five_solver_independent_partial [NeZero C] (hC : C ≠ 2) (solver solver') (hc : EighContract C solver)
    (hc' : EighContract C solver') (nIter : ℕ) (hn : nIter ≠ 0) (ref : Fin C) (X : Sig C (F + 1) N)
    (hX : ∀ f : Fin F, WellConditioned fun c => X c f.succ) (model : SourceModel σ F N) (reset : σ → σ) (ms : σ)
    (hmag : ∀ ms Y Y', (∀ s f n, ‖Y s f n‖ = ‖Y' s f n‖) → model 1 ms Y = model 1 ms Y')
    (hu0 : ∀ f : Fin F, UniqueUpToPhase (IsPrincipal fun c => X c f.succ))
    (hu : ∀ (f : Fin F) ms Y, UniqueUpToPhase (IsExtractor (fun c => X c f.succ) ((model 1 ms Y).1 0 f))) :
    fiveForward solver nIter ref none X model reset ms = fiveForward solver' nIter ref none X model reset ms := by
  obtain ⟨Y, h, hd, ms1, hr⟩ := five_run hC solver hc nIter ref X hX model reset ms
  obtain ⟨Y', h', hd', ms1', hr'⟩ := five_run hC solver' hc' nIter ref X hX model reset ms
  rw [h, h']
  have := (run_unique (fun ms Y Y' hY => by
    show ((model 1 ms fun _ => Y).1 0, _) = ((model 1 ms fun _ => Y').1 0, _)
    rw [hmag ms (fun _ => Y) (fun _ => Y') fun _ => hY]) hu0 (fun f ms Y => hu f ms _) nIter _ _ _ _ hr hr').2.2 hn
  congr 1
  funext s f n
  obtain rfl : s = 0 := Subsingleton.elim _ _
  refine Fin.cases ?_ (fun f => ?_) f
  · rw [hd, hd']
  · exact congrFun (congrFun this f) n

/-- **C28 (two channels).** With two channels only the eigenvectors of the weighted covariance come from the
solver, and their phases never matter, whatever the source model and the number of iterations. -/
theorem five_phase_independent_two_channels (solver : Matrix (Fin 2) (Fin 2) ℂ → EigRes (Fin 2))
    (phase : Matrix (Fin 2) (Fin 2) ℂ → Fin 2 → ℂ) (hp : ∀ A i, ‖phase A i‖ = 1) (nIter : ℕ) (ref : Fin 2)
    (X : Sig 2 (F + 1) N) (model : SourceModel σ F N) (reset : σ → σ) (ms : σ) :
    fiveForward (fun A => ⟨(solver A).val, Matrix.of fun i j => (solver A).vec i j * phase A j⟩) nIter ref none X
      model reset ms = fiveForward solver nIter ref none X model reset ms := by
  have hw : ∀ (s s' : Matrix (Fin 2) (Fin 2) ℂ → EigRes (Fin 2)), fiveWhiten s = fiveWhiten s' := by
    intro s s'
    funext A
    unfold fiveWhiten eigh
    simp only [dif_pos]
  have he : ∀ Xw qref, fiveEpoch (fun A => ⟨(solver A).val, Matrix.of fun i j => (solver A).vec i j * phase A j⟩)
      none Xw qref model = fiveEpoch (F := F) (N := N) solver none Xw qref model := by
    intro Xw qref
    funext st
    unfold fiveEpoch fiveVectors smallestEigh
    simp only [bind, Except.bind, pure, Except.pure, Matrix.of_apply]
    congr 2
    funext f n
    refine Finset.sum_congr rfl fun c _ => ?_
    set z := phase (fiveWCov (fun c => Xw c f) ((model 1 st.ms fun _ => st.Y).1 0 f)) 0 with hz
    have hz1 : z * star z = 1 := phase_sq (hp _ _)
    have : ∀ g q : Fin 2 → ℂ, ∑ c, q c * (g c * z) = z * ∑ c, q c * g c := by
      intro g q
      rw [Finset.mul_sum]
      exact Finset.sum_congr rfl fun c _ => by ring
    rw [this]
    simp only [star_mul', star_star]
    linear_combination (star ((solver (fiveWCov (fun c => Xw c f) ((model 1 st.ms fun _ => st.Y).1 0 f))).vec c 0)
      * (∑ c, qref f c * (solver (fiveWCov (fun c => Xw c f) ((model 1 st.ms fun _ => st.Y).1 0 f))).vec c 0)
      * Xw c f n) * hz1
  unfold fiveForward
  simp only [hw _ solver, he]

private noncomputable def solver1 (z : ℂ) (A : Matrix (Fin 1) (Fin 1) ℂ) : EigRes (Fin 1) :=
  ⟨fun _ => (A 0 0).re, Matrix.of fun _ _ => z⟩

private lemma solver1_contract {z : ℂ} (hz : ‖z‖ = 1) : EighContract 1 (solver1 z) := by
  refine ⟨fun A _ i j _ => le_of_eq ?_, fun A _ => ?_, fun A hA => ?_⟩
  · rw [Subsingleton.elim i j]
  · ext i j
    rw [Subsingleton.elim i j, Matrix.mul_apply, Matrix.one_apply_eq]
    simp only [Finset.univ_unique, Finset.sum_singleton, Matrix.conjTranspose_apply, solver1, Matrix.of_apply]
    rw [mul_comm]
    exact phase_sq hz
  · ext i j
    obtain rfl : i = 0 := Subsingleton.elim _ _
    obtain rfl : j = 0 := Subsingleton.elim _ _
    rw [Matrix.mul_diagonal, Matrix.mul_apply]
    have : (((A 0 0).re : ℝ) : ℂ) = A 0 0 := by
      have := congrFun (congrFun hA 0) 0
      rw [Matrix.conjTranspose_apply, Complex.star_def, Complex.conj_eq_iff_re] at this
      exact this
    simp only [Finset.univ_unique, Finset.sum_singleton, solver1, Matrix.of_apply, Fin.default_eq_zero, this]
    ring

/-- **C28 is violated for `n_iter=0`**: on one channel with a single frame of value 1, two correct solvers lead to
the outputs 1 and -1. -/
theorem five_zero_iterations_violated :
    ∃ solver solver', EighContract 1 solver ∧ EighContract 1 solver' ∧
      ∀ (model : SourceModel σ 1 1) (reset : σ → σ) (ms : σ),
        (fiveForward solver 0 0 none (fun _ _ _ => 1 : Sig 1 2 1) model reset ms).map (fun Y => Y 0 1 0) = .ok 1 ∧
        (fiveForward solver' 0 0 none (fun _ _ _ => 1 : Sig 1 2 1) model reset ms).map (fun Y => Y 0 1 0) = .ok (-1) := by
  have key : ∀ z : ℂ, ‖z‖ = 1 → ∀ (model : SourceModel σ 1 1) (reset : σ → σ) (ms : σ),
      (fiveForward (solver1 z) 0 0 none (fun _ _ _ => 1 : Sig 1 2 1) model reset ms).map (fun Y => Y 0 1 0)
        = .ok (star z * star z) := by
    intro z hz model reset ms
    have hcov : ∀ f : Fin 1, fiveCov (fun c => (fun _ _ _ => 1 : Sig 1 2 1) c f.succ) = 1 := by
      intro f
      rw [fiveCov_eq]
      ext i j
      rw [Subsingleton.elim i j]
      simp [wgram]
    have hs : √(clampMin ((1 : Matrix (Fin 1) (Fin 1) ℂ) 0 0).re 1e-5) = 1 := by
      simp only [Matrix.one_apply_eq, Complex.one_re, clampMin]
      rw [max_eq_left (by norm_num), Real.sqrt_one]
    have hwh : fiveWhiten (solver1 z) 1 = .ok ⟨Matrix.of fun _ _ => star z, Matrix.of fun _ _ => z⟩ := by
      unfold fiveWhiten
      simp only [eigh, show (1 : ℕ) ≠ 2 by decide, dif_neg, not_false_eq_true, bind, Except.bind, pure, Except.pure,
        solver1, hs]
      simp [Matrix.conjTranspose]
    have hseq : (seqAll fun f : Fin 1 => fiveWhiten (solver1 z) (fiveCov fun c => (fun _ _ _ => 1 : Sig 1 2 1) c f.succ))
        = .ok fun _ => ⟨Matrix.of fun _ _ => star z, Matrix.of fun _ _ => z⟩ :=
      seqAll_ok_iff.2 fun f => by rw [hcov f, hwh]
    unfold fiveForward
    simp only [hseq, bind, Except.bind, iterM, pure, Except.pure, Except.map]
    have h1 : fiveCov (fun (_ : Fin 1) (_ : Fin 1) => (1 : ℂ)) = 1 := hcov 0
    simp [h1]
  refine ⟨solver1 1, solver1 Complex.I, solver1_contract (by simp), solver1_contract (by simp), fun model reset ms => ?_⟩
  refine ⟨by rw [key 1 (by simp)]; simp, by rw [key Complex.I (by simp)]; simp⟩

/-- **C29 is violated for `n_power_iter=1`** (and 0): the power method never returns. -/
theorem five_power_one_violated [NeZero C] (V : Fin F → Matrix (Fin C) (Fin C) ℂ) (n : ℕ) (hn : n ≤ 1)
    (y : Fin F → Fin C → ℂ) : smallestPower V n ≠ .ok y := by
  intro h
  unfold smallestPower at h
  simp only [bind, Except.bind, show n - 1 = 0 by omega] at h
  split at h
  · cases h
  · split at h
    · cases h
    · split at h
      · cases h
      · cases h

/-- **C29 is violated for `n_power_iter=1`** (and 0): `FIVE.forward` never returns once it iterates, whatever the recording and the
source model. -/
theorem five_forward_power_one_violated [NeZero C] (solver : Matrix (Fin C) (Fin C) ℂ → EigRes (Fin C)) (nIter : ℕ) (hI : 0 < nIter)
    (ref : Fin C) (n : ℕ) (hn : n ≤ 1) (X : Sig C (F + 1) N) (model : SourceModel σ F N) (reset : σ → σ) (ms : σ) (Y : Sig 1 (F + 1) N) :
    fiveForward solver nIter ref (some n) X model reset ms ≠ .ok Y := by
  intro h
  obtain ⟨k, rfl⟩ : ∃ k, nIter = k + 1 := ⟨nIter - 1, by omega⟩
  have hep : ∀ (Xw : Sig C F N) q (st st' : FiveState σ F N), fiveEpoch solver (some n) Xw q model st ≠ .ok st' := by
    intro Xw q st st' h
    unfold fiveEpoch at h
    simp only [bind, Except.bind] at h
    split at h
    · cases h
    · rename_i y hy
      exact five_power_one_violated _ n hn y hy
  unfold fiveForward at h
  simp only [bind, Except.bind, iterM] at h
  split at h
  · cases h
  · split at h
    · cases h
    · rename_i st hst
      split at hst
      · cases hst
      · rename_i st1 h1
        exact hep _ _ _ _ h1

example (solver) (X : Sig 3 (128 + 1) 50) (Y : Sig 1 (128 + 1) 50) :
    fiveForward solver 10 1 (some 1) X (fun _ st _ => (fun _ _ _ => 1, st)) id () ≠ .ok Y :=
  five_forward_power_one_violated solver 10 (by norm_num) 1 1 le_rfl X _ id () Y

example (y : Fin 2 → Fin 3 → ℂ) : smallestPower (fun _ : Fin 2 => (1 : Matrix (Fin 3) (Fin 3) ℂ)) 1 ≠ .ok y :=
  five_power_one_violated _ 1 le_rfl y

/-- **C29 (partial: what two or more power iterations return, when they return).** At each frequency the result is a
unit vector whose first entry is a positive real number, or the zero vector (when the first entry before the phase
correction is zero).  (The example at the end of `FivePower.lean` is a case in which they return.) -/
theorem five_power_vectors_partial [NeZero C] (V : Fin F → Matrix (Fin C) (Fin C) ℂ) (n : ℕ)
    (y : Fin F → Fin C → ℂ) (h : smallestPower V n = .ok y) :
    2 ≤ n ∧ ∀ f, (∑ c, ‖y f c‖ ^ 2 = 1 ∧ ∃ r : ℝ, 0 < r ∧ y f 0 = r) ∨ y f = 0 := by
  have hn : 2 ≤ n := by
    by_contra hn
    exact five_power_one_violated V n (by omega) y h
  refine ⟨hn, ?_⟩
  unfold smallestPower at h
  obtain ⟨m, hm⟩ : ∃ m, n - 1 = m + 1 := ⟨n - 2, by omega⟩
  simp only [bind, Except.bind, hm, pure, Except.pure, Nat.add_eq_zero_iff, one_ne_zero, and_false, if_false] at h
  split at h
  · cases h
  rename_i Vinv _
  split at h
  · cases h
  rename_i x0 _
  split at h
  · cases h
  rename_i x hx
  cases h
  -- the last step normalised
  have hnorm : ∀ (m : ℕ) (x0 x : Fin F → Fin C → ℂ), iterM (powerStep Vinv) (m + 1) x0 = .ok x →
      ∀ f, ∑ c, ‖x f c‖ ^ 2 = 1 := by
    intro m
    induction m with
    | zero =>
      intro x0 x h f
      simp only [iterM, bind, Except.bind, powerStep] at h
      split at h
      · cases h
      · rename_i a ha
        split at ha
        · cases ha
        · rename_i hne
          cases ha
          simp only [Except.ok.injEq] at h
          rw [← h]
          push Not at hne
          have h0 := hne f
          simp only [norm_div, Complex.norm_real, Real.norm_eq_abs, div_pow, sq_abs]
          rw [← Finset.sum_div, Real.sq_sqrt (Finset.sum_nonneg fun _ _ => by positivity), div_self]
          intro h1
          exact h0 (by rw [h1, Real.sqrt_zero])
    | succ m ih =>
      intro x0 x h f
      rw [iterM] at h
      simp only [bind, Except.bind] at h
      split at h
      · cases h
      · exact ih _ _ h f
  intro f
  by_cases h0 : x f 0 = 0
  · right
    funext c
    simp [csgn, h0]
  · left
    have hs : ‖star (csgn (x f 0))‖ = 1 := by
      rw [norm_star, csgn, if_neg h0, norm_div, Complex.norm_real, norm_norm, div_self (norm_ne_zero_iff.2 h0)]
    refine ⟨?_, ‖x f 0‖, norm_pos_iff.2 h0, ?_⟩
    · simp only [norm_mul, hs, mul_one]
      exact hnorm m _ _ hx f
    · show x f 0 * star (csgn (x f 0)) = _
      rw [csgn, if_neg h0, star_div₀, Complex.star_def, ← mul_div_assoc, Complex.mul_conj', Complex.conj_ofReal]
      have : (‖x f 0‖ : ℂ) ≠ 0 := by exact_mod_cast norm_ne_zero_iff.2 h0
      field_simp

/-- **C29 is violated for constant weights**: with a weighted covariance equal to the identity at every frequency (what
constant weights give after whitening) the initial normalisation over frequencies divides zero by zero as soon as
there are two channels. -/
theorem five_power_constant_weights_violated [NeZero F] (n : ℕ) :
    smallestPower (fun _ : Fin F => (1 : Matrix (Fin (C + 2)) (Fin (C + 2)) ℂ)) n = .error .nonFinite := by
  obtain ⟨m, x, -, hx, h1⟩ := inv_loaded_psd (1 : Matrix (Fin (C + 2)) (Fin (C + 2)) ℂ) Matrix.PosSemidef.one 1e-5
    (by norm_num)
  have hl : (0 : ℝ) < max (1e-5 * m) 1e-5 := lt_of_lt_of_le (by norm_num) (le_max_right _ _)
  have h10 : x 1 0 = 0 := by
    have := congrFun (congrFun h1 1) 0
    rw [Matrix.add_mul, Matrix.one_mul, Matrix.smul_mul, Matrix.one_mul, Matrix.add_apply, Matrix.smul_apply,
      smul_eq_mul, Matrix.one_apply_ne (by simp)] at this
    have h2 : (1 + ((max (1e-5 * m) 1e-5 : ℝ) : ℂ)) * x 1 0 = 0 := by rw [← this]; ring
    rcases mul_eq_zero.1 h2 with h | h
    · exfalso
      have h3 : (1 + max (1e-5 * m) 1e-5 : ℝ) = 0 := by exact_mod_cast h
      linarith
    · exact h
  have hseq : (seqAll fun _ : Fin F => invLoaded (1 : Matrix (Fin (C + 2)) (Fin (C + 2)) ℂ) 1e-5)
      = .ok fun _ => x := seqAll_ok_iff.2 fun _ => hx
  unfold smallestPower fiveNormalize
  simp only [hseq, bind, Except.bind]
  rw [if_pos ⟨(0, 1), by simp [h10]⟩]

/-! ### Non-vacuity of the solver-independence theorem -/

private def x3 : Fin 3 → Fin 3 → ℂ := fun c n => if c = n then 3 - (n : ℂ) else 0

private lemma filt_x3 (u : Fin 3 → ℂ) (n : Fin 3) : filt u x3 n = star (u n) * (3 - (n : ℂ)) := by
  simp [filt, x3]

private lemma norms_x3 (u : Fin 3 → ℂ) : ‖filt u x3 0‖ ^ 2 = 9 * ‖u 0‖ ^ 2 ∧ ‖filt u x3 1‖ ^ 2 = 4 * ‖u 1‖ ^ 2 ∧
    ‖filt u x3 2‖ ^ 2 = ‖u 2‖ ^ 2 := by
  refine ⟨?_, ?_, ?_⟩
  · rw [filt_x3, norm_mul, norm_star, mul_pow]
    norm_num
    ring
  · rw [filt_x3, norm_mul, norm_star, mul_pow, show ((3 : ℂ) - ((1 : Fin 3) : ℕ)) = 2 by norm_num]
    norm_num
    ring
  · rw [filt_x3, norm_mul, norm_star, mul_pow, show ((3 : ℂ) - ((2 : Fin 3) : ℕ)) = 1 by norm_num]
    norm_num

private lemma power_x3 (u : Fin 3 → ℂ) :
    meanPower (filt u x3) = (9 * ‖u 0‖ ^ 2 + 4 * ‖u 1‖ ^ 2 + ‖u 2‖ ^ 2) / 3 := by
  obtain ⟨h0, h1, h2⟩ := norms_x3 u
  rw [meanPower, Fin.sum_univ_three, h0, h1, h2]
  norm_num

private lemma wpower_x3 (u : Fin 3 → ℂ) :
    wPower (fun n => (n : ℝ) + 1) (filt u x3) = 9 * ‖u 0‖ ^ 2 + 8 * ‖u 1‖ ^ 2 + 3 * ‖u 2‖ ^ 2 := by
  obtain ⟨h0, h1, h2⟩ := norms_x3 u
  rw [wPower, Fin.sum_univ_three, h0, h1, h2]
  norm_num
  ring

private lemma phase_x3 {u u' : Fin 3 → ℂ} {r : ℝ} (hr : 0 < r) (h0 : ‖u 0‖ ^ 2 = r) (h1 : u 1 = 0) (h2 : u 2 = 0)
    (h0' : ‖u' 0‖ ^ 2 = r) (h1' : u' 1 = 0) (h2' : u' 2 = 0) : ∃ z : ℂ, ‖z‖ = 1 ∧ u' = fun c => z * u c := by
  have hn : ‖u' 0‖ = ‖u 0‖ := by
    rw [← Real.sqrt_sq (norm_nonneg (u' 0)), ← Real.sqrt_sq (norm_nonneg (u 0)), h0, h0']
  have hne : u 0 ≠ 0 := by
    intro h; rw [h] at h0; simp at h0; linarith
  refine ⟨u' 0 / u 0, by rw [norm_div, hn, div_self (norm_ne_zero_iff.2 hne)], ?_⟩
  funext c
  fin_cases c
  · exact (div_mul_cancel₀ _ hne).symm
  · simp [h1, h1']
  · simp [h2, h2']

/-- Three orthogonal channels of different powers and the constant weights 1, 2, 3 meet the hypotheses of
`five_solver_independent_partial`. -/
example : ∃ (X : Sig 3 2 3) (model : SourceModel Unit 1 3),
    (∀ f : Fin 1, WellConditioned fun c => X c f.succ) ∧
    (∀ ms Y Y', (∀ s f n, ‖Y s f n‖ = ‖Y' s f n‖) → model 1 ms Y = model 1 ms Y') ∧
    (∀ f : Fin 1, UniqueUpToPhase (IsPrincipal fun c => X c f.succ)) ∧
    (∀ (f : Fin 1) ms Y, UniqueUpToPhase (IsExtractor (fun c => X c f.succ) ((model 1 ms Y).1 0 f))) := by
  refine ⟨fun c _ n => x3 c n, fun _ ms _ => (fun _ _ n => (n : ℝ) + 1, ms), fun f v => ?_, fun _ _ _ _ => rfl,
    fun f u u' hu hu' => ?_, fun f _ _ u u' hu hu' => ?_⟩
  · show 1e-5 * ∑ k, ‖v k‖ ^ 2 ≤ meanPower (filt v x3)
    rw [power_x3, Fin.sum_univ_three]
    nlinarith [sq_nonneg ‖v 0‖, sq_nonneg ‖v 1‖, sq_nonneg ‖v 2‖]
  · have key : ∀ u, IsPrincipal x3 u → ‖u 0‖ ^ 2 = 1 / 3 ∧ u 1 = 0 ∧ u 2 = 0 := by
      rintro u ⟨v, hv, hm, rfl⟩
      have := hm ![1, 0, 0] (by simp [Fin.sum_univ_three])
      rw [power_x3, power_x3] at this
      rw [Fin.sum_univ_three] at hv
      simp at this
      have a1 := sq_nonneg ‖v 1‖
      have a2 := sq_nonneg ‖v 2‖
      have b1 : ‖v 1‖ ^ 2 = 0 := by linarith
      have b2 : ‖v 2‖ ^ 2 = 0 := by linarith
      have b0 : ‖v 0‖ ^ 2 = 1 := by linarith
      have c1 : v 1 = 0 := by simpa using b1
      have c2 : v 2 = 0 := by simpa using b2
      refine ⟨?_, by simp [c1], by simp [c2]⟩
      rw [norm_div, div_pow, b0, Complex.norm_real, Real.norm_eq_abs, sq_abs, Real.sq_sqrt, power_x3, b0, b1, b2]
      · norm_num
      · rw [power_x3]; positivity
    obtain ⟨a0, a1, a2⟩ := key u hu
    obtain ⟨b0, b1, b2⟩ := key u' hu'
    exact phase_x3 (by norm_num) a0 a1 a2 b0 b1 b2
  · have key : ∀ u, IsExtractor x3 (fun n => (n : ℝ) + 1) u → ‖u 0‖ ^ 2 = 1 / 3 ∧ u 1 = 0 ∧ u 2 = 0 := by
      rintro u ⟨hv, hm⟩
      have h3 : ‖(((√(1 / 3) : ℝ)) : ℂ)‖ ^ 2 = 1 / 3 := by
        rw [Complex.norm_real, Real.norm_eq_abs, sq_abs, Real.sq_sqrt (by norm_num)]
      have := hm ![((√(1 / 3) : ℝ) : ℂ), 0, 0] (by
        rw [power_x3]
        show (9 * ‖(((√(1 / 3) : ℝ)) : ℂ)‖ ^ 2 + 4 * ‖(0 : ℂ)‖ ^ 2 + ‖(0 : ℂ)‖ ^ 2) / 3 = 1
        rw [h3]; norm_num)
      rw [wpower_x3, wpower_x3] at this
      change 9 * ‖u 0‖ ^ 2 + 8 * ‖u 1‖ ^ 2 + 3 * ‖u 2‖ ^ 2 ≤ 9 * ‖(((√(1 / 3) : ℝ)) : ℂ)‖ ^ 2 + 8 * ‖(0 : ℂ)‖ ^ 2
        + 3 * ‖(0 : ℂ)‖ ^ 2 at this
      rw [h3, norm_zero] at this
      rw [power_x3] at hv
      have a1 := sq_nonneg ‖u 1‖
      have a2 := sq_nonneg ‖u 2‖
      have b1 : ‖u 1‖ ^ 2 = 0 := by linarith
      have b2 : ‖u 2‖ ^ 2 = 0 := by linarith
      exact ⟨by linarith, by simpa using b1, by simpa using b2⟩
    obtain ⟨a0, a1, a2⟩ := key u hu
    obtain ⟨b0, b1, b2⟩ := key u' hu'
    exact phase_x3 (by norm_num) a0 a1 a2 b0 b1 b2

private def sig3 : Sig 3 (1 + 1) 3 := fun c _ n => x3 c n

private lemma x3_ok (f : Fin 1) : WellConditioned fun c => sig3 c f.succ := fun v => by
  show 1e-5 * ∑ k, ‖v k‖ ^ 2 ≤ meanPower (filt v x3)
  rw [power_x3, Fin.sum_univ_three]
  nlinarith [sq_nonneg ‖v 0‖, sq_nonneg ‖v 1‖, sq_nonneg ‖v 2‖]

/-- The same three channels meet the hypotheses of `five_whitening_partial` and `five_run`, with a solver that satisfies the
contract and two iterations; the run returns a signal (as in `five_dc_bin`). -/
example : ∃ (solver : Matrix (Fin 3) (Fin 3) ℂ → EigRes (Fin 3)) (X : Sig 3 (1 + 1) 3) (model : SourceModel Unit 1 3)
    (Y : Sig 1 (1 + 1) 3), EighContract 3 solver ∧ (∀ f : Fin 1, WellConditioned fun c => X c f.succ) ∧
    fiveForward solver 2 1 none X model id () = .ok Y ∧ ∀ n, Y 0 0 n = 0 := by
  obtain ⟨solver, hc⟩ := eighContract_exists 3
  have h := five_run (by norm_num) solver hc 2 1 sig3 x3_ok
    (fun _ ms _ => (fun _ _ n => (n : ℝ) + 1, ms) : SourceModel Unit 1 3) id ()
  exact ⟨solver, sig3, _, h.choose, hc, x3_ok, h.choose_spec.1, h.choose_spec.2.1⟩

/-- Non-vacuity of `five_phase_independent_two_channels`: a phase that depends on the eigenvector and the matrix. -/
example : ∃ phase : Matrix (Fin 2) (Fin 2) ℂ → Fin 2 → ℂ, (∀ A i, ‖phase A i‖ = 1) ∧ phase 0 0 ≠ phase 0 1 ∧
    phase 0 1 ≠ phase 1 1 := by
  classical
  refine ⟨fun A i => if i = 0 then 1 else if A = 0 then Complex.I else -1, fun A i => ?_, ?_, ?_⟩
  · dsimp only; split_ifs <;> simp
  · simp [Complex.ext_iff]
  · simp [Complex.ext_iff]

end Torchiva.Props
