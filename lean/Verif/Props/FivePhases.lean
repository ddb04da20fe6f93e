import Verif.Props.Five
import Verif.Proofs.EigN
import Verif.Model.Models

/-!
# C28: where the phases of the eigenvectors do matter after the first iteration
-/

namespace Torchiva
namespace Props

open Matrix Spec

/-- Three microphones, two frequencies, four frames: microphone `c` hears a click of height 2 in frame `c`, the last frame is
silent.  The covariance is the identity. -/
def clicks : Sig 3 2 4 := fun c _ n => if n = c.castSucc then 2 else 0

private lemma conj2 : (starRingEnd ℂ) 2 = 2 := Complex.conj_ofNat 2

private lemma unit_sq {z : ℂ} (h : ‖z‖ = 1) : z * star z = 1 := by
  rw [Complex.star_def, Complex.mul_conj, Complex.normSq_eq_norm_sq, h]; norm_num

private lemma clicks_cov (f : Fin 1) : fiveCov (fun c => clicks c f.succ) = 1 := by
  rw [fiveCov_eq]
  ext i j
  fin_cases i <;> fin_cases j <;> simp [wgram, clicks, Fin.sum_univ_four, Fin.ext_iff, conj2] <;> norm_num

/-- The recording is well conditioned. -/
theorem clicks_wellConditioned (f : Fin 1) : WellConditioned fun c => clicks c f.succ := by
  intro v
  rw [← fiveCov_power, clicks_cov]
  have : power (1 : Matrix (Fin 3) (Fin 3) ℂ) v = ∑ k, ‖v k‖ ^ 2 := by
    simp only [power, Matrix.one_mulVec, dotProduct, Complex.re_sum, Pi.star_apply]
    refine Finset.sum_congr rfl fun k _ => ?_
    rw [Complex.star_def, ← Complex.normSq_eq_conj_mul_self, Complex.ofReal_re, Complex.normSq_eq_norm_sq]
  rw [this]
  have : 0 ≤ ∑ k, ‖v k‖ ^ 2 := Finset.sum_nonneg fun k _ => by positivity
  linarith

/-- The eigensolver that answers `r` on `A` and otherwise as `solver`. -/
noncomputable def answering (A : Matrix (Fin 3) (Fin 3) ℂ) (r : EigRes (Fin 3))
    (solver : Matrix (Fin 3) (Fin 3) ℂ → EigRes (Fin 3)) : Matrix (Fin 3) (Fin 3) ℂ → EigRes (Fin 3) :=
  open Classical in fun B => if B = A then r else solver B

private lemma answering_contract {A : Matrix (Fin 3) (Fin 3) ℂ} {r : EigRes (Fin 3)} {solver} (hc : EighContract 3 solver)
    (h1 : Monotone r.val) (h2 : r.vecᴴ * r.vec = 1) (h3 : A * r.vec = r.vec * diagonal fun i => (r.val i : ℂ)) :
    EighContract 3 (answering A r solver) := by
  classical
  refine ⟨fun B hB => ?_, fun B hB => ?_, fun B hB => ?_⟩ <;> unfold answering <;> split_ifs with e
  · exact h1
  · exact hc.ascending B hB
  · exact h2
  · exact hc.orthonormal B hB
  · rw [e]; exact h3
  · exact hc.eigen B hB

/-- One iteration on the clicks, when the eigenvectors of the identity are the unit vectors times `d`. -/
private noncomputable def clickStep {σ : Type} (solver : Matrix (Fin 3) (Fin 3) ℂ → EigRes (Fin 3)) (d : Fin 3 → ℂ)
    (model : SourceModel σ 1 4) (st : FiveState σ 1 4) : FiveState σ 1 4 :=
  let w := (model 1 st.ms fun _ => st.Y).1 0 0
  let u := fun c => (solver (diagonal fun c : Fin 3 => (4 * w c.rev.castSucc : ℂ))).vec c 0
  ⟨fun _ n => d 2 * u 0 * ![2 * star (d 0) * star (u 2), 2 * star (d 1) * star (u 1), 2 * star (d 2) * star (u 0), 0] n,
    (model 1 st.ms fun _ => st.Y).2⟩

private lemma clicks_forward {σ : Type} (solver : Matrix (Fin 3) (Fin 3) ℂ → EigRes (Fin 3)) (d : Fin 3 → ℂ)
    (hd : ∀ i, ‖d i‖ = 1) (h1 : solver 1 = ⟨fun _ => 1, diagonal d⟩) (nIter : ℕ) (model : SourceModel σ 1 4) (reset : σ → σ)
    (ms : σ) : fiveForward solver nIter 2 none clicks model reset ms = .ok fun _ f n => if f = 0 then 0 else
      ((clickStep solver d model)^[nIter] ⟨fun _ => ![0, 0, 2 * star (d 2) ^ 2, 0], reset ms⟩).Y 0 n := by
  have hs : √(clampMin 1 1e-5) = 1 := by
    rw [clampMin, max_eq_left (by norm_num), Real.sqrt_one]
  have hwh : fiveWhiten solver 1 = .ok ⟨Matrix.of fun i j => star (diagonal d j i.rev), Matrix.of fun i j => diagonal d i j.rev⟩ := by
    unfold fiveWhiten
    simp only [eigh, show (3 : ℕ) ≠ 2 by decide, dif_neg, not_false_eq_true, bind, Except.bind, pure, Except.pure, h1, hs]
    congr 2
    · ext i j; simp [Matrix.conjTranspose_apply]
    · ext i j; simp
  have hseq : (seqAll fun f : Fin 1 => fiveWhiten solver (fiveCov fun c => clicks c f.succ))
      = .ok fun _ => ⟨Matrix.of fun i j => star (diagonal d j i.rev), Matrix.of fun i j => diagonal d i j.rev⟩ :=
    seqAll_ok_iff.2 fun f => by rw [clicks_cov f, hwh]
  have hx : ∀ c n, (∑ k, (Matrix.of fun i j => star (diagonal d j i.rev) : Matrix (Fin 3) (Fin 3) ℂ) c k
      * clicks k 1 n) = if n = c.rev.castSucc then 2 * star (d c.rev) else 0 := by
    intro c n
    rw [Finset.sum_eq_single c.rev]
    · simp [clicks]
      split_ifs <;> ring
    · intro b _ hb
      simp [diagonal, hb]
    · simp
  have hstep : ∀ st, fiveEpoch solver none (fun c (_ : Fin 1) n => if n = c.rev.castSucc then 2 * star (d c.rev) else 0)
      (fun _ c => (Matrix.of fun i j => diagonal d i j.rev : Matrix (Fin 3) (Fin 3) ℂ) 2 c) model st
      = .ok (clickStep solver d model st) := by
    intro st
    have hV : ∀ w : Fin 4 → ℝ, fiveWCov (fun c n => if n = c.rev.castSucc then 2 * star (d c.rev) else 0) w
        = diagonal fun c : Fin 3 => (4 * w c.rev.castSucc : ℂ) := by
      intro w
      have : ∀ c e : Fin 3, (∑ n : Fin 4, (w n : ℂ) * (if n = c.rev.castSucc then 2 * star (d c.rev) else 0)
          * star (if n = e.rev.castSucc then 2 * star (d e.rev) else 0))
          = (diagonal fun c : Fin 3 => (4 * w c.rev.castSucc : ℂ)) c e := by
        intro c e
        rw [Finset.sum_eq_single c.rev.castSucc (fun b _ hb => by simp [hb]) (by simp), if_pos rfl]
        by_cases hce : c = e
        · subst hce
          rw [if_pos rfl, diagonal_apply_eq]
          have := unit_sq (hd c.rev)
          simp only [star_mul', star_star, Complex.star_def, conj2, Complex.conj_conj] at this ⊢
          linear_combination (4 * w c.rev.castSucc : ℂ) * this
        · rw [if_neg (by simpa using hce), diagonal_apply_ne _ hce]
          simp
      unfold fiveWCov
      ext c e
      simp only [Matrix.smul_apply, Matrix.add_apply, Matrix.conjTranspose_apply, Matrix.of_apply, this]
      by_cases hce : c = e
      · subst hce
        simp [diagonal_apply_eq, conj2, Complex.conj_ofReal, Complex.conj_ofNat]
        ring
      · simp [diagonal_apply_ne _ hce, diagonal_apply_ne _ (Ne.symm hce)]
    unfold fiveEpoch clickStep fiveVectors smallestEigh
    simp only [bind, Except.bind, pure, Except.pure, hV]
    congr 2
    funext f n
    obtain rfl : f = 0 := Subsingleton.elim _ _
    generalize (solver (diagonal fun c : Fin 3 => (4 * ((model 1 st.ms fun _ => st.Y).1 0 0 c.rev.castSucc : ℝ) : ℂ))).vec = u
    fin_cases n <;> simp [Fin.sum_univ_three, Fin.ext_iff, Fin.rev, diagonal] <;> ring
  have hiter : ∀ k st, iterM (fiveEpoch solver none (fun c (_ : Fin 1) n => if n = c.rev.castSucc then 2 * star (d c.rev) else 0)
      (fun _ c => (Matrix.of fun i j => diagonal d i j.rev : Matrix (Fin 3) (Fin 3) ℂ) 2 c) model) k st
      = .ok ((clickStep solver d model)^[k] st) := by
    intro k
    induction k with
    | zero => intro st; rfl
    | succ k ih =>
      intro st
      simp only [iterM, hstep, bind, Except.bind, Function.iterate_succ, Function.comp]
      exact ih _
  have hx' : (fun (c : Fin 3) (f : Fin 1) n => ∑ k, (Matrix.of fun i j => star (diagonal d j i.rev) : Matrix (Fin 3) (Fin 3) ℂ) c k
      * clicks k f.succ n) = fun c (_ : Fin 1) n => if n = c.rev.castSucc then 2 * star (d c.rev) else 0 := by
    funext c f n
    exact hx c n
  unfold fiveForward
  simp only [hseq, bind, Except.bind, pure, Except.pure, hx', hiter]
  have hY0 : (fun (f : Fin 1) (n : Fin 4) => (∑ c, (Matrix.of fun i j => star (diagonal d j i.rev) : Matrix (Fin 3) (Fin 3) ℂ) 0 c
      * fiveCov (fun c n => clicks c f.succ n) c 2) *
        ∑ k, (Matrix.of fun i j => star (diagonal d j i.rev) : Matrix (Fin 3) (Fin 3) ℂ) 0 k * clicks k f.succ n)
      = fun _ => ![0, 0, 2 * star (d 2) ^ 2, 0] := by
    funext f n
    obtain rfl : f = 0 := Subsingleton.elim _ _
    rw [clicks_cov, show (0 : Fin 1).succ = 1 from rfl, hx]
    fin_cases n <;> simp [Fin.sum_univ_three, Fin.ext_iff, Fin.rev, diagonal, Matrix.one_apply]
    ring
  rw [hY0]
  congr 1
  funext s f n
  by_cases hf : f = 0
  · simp [hf]
  · rw [dif_neg hf, if_neg hf, Subsingleton.elim (f.pred hf) 0]

/-- Eigenvectors of a multiple of the identity that are not unit vectors. -/
private noncomputable def tilted (l : ℝ) : EigRes (Fin 3) :=
  ⟨fun _ => l, !![3 / 5, -4 / 5, 0; 4 / 5, 3 / 5, 0; 0, 0, 1]⟩

private lemma tilted_ortho (l : ℝ) : (tilted l).vecᴴ * (tilted l).vec = 1 := by
  ext i j
  fin_cases i <;> fin_cases j <;>
    simp [tilted, Matrix.mul_apply, Fin.sum_univ_three, Complex.conj_ofNat, Matrix.conjTranspose_apply] <;> norm_num

private lemma tilted_eigen (l : ℝ) : (diagonal fun _ => (l : ℂ)) * (tilted l).vec
    = (tilted l).vec * diagonal fun i => ((tilted l).val i : ℂ) := by
  ext i j
  rw [diagonal_mul, mul_diagonal, mul_comm]
  rfl

private lemma laplace_flat (Y : Fin 1 → Fin 4 → ℂ) (hY : ∀ n, ‖Y 0 n‖ ≤ 5) (n : Fin 4) :
    ((laplaceModel 10 : SourceModel Unit 1 4) 1 () fun _ => Y).1 0 0 n = 1 / 10 := by
  simp only [laplaceModel, laplaceForward, Finset.univ_unique, Finset.sum_singleton, Fin.default_eq_zero]
  rw [clampMin, max_eq_right]
  rw [magSq_eq, Real.sqrt_sq (norm_nonneg _)]
  linarith [hY n]

private lemma tilted_run (solver : Matrix (Fin 3) (Fin 3) ℂ → EigRes (Fin 3)) (d : Fin 3 → ℂ) (hd : ∀ i, ‖d i‖ = 1)
    (h1 : solver 1 = ⟨fun _ => 1, diagonal d⟩)
    (h2 : ∀ c, (solver (diagonal fun _ => ((0.4 : ℝ) : ℂ))).vec c 0 = ![3 / 5, 4 / 5, 0] c) (nIter : ℕ) (hn : 0 < nIter) :
    (fiveForward solver nIter 2 none clicks (laplaceModel 10) id ()).map (fun Y => Y 0 1 1)
      = .ok (24 / 25 * (d 2 * star (d 1))) := by
  rw [clicks_forward solver d hd h1]
  obtain ⟨k, rfl⟩ : ∃ k, nIter = k + 1 := ⟨nIter - 1, by omega⟩
  set Z : FiveState Unit 1 4 := ⟨fun _ n => d 2 * (3 / 5) * ![0, 2 * star (d 1) * (4 / 5), 2 * star (d 2) * (3 / 5), 0] n, ()⟩
    with hZ
  have step : ∀ st : FiveState Unit 1 4, (∀ n, ‖st.Y 0 n‖ ≤ 5) → clickStep solver d (laplaceModel 10) st = Z := by
    intro st hst
    have hV : (diagonal fun c : Fin 3 => (4 * (((laplaceModel 10 : SourceModel Unit 1 4) 1 st.ms fun _ => st.Y).1 0 0
        c.rev.castSucc : ℝ) : ℂ)) = diagonal fun _ => ((0.4 : ℝ) : ℂ) := by
      congr 1
      funext c
      rw [laplace_flat st.Y hst]
      push_cast
      norm_num
    unfold clickStep
    simp only [hV, h2]
    rw [hZ]
    congr 1
    funext f n
    fin_cases n <;> simp [Complex.conj_ofNat]
  rw [Function.iterate_succ_apply, step _ (fun n => by
    fin_cases n <;> simp [hd]
    norm_num), Function.iterate_fixed (step Z fun n => by
    fin_cases n <;> simp [hZ, hd] <;> norm_num)]
  simp only [Except.map, hZ]
  rw [if_neg (by decide)]
  congr 1
  simp
  ring

/-- **C28 is violated when eigenvalues coincide**, for every number of iterations: a recording, a correct eigensolver and a
choice of phases such that changing the phases of its eigenvectors changes the output of `FIVE` (here with the Laplace model
and a regularisation of 10, which makes all weights equal): from 24/25 to -24/25 in one of the frames. -/
theorem five_phase_degenerate_violated :
    ∃ (solver : Matrix (Fin 3) (Fin 3) ℂ → EigRes (Fin 3)) (phase : Matrix (Fin 3) (Fin 3) ℂ → Fin 3 → ℂ),
      EighContract 3 solver ∧ (∀ A i, ‖phase A i‖ = 1) ∧ (∀ f : Fin 1, WellConditioned fun c => clicks c f.succ) ∧
      ∀ nIter, 0 < nIter →
        (fiveForward solver nIter 2 none clicks (laplaceModel 10) id ()).map (fun Y => Y 0 1 1) = .ok (24 / 25) ∧
        (fiveForward (fun A => ⟨(solver A).val, Matrix.of fun i j => (solver A).vec i j * phase A j⟩) nIter 2 none clicks
          (laplaceModel 10) id ()).map (fun Y => Y 0 1 1) = .ok (-(24 / 25)) := by
  classical
  obtain ⟨base, hbase⟩ := eighContract_exists 3
  have hne : (diagonal fun _ => ((0.4 : ℝ) : ℂ) : Matrix (Fin 3) (Fin 3) ℂ) ≠ 1 := by
    intro e
    have := congrFun (congrFun e 0) 0
    rw [diagonal_apply_eq, Matrix.one_apply_eq] at this
    have := Complex.ofReal_injective (this.trans Complex.ofReal_one.symm)
    norm_num at this
  set solver := answering (diagonal fun _ => ((0.4 : ℝ) : ℂ)) (tilted 0.4) (answering 1 ⟨fun _ => 1, 1⟩ base) with hs
  have s1 : solver 1 = ⟨fun _ => 1, 1⟩ := by
    rw [hs]
    simp only [answering]
    rw [if_neg hne.symm]
    exact if_pos trivial
  have s2 : solver (diagonal fun _ => ((0.4 : ℝ) : ℂ)) = tilted 0.4 := by
    rw [hs]
    simp only [answering]
    exact if_pos trivial
  refine ⟨solver, fun A => if A = 1 then ![1, -1, 1] else fun _ => 1, ?_, ?_, clicks_wellConditioned, ?_⟩
  · exact answering_contract (answering_contract hbase (fun _ _ _ => le_rfl) (by simp) (by simp))
      (fun _ _ _ => le_rfl) (tilted_ortho _) (tilted_eigen _)
  · intro A i
    by_cases h : A = 1
    · simp only [if_pos h]
      fin_cases i <;> simp
    · simp [if_neg h]
  · intro nIter hn
    constructor
    · rw [tilted_run solver (fun _ => 1) (by simp) (by rw [s1, ← Matrix.diagonal_one]) (fun c => by
        rw [s2]; fin_cases c <;> simp [tilted]) nIter hn]
      simp
    · rw [tilted_run _ ![1, -1, 1] (fun i => by fin_cases i <;> simp) ?_ (fun c => ?_) nIter hn]
      · simp
      · simp only [s1, if_pos]
        congr 1
        ext i j
        simp only [Matrix.of_apply, Matrix.one_apply, diagonal_apply]
        split_ifs with h
        · rw [h, one_mul]
        · rw [zero_mul]
      · simp only [s2, if_neg hne]
        fin_cases c <;> simp [tilted]

/-- A source model that looks at the sign of the signal in the third frame. -/
noncomputable def signModel : SourceModel Unit 1 4 := fun _ ms Y =>
  (fun _ _ => open Classical in if ∃ k, 0 < (Y k 0 2).re then ![1, 2, 3, 1] else ![3, 2, 1, 1], ms)

private noncomputable def vA : Matrix (Fin 3) (Fin 3) ℂ := diagonal ![12, 8, 4]
private noncomputable def vB : Matrix (Fin 3) (Fin 3) ℂ := diagonal ![4, 8, 12]

private lemma sign_run (solver : Matrix (Fin 3) (Fin 3) ℂ → EigRes (Fin 3)) (d : Fin 3 → ℂ) (hd : ∀ i, ‖d i‖ = 1)
    (hA : ∀ c, (solver vA).vec c 0 = ![0, 0, 1] c) (hB : ∀ c, (solver vB).vec c 0 = ![1, 0, 0] c)
    (st : FiveState Unit 1 4) :
    clickStep solver d signModel st = ⟨fun _ => ![0, 0, if 0 < (st.Y 0 2).re then 0 else 2, 0], ()⟩ := by
  have hd2 := unit_sq (hd 2)
  by_cases h : 0 < (st.Y 0 2).re
  · have hw : (signModel 1 st.ms fun _ => st.Y).1 0 0 = ![1, 2, 3, 1] := if_pos ⟨0, h⟩
    have hV : (diagonal fun c : Fin 3 => (4 * ((signModel 1 st.ms fun _ => st.Y).1 0 0 c.rev.castSucc : ℝ) : ℂ)) = vA := by
      unfold vA
      congr 1
      funext c
      rw [hw]
      fin_cases c <;> norm_num [Fin.rev]
    unfold clickStep
    simp only [hV, hA, if_pos h]
    congr 1
    funext f n
    fin_cases n <;> simp
  · have hw : (signModel 1 st.ms fun _ => st.Y).1 0 0 = ![3, 2, 1, 1] := if_neg fun ⟨_, h'⟩ => h h'
    have hV : (diagonal fun c : Fin 3 => (4 * ((signModel 1 st.ms fun _ => st.Y).1 0 0 c.rev.castSucc : ℝ) : ℂ)) = vB := by
      unfold vB
      congr 1
      funext c
      rw [hw]
      fin_cases c <;> norm_num [Fin.rev]
    unfold clickStep
    simp only [hV, hB, if_neg h]
    congr 1
    funext f n
    fin_cases n <;> simp
    rw [Complex.star_def] at hd2
    linear_combination 2 * hd2

private lemma sign_iterate (solver : Matrix (Fin 3) (Fin 3) ℂ → EigRes (Fin 3)) (d : Fin 3 → ℂ) (hd : ∀ i, ‖d i‖ = 1)
    (hA : ∀ c, (solver vA).vec c 0 = ![0, 0, 1] c) (hB : ∀ c, (solver vB).vec c 0 = ![1, 0, 0] c)
    (st : FiveState Unit 1 4) (n : ℕ) :
    ((clickStep solver d signModel)^[n + 1] st).Y 0 2 = if (0 < (st.Y 0 2).re) = Even n then 0 else 2 := by
  induction n with
  | zero =>
    rw [Function.iterate_one, sign_run solver d hd hA hB]
    simp
  | succ n ih =>
    rw [Function.iterate_succ_apply', sign_run solver d hd hA hB]
    simp only [Matrix.cons_val]
    rw [ih]
    by_cases h1 : 0 < (st.Y 0 2).re <;> by_cases h2 : Even n <;> simp [h1, h2, Nat.even_add_one]

/-- **C28 is violated for source models that see phases**, for every number of iterations, although the
weighted covariances have distinct eigenvalues:
multiplying one eigenvector by `i` turns an output of 0 into 2 or the other way round. -/
theorem five_phase_sensitive_model_violated :
    ∃ (solver : Matrix (Fin 3) (Fin 3) ℂ → EigRes (Fin 3)) (phase : Matrix (Fin 3) (Fin 3) ℂ → Fin 3 → ℂ),
      EighContract 3 solver ∧ (∀ A i, ‖phase A i‖ = 1) ∧ (∀ f : Fin 1, WellConditioned fun c => clicks c f.succ) ∧
      ∀ nIter, 0 < nIter → ∃ a b : ℂ, a ≠ b ∧
        (fiveForward solver nIter 2 none clicks signModel id ()).map (fun Y => Y 0 1 2) = .ok a ∧
        (fiveForward (fun A => ⟨(solver A).val, Matrix.of fun i j => (solver A).vec i j * phase A j⟩) nIter 2 none clicks
          signModel id ()).map (fun Y => Y 0 1 2) = .ok b := by
  classical
  obtain ⟨base, hbase⟩ := eighContract_exists 3
  have n1 : vA ≠ 1 := fun e => by
    have := congrFun (congrFun e 0) 0
    simp [vA] at this
  have n2 : vB ≠ 1 := fun e => by
    have := congrFun (congrFun e 0) 0
    simp [vB] at this
  have n3 : vA ≠ vB := fun e => by
    have := congrFun (congrFun e 0) 0
    simp [vA, vB] at this
  set rev : Matrix (Fin 3) (Fin 3) ℂ := !![0, 0, 1; 0, 1, 0; 1, 0, 0] with hrev
  set solver := answering 1 ⟨fun _ => 1, 1⟩ (answering vA ⟨![4, 8, 12], rev⟩ (answering vB ⟨![4, 8, 12], 1⟩ base)) with hs
  have s1 : solver 1 = ⟨fun _ => 1, 1⟩ := by rw [hs]; simp only [answering]; exact if_pos trivial
  have sA : solver vA = ⟨![4, 8, 12], rev⟩ := by
    rw [hs]; simp only [answering]; rw [if_neg n1]; exact if_pos trivial
  have sB : solver vB = ⟨![4, 8, 12], 1⟩ := by
    rw [hs]; simp only [answering]; rw [if_neg n2, if_neg n3.symm]; exact if_pos trivial
  have mono : Monotone (![4, 8, 12] : Fin 3 → ℝ) := by
    intro i j h
    fin_cases i <;> fin_cases j <;> first | (exact absurd h (by decide)) | norm_num
  refine ⟨solver, fun A => if A = 1 then ![1, 1, Complex.I] else fun _ => 1, ?_, ?_, clicks_wellConditioned, ?_⟩
  · refine answering_contract (answering_contract (answering_contract hbase mono (by simp) ?_) mono ?_ ?_)
      (fun _ _ _ => le_rfl) (by simp) (by simp)
    · ext i j
      fin_cases i <;> fin_cases j <;> simp [vB]
    · ext i j
      fin_cases i <;> fin_cases j <;> simp [rev, Matrix.mul_apply, Fin.sum_univ_three, Matrix.conjTranspose_apply]
    · ext i j
      fin_cases i <;> fin_cases j <;> simp [rev, vA, Matrix.mul_apply, Fin.sum_univ_three]
  · intro A i
    by_cases h : A = 1
    · simp only [if_pos h]
      fin_cases i <;> simp
    · simp [if_neg h]
  · intro nIter hn
    obtain ⟨k, rfl⟩ : ∃ k, nIter = k + 1 := ⟨nIter - 1, by omega⟩
    have f1 := clicks_forward solver (fun _ => 1) (by simp) (by rw [s1, ← Matrix.diagonal_one]) (k + 1) signModel id ()
    have f2 := clicks_forward (fun A => ⟨(solver A).val, Matrix.of fun i j => (solver A).vec i j *
      (if A = 1 then ![1, 1, Complex.I] else fun _ => 1) j⟩) ![1, 1, Complex.I] (fun i => by fin_cases i <;> simp) (by
        simp only [s1]
        congr 1
        ext i j
        simp only [Matrix.of_apply, Matrix.one_apply, diagonal_apply]
        split_ifs with h
        · rw [h, one_mul]
        · rw [zero_mul]) (k + 1) signModel id ()
    rw [f1, f2]
    refine ⟨_, _, ?_, rfl, rfl⟩
    simp only
    rw [if_neg (by decide), if_neg (by decide),
      sign_iterate _ _ (by simp) (fun c => by rw [sA]; fin_cases c <;> simp [rev])
        (fun c => by rw [sB]; fin_cases c <;> simp [Matrix.one_apply]),
      sign_iterate _ _ (fun i => by fin_cases i <;> simp) (fun c => by
        simp only [sA, if_neg n1]; fin_cases c <;> simp [rev])
        (fun c => by simp only [sB, if_neg n2]; fin_cases c <;> simp [Matrix.one_apply])]
    by_cases h : Even k <;> simp [h]

end Props
end Torchiva
