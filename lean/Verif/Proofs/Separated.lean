import Verif.Spec.Separated
import Verif.Proofs.TIss
import Verif.Props.Hankel
import Verif.Model.AuxIva
import Verif.Proofs.Rearrange
import Verif.Proofs.Eig2

/-! # Lemmas for C104 -/

namespace Torchiva

open Matrix Spec

section loaded
variable {ι μ : Type} [Fintype ι] [DecidableEq ι] [Fintype μ]

lemma solve_zero {M : Matrix ι ι ℂ} {b x : Matrix ι μ ℂ} (h : solve M b = .ok x) {j : μ} (hb : ∀ i, b i j = 0) (i : ι) : x i j = 0 := by
  unfold solve at h
  split_ifs at h with hd
  obtain rfl := Except.ok.inj h
  rw [Matrix.mul_apply]
  exact Finset.sum_eq_zero fun k _ => by rw [hb, mul_zero]

lemma solve_diag {M : Matrix ι ι ℂ} {b x : Matrix ι μ ℂ} (h : solve M b = .ok x) (hM : ∀ i j, i ≠ j → M i j = 0) {i : ι} {j : μ}
    (hb : b i j = 0) : x i j = 0 := by
  obtain ⟨hd, hx⟩ := solve_ok_iff.1 h
  have hrow := congrFun (congrFun hx i) j
  rw [Matrix.mul_apply, Finset.sum_eq_single i (fun k _ hk => by rw [hM i k hk.symm, zero_mul]) (by simp), hb] at hrow
  refine (mul_eq_zero.1 hrow).resolve_left fun h0 => ?_
  refine hd.ne_zero (Matrix.det_eq_zero_of_row_eq_zero i fun k => ?_)
  by_cases hk : i = k
  · rw [← hk, h0]
  · exact hM i k hk

/-- A loaded solve with a right-hand side that vanishes has a vanishing solution. -/
lemma solveLoadedGeneral_zero {κ : Type} [Fintype κ] {A : Matrix κ ι ℂ} {b : Matrix κ μ ℂ} {load eps : ℝ} {j : μ}
    (hb : ∀ k, b k j = 0) {x : Matrix ι μ ℂ} (h : solveLoadedGeneral A b load eps = .ok x) (i : ι) : x i j = 0 := by
  refine solve_zero h (fun k => ?_) i
  simp [Matrix.mul_apply, Matrix.conjTranspose_apply, hb]

/-- A loaded solve with a diagonal matrix keeps the support of the right-hand side. -/
lemma solveLoadedGeneral_diag {A : Matrix ι ι ℂ} {b : Matrix ι μ ℂ} {load eps : ℝ} (hA : ∀ i j, i ≠ j → A i j = 0) {i : ι} {j : μ}
    (hb : b i j = 0) {x : Matrix ι μ ℂ} (h : solveLoadedGeneral A b load eps = .ok x) : x i j = 0 := by
  refine solve_diag h (fun k l hkl => ?_) ?_
  · have h0 : ∀ m, star (A m k * (rowWeight A eps m : ℂ)) * (A m l * (rowWeight A eps m : ℂ)) = 0 := by
      intro m
      by_cases hm : m = k
      · rw [hA m l (hm ▸ hkl)]; ring
      · rw [hA m k hm]; simp
    show (∑ m, star (A m k * (rowWeight A eps m : ℂ)) * (A m l * (rowWeight A eps m : ℂ))) + (load : ℂ) * (1 : Matrix ι ι ℂ) k l = 0
    rw [Finset.sum_eq_zero fun m _ => h0 m, Matrix.one_apply_ne hkl, mul_zero, add_zero]
  · have h0 : ∀ m, star (A m i * (rowWeight A eps m : ℂ)) * (b m j * (rowWeight A eps m : ℂ)) = 0 := by
      intro m
      by_cases hm : m = i
      · rw [hm, hb]; ring
      · rw [hA m i hm]; simp
    exact Finset.sum_eq_zero fun m _ => h0 m

lemma rowWeight_ne {κ : Type} (A : Matrix κ ι ℂ) {eps : ℝ} (he : 0 < eps) (k : κ) : (rowWeight A eps k : ℂ) ≠ 0 := by
  unfold rowWeight
  exact Complex.ofReal_ne_zero.2 (one_div_ne_zero (lt_of_lt_of_le he (le_max_right _ _)).ne')

/-- A loaded solve with a diagonal matrix does not lose an entry. -/
lemma solveLoadedGeneral_diag_ne {A : Matrix ι ι ℂ} {b : Matrix ι μ ℂ} {load eps : ℝ} (he : 0 < eps) (hA : ∀ i j, i ≠ j → A i j = 0) {i : ι}
    {j : μ} (hi : A i i ≠ 0) (hb : b i j ≠ 0) {x : Matrix ι μ ℂ} (h : solveLoadedGeneral A b load eps = .ok x) : x i j ≠ 0 := by
  intro hx
  obtain ⟨-, hs⟩ := solve_ok_iff.1 h
  have hrow := congrFun (congrFun hs i) j
  rw [Matrix.mul_apply, Finset.sum_eq_zero] at hrow
  · have h1 : (0 : ℂ) = ∑ m, star (A m i * (rowWeight A eps m : ℂ)) * (b m j * (rowWeight A eps m : ℂ)) := hrow
    rw [Finset.sum_eq_single i (fun m _ hm => by rw [hA m i hm]; simp) (by simp)] at h1
    exact mul_ne_zero (star_ne_zero.2 (mul_ne_zero hi (rowWeight_ne A he i))) (mul_ne_zero hb (rowWeight_ne A he i)) h1.symm
  · intro k _
    by_cases hk : k = i
    · rw [hk, hx, mul_zero]
    · have h0 : ∀ m, star (A m i * (rowWeight A eps m : ℂ)) * (A m k * (rowWeight A eps m : ℂ)) = 0 := by
        intro m
        by_cases hm : m = i
        · rw [hA m k (fun e => hk (e ▸ hm))]; ring
        · rw [hA m i hm]; simp
      have : ((∑ m, star (A m i * (rowWeight A eps m : ℂ)) * (A m k * (rowWeight A eps m : ℂ))) + (load : ℂ) * (1 : Matrix ι ι ℂ) i k) * x k j
          = 0 := by
        rw [Finset.sum_eq_zero fun m _ => h0 m, Matrix.one_apply_ne (Ne.symm hk), mul_zero, add_zero, zero_mul]
      exact this

end loaded

section tiss
variable {s C F N T : ℕ}

/-- How far back T-ISS looks. -/
def reach (T D : ℕ) : ℕ := if T = 0 then 0 else D + T

/-- Every filter reads its own channel, and only that one. -/
structure Own (W : DemixW s F C) (H : DemixH s F C T) : Prop where
  w : ∀ k f c, c.1 ≠ k.1 → W k f c = 0
  h : ∀ k f d t, d.1 ≠ k.1 → H k f d t = 0
  ne : ∀ k f c, c.1 = k.1 → W k f c ≠ 0

lemma taps_past (X : Sig C F N) (T D : ℕ) (c f) (t : Fin T) (n) : delayedTaps X T D c f t n = past (X c f) (D + T - t) n :=
  Props.xbarRow_eq (X c f) T D t n

lemma past_zero (x : Fin N → ℂ) (n : Fin N) : past x 0 n = x n := by simp [past]

/-- Two channels looked at with delays within reach do not meet. -/
lemma past_mul {L : ℕ} {X : Sig C F N} (hX : Apart L X) {c d : Fin C} (hcd : c ≠ d) (f) {a b : ℕ} (ha : a ≤ L) (hb : b ≤ L) (n : Fin N) :
    past (X c f) a n * star (past (X d f) b n) = 0 := by
  unfold past
  by_cases h1 : a ≤ n.1
  · by_cases h2 : b ≤ n.1
    · rw [dif_pos h1, dif_pos h2]
      rcases hX c d hcd f ⟨n - a, by omega⟩ ⟨n - b, by omega⟩ (by simp; omega) (by simp; omega) with h | h
      · rw [h, zero_mul]
      · rw [h, star_zero, mul_zero]
    · rw [dif_neg h2, star_zero, mul_zero]
  · rw [dif_neg h1, zero_mul]

lemma delay_le {D : ℕ} (t : Fin T) : D + T - t ≤ reach T D := by
  unfold reach
  rw [if_neg (by have := t.2; omega)]
  omega

variable {X : Sig C F N} {D : ℕ}

/-- A demixed signal does not meet the past of another channel. -/
lemma own_past (hs : s ≤ C) (hX : Apart (reach T D) X) {W : DemixW s F C} {H : DemixH s F C T} (h : Own W H) (k : Fin s) (d : Fin C)
    (hd : d.1 ≠ k.1) (f) {b : ℕ} (hb : b ≤ reach T D) (n) :
    demixDerev X (delayedTaps X T D) W H k f n * star (past (X d f) b n) = 0 := by
  have hne : ∀ c : Fin C, c.1 = k.1 → c ≠ d := fun c hc e => hd (by rw [← e, hc])
  unfold demixDerev
  rw [sub_mul, Finset.sum_mul, Finset.sum_mul]
  rw [Finset.sum_eq_zero, Finset.sum_eq_zero, sub_zero]
  · intro c _
    rw [Finset.sum_mul]
    refine Finset.sum_eq_zero fun t _ => ?_
    by_cases hc : c.1 = k.1
    · rw [taps_past, mul_assoc, past_mul hX (hne c hc) f (delay_le t) hb, mul_zero]
    · rw [h.h k f c t hc, zero_mul, zero_mul]
  · intro c _
    by_cases hc : c.1 = k.1
    · rw [mul_assoc, ← past_zero (X c f) n, past_mul hX (hne c hc) f (Nat.zero_le _) hb, mul_zero]
    · rw [h.w k f c hc, zero_mul, zero_mul]

/-- Two different demixed signals do not meet. -/
lemma own_own (hs : s ≤ C) (hX : Apart (reach T D) X) {W : DemixW s F C} {H : DemixH s F C T} (h : Own W H) (k l : Fin s)
    (hkl : k ≠ l) (f) (n) :
    demixDerev X (delayedTaps X T D) W H k f n * star (demixDerev X (delayedTaps X T D) W H l f n) = 0 := by
  have hne : ∀ c : Fin C, c.1 = l.1 → c.1 ≠ k.1 := fun c hc e => hkl (Fin.ext (by omega))
  conv_lhs => rw [demixDerev.eq_def X _ W H l f n]
  rw [star_sub, star_sum, star_sum, mul_sub, Finset.mul_sum, Finset.mul_sum, Finset.sum_eq_zero, Finset.sum_eq_zero, sub_zero]
  · intro c _
    rw [star_sum, Finset.mul_sum]
    refine Finset.sum_eq_zero fun t _ => ?_
    by_cases hc : c.1 = l.1
    · rw [taps_past, star_mul, ← mul_assoc, own_past hs hX h k c (hne c hc) f (delay_le t), zero_mul]
    · rw [h.h l f c t hc, zero_mul, star_zero, mul_zero]
  · intro c _
    by_cases hc : c.1 = l.1
    · rw [star_mul, ← mul_assoc]
      have := own_past hs hX h k c (hne c hc) f (Nat.zero_le _) n
      rw [past_zero] at this
      rw [this, zero_mul]
    · rw [h.w l f c hc, zero_mul, star_zero, mul_zero]

/-- The background filter vanishes. -/
lemma own_background (hs : s ≤ C) (hX : Apart (reach T D) X) {W : DemixW s F C} {H : DemixH s F C T} (h : Own W H) {eps : ℝ} {J}
    (hJ : backgroundUpdate hs W H (covXX X) (covXbarX X (delayedTaps X T D)) eps = .ok J) : J = fun _ _ _ => 0 := by
  unfold backgroundUpdate at hJ
  dsimp only at hJ
  cases hb : seqAll (fun f => solveLoadedGeneral
      (Matrix.of fun (k : Fin s) (d : Fin s) => bgA W H (covXX X) (covXbarX X (delayedTaps X T D)) f k (Fin.castLE hs d))
      (Matrix.of fun (k : Fin s) (d : Fin (C - s)) => bgA W H (covXX X) (covXbarX X (delayedTaps X T D)) f k ⟨s + d, by omega⟩)
      eps eps) with
  | error e => rw [hb] at hJ; cases hJ
  | ok JH =>
    rw [hb] at hJ
    obtain rfl := Except.ok.inj hJ
    funext c f k
    have hf := seqAll_ok_iff.1 hb f
    rw [solveLoadedGeneral_zero (j := c) (fun l => ?_) hf k, star_zero]
    have hcov : ∀ d e : Fin C, d ≠ e → covXX X d f e = 0 := by
      intro d e hde
      unfold covXX
      rw [Finset.sum_eq_zero fun n _ => ?_, zero_div]
      have := past_mul hX hde f (Nat.zero_le _) (Nat.zero_le _) n
      rwa [past_zero, past_zero] at this
    have hcov' : ∀ (d e : Fin C) t, d ≠ e → covXbarX X (delayedTaps X T D) d t f e = 0 := by
      intro d e t hde
      unfold covXbarX
      rw [Finset.sum_eq_zero fun n _ => ?_, zero_div]
      have := past_mul hX hde f (delay_le t) (Nat.zero_le _) n
      rwa [past_zero, ← taps_past] at this
    have hlt := l.2
    simp only [Matrix.of_apply, bgA]
    rw [Finset.sum_eq_zero, Finset.sum_eq_zero, add_zero]
    · intro d _
      refine Finset.sum_eq_zero fun t _ => ?_
      by_cases hd : d.1 = l.1
      · rw [hcov' d _ t (fun e => by rw [e] at hd; simp only at hd; omega), mul_zero]
      · rw [h.h l f d t hd, zero_mul]
    · intro d _
      by_cases hd : d.1 = l.1
      · rw [hcov d _ (fun e => by rw [e] at hd; simp only at hd; omega), mul_zero]
      · rw [h.w l f d hd, zero_mul]

/-- The signals are those of the filters, and every filter reads its own channel. -/
def Kept (X : Sig C F N) (D : ℕ) (st : IssState s C F N T) : Prop :=
  Inv X (delayedTaps X T D) st.Y st.W st.H ∧ Own st.W st.H

lemma kept_src (hs : s ≤ C) (hX : Apart (reach T D) X) (w : Weights s F N) {eps : ℝ} (he : 0 < eps) (st : IssState s C F N T) (src : Fin s)
    (h : Kept X D st) : Kept X D (issSrcStep w eps st src) := by
  refine ⟨inv_srcStep w eps st src h.1, ?_⟩
  have hv : ∀ c f, c ≠ src → issType1 src st.Y w eps c f = 0 := by
    intro c f hc
    simp only [issType1, if_neg hc]
    rw [Finset.sum_eq_zero fun n _ => ?_]
    · simp [divide]
    · rw [mul_assoc, h.1, own_own hs hX h.2 c src hc f n, mul_zero]
  refine ⟨fun k f c hc => ?_, fun k f d t hd => ?_, fun k f c hc => ?_⟩
  · simp only [issSrcStep]
    by_cases hk : k = src
    · subst hk; rw [h.2.w k f c hc]; ring
    · rw [hv k f hk, h.2.w k f c hc]; ring
  · simp only [issSrcStep]
    by_cases hk : k = src
    · subst hk; rw [h.2.h k f d t hd]; ring
    · rw [hv k f hk, h.2.h k f d t hd]; ring
  · simp only [issSrcStep]
    by_cases hk : k = src
    · subst hk
      simp only [issType1, if_true]
      rw [show ∀ (a b : ℂ), a - b * a = (1 - b) * a from fun a b => by ring]
      refine mul_ne_zero ?_ (h.2.ne k f c hc)
      rw [← Complex.ofReal_one, ← Complex.ofReal_sub, sub_sub_cancel]
      exact Complex.ofReal_ne_zero.2 (one_div_ne_zero (Real.sqrt_pos.2 (lt_of_lt_of_le he (le_max_right _ _))).ne')
    · rw [hv k f hk, zero_mul, sub_zero]
      exact h.2.ne k f c hc

lemma kept_bak (hs : s ≤ C) (hX : Apart (reach T D) X) (w : Weights s F N) (eps : ℝ) (st : IssState s C F N T) (bak : Fin (C - s))
    (h : Kept X D st) : Kept X D (issBakStep w eps (demixBackground hs X fun _ _ _ => 0) (fun _ _ _ => 0) st bak) := by
  refine ⟨inv_bakStep hs w eps _ st bak h.1, ?_⟩
  have hv : ∀ c f, issType2 st.Y (demixBackground hs X (fun _ _ _ => 0) bak) w eps c f = 0 := by
    intro c f
    simp only [issType2]
    rw [Finset.sum_eq_zero fun n _ => ?_]
    · simp [divide]
    · simp only [demixBackground, zero_mul, Finset.sum_const_zero, zero_sub, star_neg]
      rw [mul_assoc, mul_neg, h.1]
      have := own_past hs hX h.2 c ⟨s + bak.1, by omega⟩ (by simp only; omega) f (Nat.zero_le _) n
      rw [past_zero] at this
      rw [this, neg_zero, mul_zero]
  have hW : ∀ k f c, (issBakStep w eps (demixBackground hs X fun _ _ _ => 0) (fun _ _ _ => 0) st bak).W k f c = st.W k f c := by
    intro k f c
    simp only [issBakStep, hv, zero_mul, sub_zero, add_zero, dite_eq_ite, ite_self]
  exact ⟨fun k f c hc => (hW k f c).trans (h.2.w k f c hc), h.2.h, fun k f c hc => by rw [hW]; exact h.2.ne k f c hc⟩

lemma kept_tap (hs : s ≤ C) (hX : Apart (reach T D) X) (w : Weights s F N) (eps : ℝ) (st : IssState s C F N T) (src : Fin C) (tap : Fin T)
    (h : Kept X D st) : Kept X D (issTapStep w eps (delayedTaps X T D) st src tap) := by
  refine ⟨inv_tapStep w eps st src tap h.1, h.2.w, fun k f d t hd => ?_, h.2.ne⟩
  simp only [issTapStep]
  split_ifs with e
  · obtain ⟨rfl, rfl⟩ := e
    rw [h.2.h k f d t hd, zero_add]
    simp only [issType3]
    rw [Finset.sum_eq_zero fun n _ => ?_]
    · simp [divide]
    · rw [mul_assoc, h.1, taps_past, own_past hs hX h.2 k d hd f (delay_le t), mul_zero]
  · exact h.2.h k f d t hd

lemma kept_updates (hs : s ≤ C) (hX : Apart (reach T D) X) (w : Weights s F N) {eps : ℝ} (he : 0 < eps) (oJ : Option (BackJ (C - s) F s))
    (hJ : ∀ J ∈ oJ, J = fun _ _ _ => 0) (st : IssState s C F N T) (h : Kept X D st) :
    Kept X D (issUpdates (delayedTaps X T D) w eps (oJ.map fun J => (demixBackground hs X J, J)) st) := by
  unfold issUpdates
  simp only
  refine foldl_inv (Kept X D) _ (fun a b ha => ?_) _ _ ?_
  · exact foldl_inv (Kept X D) _ (fun a' b' h' => kept_tap hs hX w eps a' b b' h') _ _ ha
  · have h1 := foldl_inv (Kept X D) _ (fun a b ha => kept_src hs hX w he a b ha) (List.finRange s) st h
    cases oJ with
    | none => exact h1
    | some J =>
      obtain rfl := hJ J rfl
      exact foldl_inv (Kept X D) _ (fun a b ha => kept_bak hs hX w eps a b ha) _ _ h1

lemma own_scale {W : DemixW s F C} {H : DemixH s F C T} (g : Fin s → ℝ) {eps : ℝ} (he : 0 < eps) (h : Own W H) :
    Own (fun k f c => divide (W k f c) (g k) eps) (fun k f c t => divide (H k f c t) (g k) eps) :=
  ⟨fun k f c hc => by simp only [h.w k f c hc, divide, zero_div], fun k f d t hd => by simp only [h.h k f d t hd, divide, zero_div],
    fun k f c hc => div_ne_zero (h.ne k f c hc) (Complex.ofReal_ne_zero.2 (lt_of_lt_of_le he (le_max_right _ _)).ne')⟩

/-- State of the main loop on channels that do not overlap. -/
def KeptState {σ : Type} (X : Sig C F N) (D : ℕ) (st : TissState σ s C F N T) : Prop :=
  Inv X (delayedTaps X T D) st.Y st.W st.H ∧ Own st.W st.H ∧ (∀ J ∈ st.J, J = fun _ _ _ => 0) ∧ (st.J.isSome ↔ s < C)

lemma keptState_oneIter {σ : Type} (hs : s ≤ C) (hX : Apart (reach T D) X) (model : SourceModel σ F N) {eps : ℝ} (he : 0 < eps)
    (st st' : TissState σ s C F N T) (h : KeptState X D st)
    (hr : tissOneIter hs X (delayedTaps X T D) (covXX X) (covXbarX X (delayedTaps X T D)) model eps st = .ok st') : KeptState X D st' := by
  obtain ⟨hi, ho, hJ0, hs0⟩ := h
  unfold tissOneIter at hr
  simp only at hr
  have h1 := inv_scale (fun k => √(sourceGain st.Y eps k)) eps hi
  have h2 := own_scale (fun k => √(sourceGain st.Y eps k)) he ho
  cases hJ : st.J with
  | none =>
    rw [hJ] at hr hs0
    simp only [pure, Except.pure, Except.ok.injEq] at hr
    subst hr
    have h3 := kept_updates hs hX (fun k f n => (model s st.ms st.Y).1 k f n * sourceGain st.Y eps k) he none (by simp) ⟨_, _, _⟩ ⟨h1, h2⟩
    exact ⟨h3.1, h3.2, by simp, hs0⟩
  | some J0 =>
    rw [hJ] at hr hs0
    simp only at hr
    cases hb : backgroundUpdate hs (fun k f c => divide (st.W k f c) (√(sourceGain st.Y eps k)) eps)
        (fun k f c t => divide (st.H k f c t) (√(sourceGain st.Y eps k)) eps) (covXX X) (covXbarX X (delayedTaps X T D)) 1e-3 with
    | error e => rw [hb] at hr; cases hr
    | ok J =>
      rw [hb] at hr
      simp only [bind, Except.bind, pure, Except.pure, Except.ok.injEq] at hr
      subst hr
      have hJz := own_background hs hX h2 hb
      have h3 := kept_updates hs hX (fun k f n => (model s st.ms st.Y).1 k f n * sourceGain st.Y eps k) he (some J)
        (by simpa using hJz) ⟨_, _, _⟩ ⟨h1, h2⟩
      exact ⟨h3.1, h3.2, by simpa using hJz, hs0⟩

lemma keptState_init {σ : Type} (hs : s ≤ C) (hX : Apart (reach T D) X) (eps : ℝ) (ms : σ) (st : TissState σ s C F N T)
    (h : tissInit hs X T D eps ms = .ok st) : KeptState X D st := by
  have hO : Own (fun (k : Fin s) (_ : Fin F) (c : Fin C) => if k.1 = c.1 then (1 : ℂ) else 0) (fun _ _ _ (_ : Fin T) => 0) :=
    ⟨fun k f c hc => if_neg (Ne.symm hc), fun _ _ _ _ _ => rfl, fun k f c hc => by rw [if_pos hc.symm]; exact one_ne_zero⟩
  unfold tissInit at h
  simp only at h
  split_ifs at h with hc
  · cases hb : backgroundUpdate hs (fun (k : Fin s) (_ : Fin F) (c : Fin C) => if k.1 = c.1 then (1 : ℂ) else 0)
        (fun _ _ _ _ => 0) (covXX X) (covXbarX X (delayedTaps X T D)) eps with
    | error e => rw [hb] at h; cases h
    | ok J =>
      rw [hb] at h
      simp only [bind, Except.bind, pure, Except.pure, Except.ok.injEq] at h
      subst h
      exact ⟨rfl, hO, by simpa using own_background hs hX hO hb, by simp [hc]⟩
  · simp only [pure, Except.pure, Except.ok.injEq] at h
    subst h
    exact ⟨rfl, hO, by simp, by simp [hc]⟩

lemma keptState_loop {σ : Type} (hs : s ≤ C) (hX : Apart (reach T D) X) (model : SourceModel σ F N) {eps : ℝ} (he : 0 < eps) (useDmc : Bool) (n : ℕ)
    (st st' : TissState σ s C F N T) (h : KeptState X D st) (hr : tissLoop hs X T D model eps useDmc n st = .ok st') :
    Own st'.W st'.H ∧ (useDmc = false → Inv X (delayedTaps X T D) st'.Y st'.W st'.H) ∧ (∀ J ∈ st'.J, J = fun _ _ _ => 0) ∧
      (st'.J.isSome ↔ s < C) := by
  unfold tissLoop at hr
  cases useDmc with
  | false =>
    have := iterM_inv (KeptState X D) _ (fun a a' ha h => keptState_oneIter hs hX model he a a' ha h) n st st' h hr
    exact ⟨this.2.1, fun _ => this.1, this.2.2⟩
  | true =>
    have := iterM_inv (fun a : TissState σ s C F N T => Own a.W a.H ∧ (∀ J ∈ a.J, J = fun _ _ _ => 0) ∧ (a.J.isSome ↔ s < C)) _
      (fun a a' ha h => ?_) n st st' h.2 hr
    · exact ⟨this.1, by simp, this.2⟩
    · simp only [if_true] at h
      unfold tissOneIterDmc at h
      dsimp only at h
      cases h1 : tissOneIter hs X (delayedTaps X T D) (covXX X) (covXbarX X (delayedTaps X T D)) model eps
          ⟨demixDerev X (delayedTaps X T D) a.W a.H, a.W, a.H, a.J, a.ms⟩ with
      | error e => rw [h1] at h; cases h
      | ok r =>
        rw [h1] at h
        obtain rfl := Except.ok.inj h
        have h0 : KeptState X D (⟨demixDerev X (delayedTaps X T D) a.W a.H, a.W, a.H, a.J, a.ms⟩ : TissState σ s C F N T) := ⟨rfl, ha⟩
        exact (keptState_oneIter hs hX model he _ r h0 h1).2

/-- Projection back onto a microphone silences exactly the sources that are not in it. -/
lemma own_projection (hs : s ≤ C) {W : DemixW s F C} {H : DemixH s F C T} (h : Own W H) {J : Option (BackJ (C - s) F s)}
    (hJ : ∀ J' ∈ J, J' = fun _ _ _ => 0) {m : ℕ} {a : Fin s → Fin F → ℂ} (ha : projectionBackWeights hs W J m = .ok a) (k : Fin s)
    (f) : a k f = 0 ↔ k.1 ≠ m := by
  have hW : ∀ (k : Fin s) f (d : Fin s), d ≠ k → W k f (Fin.castLE hs d) = 0 :=
    fun k f d hd => h.w k f _ fun e => hd (Fin.ext e)
  unfold projectionBackWeights at ha
  by_cases hc : s < C
  · simp only [if_pos hc] at ha
    cases J with
    | none => cases ha
    | some J =>
      obtain rfl := hJ J rfl
      dsimp only at ha
      obtain ⟨rhs, hrhs, ha⟩ := (bind_ok_iff _ _ _).1 ha
      obtain ⟨r, hr, ha⟩ := (bind_ok_iff _ _ _).1 ha
      obtain rfl := Except.ok.inj ha
      refine ⟨fun h0 hk => ?_, fun hk => solveLoadedGeneral_diag (fun i j hij => ?_) ?_ (seqAll_ok_iff.1 hr f)⟩
      · refine solveLoadedGeneral_diag_ne (by norm_num) (fun i j hij => ?_) ?_ ?_ (seqAll_ok_iff.1 hr f) h0
        · simp [hW j f i hij]
        · simpa using h.ne k f _ rfl
        · rw [dif_pos (hk ▸ k.2)] at hrhs
          obtain rfl := Except.ok.inj hrhs
          simp [hk]
      · simp [hW j f i hij]
      · split_ifs at hrhs
        · obtain rfl := Except.ok.inj hrhs
          simp [hk]
        · obtain rfl := Except.ok.inj hrhs
          simp
  · simp only [if_neg hc] at ha
    by_cases hm : m < s
    · simp only [if_pos hm] at ha
      obtain ⟨r, hr, ha⟩ := (bind_ok_iff _ _ _).1 ha
      obtain rfl := Except.ok.inj ha
      refine ⟨fun h0 hk => ?_, fun hk => solveLoadedGeneral_diag (fun i j hij => ?_) ?_ (seqAll_ok_iff.1 hr f)⟩
      · refine solveLoadedGeneral_diag_ne (by norm_num) (fun i j hij => ?_) ?_ ?_ (seqAll_ok_iff.1 hr f) h0
        · simp [hW j f i hij]
        · simpa using h.ne k f _ rfl
        · simp [hk]
      · simp [hW j f i hij]
      · simp [hk]
    · simp only [if_neg hm] at ha
      cases ha

lemma tissForward_split {σ : Type} {p : TissParams} {nSrc : Option ℕ} {model : SourceModel σ F N} {reset : σ → σ} {ms : σ}
    {out : TissOut σ s C F N} (h : tissForward p nSrc X model reset ms = .ok ⟨s, out⟩) :
    ∃ hs : s ≤ C, tissCore hs p X model (reset ms) = .ok out := by
  unfold tissForward at h
  dsimp only at h
  split_ifs at h with hs
  cases hc : tissCore hs p X model (reset ms) with
  | error e => rw [hc] at h; cases h
  | ok o =>
    rw [hc] at h
    simp only [Except.map, Except.ok.injEq, Sigma.mk.injEq] at h
    obtain ⟨h1, h2⟩ := h
    subst h1
    exact ⟨hs, by rw [hc, eq_of_heq h2]⟩

lemma tissCore_own {σ : Type} (hs : s ≤ C) (p : TissParams) (X : Sig C F N) (model : SourceModel σ F N) (ms : σ)
    (he : 0 < p.eps) (hX : Apart (reach p.nTaps p.nDelay) X) (out : TissOut σ s C F N) (h : tissCore hs p X model ms = .ok out) :
    ∃ (W : DemixW s F C) (H : DemixH s F C p.nTaps) (g : Fin s → Fin F → ℂ),
      Own W H ∧ (∀ k f, g k f = 0 ↔ 0 < p.nIter ∧ ∃ m, p.projBackMic = some m ∧ k.1 ≠ m) ∧
      ∀ k f n, out.Y k f n = g k f * demixDerev X (delayedTaps X p.nTaps p.nDelay) W H k f n := by
  unfold tissCore at h
  obtain ⟨st0, h0, h⟩ := (bind_ok_iff _ _ _).1 h
  obtain ⟨st, h1, h⟩ := (bind_ok_iff _ _ _).1 h
  obtain ⟨ho, hi, hJ, -⟩ := keptState_loop hs hX model he p.useDmc p.nIter st0 st (keptState_init hs hX p.eps ms st0 h0) h1
  have hY : (if p.useDmc then demixDerev X (delayedTaps X p.nTaps p.nDelay) st.W st.H else st.Y)
      = demixDerev X (delayedTaps X p.nTaps p.nDelay) st.W st.H := by
    cases hu : p.useDmc with
    | true => rfl
    | false => exact hi hu
  dsimp only at h
  rw [hY] at h
  cases hp : p.projBackMic with
  | none =>
    rw [hp] at h
    obtain rfl := Except.ok.inj h
    exact ⟨st.W, st.H, fun _ _ => 1, ho, fun k f => by simp, fun k f n => (one_mul _).symm⟩
  | some m =>
    rw [hp] at h
    dsimp only at h
    by_cases hn : 0 < p.nIter
    · rw [if_pos hn] at h
      obtain ⟨a, ha, h⟩ := (bind_ok_iff _ _ _).1 h
      obtain rfl := Except.ok.inj h
      refine ⟨st.W, st.H, a, ho, fun k f => ?_, fun k f n => rfl⟩
      rw [own_projection hs ho hJ ha k f]
      simp [hn]
    · rw [if_neg hn] at h
      obtain rfl := Except.ok.inj h
      exact ⟨st.W, st.H, fun _ _ => 1, ho, fun k f => by simp [hn], fun k f n => (one_mul _).symm⟩

/-- What a filter that reads its own channel returns. -/
lemma own_single (hs : s ≤ C) {W : DemixW s F C} {H : DemixH s F C T} (h : Own W H) (k f n) :
    demixDerev X (delayedTaps X T D) W H k f n = W k f (Fin.castLE hs k) * X (Fin.castLE hs k) f n
      - ∑ t, H k f (Fin.castLE hs k) t * past (X (Fin.castLE hs k) f) (D + T - t) n := by
  unfold demixDerev
  rw [Finset.sum_eq_single (Fin.castLE hs k) (fun c _ hc => by rw [h.w k f c (fun e => hc (Fin.ext e)), zero_mul]) (by simp),
    Finset.sum_eq_single (Fin.castLE hs k)
      (fun c _ hc => Finset.sum_eq_zero fun t _ => by rw [h.h k f c t (fun e => hc (Fin.ext e)), zero_mul]) (by simp)]
  simp only [taps_past]

end tiss

section ip
variable {s C F N : ℕ}

/-- Every row reads its own channel only and, under the condition `P`, does not lose a channel that is not silent. -/
structure OwnIp (P : Prop) (x : Fin C → Fin N → ℂ) (W : Matrix (Fin s) (Fin C) ℂ) : Prop where
  w : ∀ k c, c.1 ≠ k.1 → W k c = 0
  ne : P → ∀ k c, c.1 = k.1 → x c ≠ 0 → W k c ≠ 0

variable {P : Prop} {x : Fin C → Fin N → ℂ}

/-- The background matrix is zero, and missing only if there is no background. -/
def NoBackground (J : Option (Matrix (Fin (C - s)) (Fin s) ℂ)) : Prop := (∀ J' ∈ J, J' = 0) ∧ (J = none → s = C)

lemma ownIp_constraint {W : Matrix (Fin s) (Fin C) ℂ} (h : OwnIp P x W) {M : Matrix (Fin C) (Fin C) ℂ} (hM : ∀ c d, c ≠ d → M c d = 0)
    {load : ℝ} {J} (hJ : orthogonalConstraint W M load = .ok J) : NoBackground J := by
  unfold orthogonalConstraint at hJ
  split_ifs at hJ with h1 h2
  · obtain rfl := Except.ok.inj hJ
    exact ⟨fun J' hJ' => (by cases hJ'), fun _ => h1⟩
  · obtain ⟨JH, hs, hJ⟩ := (bind_ok_iff _ _ _).1 hJ
    obtain rfl := Except.ok.inj hJ
    refine ⟨fun J' hJ' => ?_, fun h => (by cases h)⟩
    obtain rfl := Option.some.inj hJ'
    ext c k
    rw [Matrix.conjTranspose_apply, solveLoadedGeneral_zero (j := c) (fun l => ?_) hs k, star_zero, Matrix.zero_apply]
    rw [Matrix.of_apply, Matrix.mul_apply]
    refine Finset.sum_eq_zero fun d _ => ?_
    have hl := l.2
    by_cases hd : d.1 = l.1
    · rw [hM d _ (fun e => by rw [e] at hd; simp only at hd; omega), mul_zero]
    · rw [h.w l d hd, zero_mul]

lemma ownIp_row (hs : s ≤ C) {W : Matrix (Fin s) (Fin C) ℂ} (h : OwnIp P x W) {J : Option (Matrix (Fin (C - s)) (Fin s) ℂ)} (hJ : NoBackground J)
    {V : Matrix (Fin C) (Fin C) ℂ} (hV : ∀ c d, c ≠ d → V c d = 0) {k : Fin s} {eps : ℝ} (he : 0 < eps) {w : Fin C → ℂ}
    (hw : ipNewRow hs W J V k eps = .ok w) (c : Fin C) :
    (c.1 ≠ k.1 → w c = 0) ∧ (P → c.1 = k.1 → x c ≠ 0 → V c c ≠ 0 → w c ≠ 0) := by
  unfold ipNewRow at hw
  dsimp only at hw
  obtain ⟨sol, hsol, hw⟩ := (bind_ok_iff _ _ _).1 hw
  obtain rfl := Except.ok.inj hw
  have hdiag : ∀ i d, i ≠ d → stackWV hs W J V i d = 0 := by
    intro i d hid
    unfold stackWV
    rw [Matrix.of_apply]
    split_ifs with hi
    · rw [Matrix.mul_apply]
      refine Finset.sum_eq_zero fun e _ => ?_
      by_cases he : e.1 = i.1
      · rw [hV e d (fun h => hid (by rw [← h]; exact Fin.ext he.symm)), mul_zero]
      · rw [h.w ⟨i, hi⟩ e he, zero_mul]
    · cases J with
      | none => rfl
      | some J => obtain rfl := hJ.1 J rfl; simp [hV i d hid]
  constructor
  · intro hc
    have : sol c 0 = 0 := solveLoadedGeneral_diag hdiag (by simp [hc]) hsol
    simp only [this, star_zero, zero_div]
  · intro hP hc hx hVc
    have hkk : stackWV hs W J V c c ≠ 0 := by
      unfold stackWV
      rw [Matrix.of_apply, dif_pos (hc ▸ k.2), Matrix.mul_apply,
        Finset.sum_eq_single c (fun e _ hec => by rw [h.w ⟨c, hc ▸ k.2⟩ e (fun e' => hec (Fin.ext e')), zero_mul]) (by simp)]
      exact mul_ne_zero (h.ne hP _ c rfl hx) hVc
    have : sol c 0 ≠ 0 := solveLoadedGeneral_diag_ne he hdiag hkk (by simp [hc]) hsol
    exact div_ne_zero (star_ne_zero.2 this)
      (Complex.ofReal_ne_zero.2 (Real.sqrt_pos.2 (lt_of_lt_of_le he (le_max_right _ _))).ne')

lemma ownIp_sweep (hs : s ≤ C) (hx : ∀ c d, c ≠ d → ∀ n, x c n = 0 ∨ x d n = 0) {M : Matrix (Fin C) (Fin C) ℂ}
    (hM : ∀ c d, c ≠ d → M c d = 0) (w : Fin s → Fin N → ℝ) (hw : P → ∀ k n, 0 < w k n) {eps : ℝ} (he : 0 < eps) (ks : List (Fin s)) :
    ∀ st st', OwnIp P x st.1 ∧ NoBackground st.2 → ipSweep hs x M w eps ks st = .ok st' → OwnIp P x st'.1 ∧ NoBackground st'.2 := by
  induction ks with
  | nil => intro st st' h hr; obtain rfl := Except.ok.inj hr; exact h
  | cons k ks ih =>
    intro st st' h hr
    unfold ipSweep at hr
    obtain ⟨st1, h1, hr⟩ := (bind_ok_iff _ _ _).1 hr
    refine ih st1 st' ?_ hr
    unfold ipSrcUpdate at h1
    obtain ⟨J, hJ, h1⟩ := (bind_ok_iff _ _ _).1 h1
    dsimp only at h1
    obtain ⟨r, hr', h1⟩ := (bind_ok_iff _ _ _).1 h1
    obtain rfl := Except.ok.inj h1
    have hJ0 := ownIp_constraint h.1 hM hJ
    have hrow := ownIp_row (k := k) hs h.1 hJ0 (V := weightedCov x (w k)) (fun a b hab => ?_) he hr'
    · refine ⟨⟨fun l c hc => ?_, fun hP l c hc hxc => ?_⟩, hJ0⟩
      · show st.1.updateRow k r l c = 0
        by_cases hl : l = k
        · subst hl
          rw [Matrix.updateRow_self]
          exact (hrow c).1 hc
        · rw [Matrix.updateRow_ne hl]
          exact h.1.w l c hc
      · show st.1.updateRow k r l c ≠ 0
        by_cases hl : l = k
        · subst hl
          rw [Matrix.updateRow_self]
          refine (hrow c).2 hP hc hxc ?_
          have e : weightedCov x (w l) c c = ((∑ n, w l n * magSq (x c n) : ℝ) : ℂ) := by
            unfold weightedCov
            rw [Matrix.of_apply, Complex.ofReal_sum]
            refine Finset.sum_congr rfl fun n _ => ?_
            rw [Complex.ofReal_mul, magSq_eq, show x c n * (w l n : ℂ) * star (x c n) = (w l n : ℂ) * (x c n * (starRingEnd ℂ) (x c n)) from by
              rw [Complex.star_def]; ring, Complex.mul_conj, Complex.normSq_eq_norm_sq]
          rw [e]
          obtain ⟨n, hn⟩ := Function.ne_iff.1 hxc
          refine Complex.ofReal_ne_zero.2 (Finset.sum_pos' (fun n _ => ?_) ⟨n, Finset.mem_univ _, ?_⟩).ne'
          · rw [magSq_eq]; exact mul_nonneg (hw hP l n).le (sq_nonneg _)
          · rw [magSq_eq]; exact mul_pos (hw hP l n) (pow_pos (norm_pos_iff.2 hn) 2)
        · rw [Matrix.updateRow_ne hl]
          exact h.1.ne hP l c hc hxc
    · unfold weightedCov
      rw [Matrix.of_apply]
      refine Finset.sum_eq_zero fun n _ => ?_
      rcases hx a b hab n with h | h <;> simp [h]

/-- State of `AuxIVA_IP` on channels that do not overlap. -/
def KeptIp {σ : Type} (P : Prop) (X : Sig C F N) (st : IpState σ s C F N) : Prop :=
  st.Y = demix X st.W ∧ ∀ f, OwnIp P (fun c => X c f) (st.W f) ∧ NoBackground (st.J f)

lemma inputCov_apart {X : Sig C F N} (hX : Apart 0 X) (f) (c d : Fin C) (hcd : c ≠ d) : inputCov X f c d = 0 := by
  unfold inputCov
  rw [Matrix.of_apply, Finset.sum_eq_zero fun n _ => ?_, zero_div]
  rcases hX c d hcd f n n (Nat.le_refl _) (Nat.le_refl _) with h | h <;> simp [h]

lemma keptIp_epoch {σ : Type} (hs : s ≤ C) {X : Sig C F N} (hX : Apart 0 X) (model : SourceModel σ F N)
    (hP : P → ∀ ms Y k f n, 0 < (model s ms Y).1 k f n) {eps : ℝ} (he : 0 < eps)
    (st st' : IpState σ s C F N) (h : KeptIp P X st) (hr : ipEpoch hs X model eps st = .ok st') : KeptIp P X st' := by
  unfold ipEpoch at hr
  dsimp only at hr
  obtain ⟨r, hr1, hr⟩ := (bind_ok_iff _ _ _).1 hr
  obtain rfl := Except.ok.inj hr
  refine ⟨rfl, fun f => ?_⟩
  refine ownIp_sweep hs (fun c d hcd n => hX c d hcd f n n (Nat.le_refl _) (Nat.le_refl _)) (inputCov_apart hX f) _
    (fun hp k n => mul_pos (hP hp _ _ _ _ _) (lt_of_lt_of_le he (le_max_right _ _))) he _ _ _
    ⟨⟨fun k c hc => ?_, fun hp k c hc hx => ?_⟩, (h.2 f).2⟩ (seqAll_ok_iff.1 hr1 f)
  · show st.W f k c / _ = 0
    rw [(h.2 f).1.w k c hc, zero_div]
  · show st.W f k c / _ ≠ 0
    exact div_ne_zero ((h.2 f).1.ne hp k c hc hx) (Complex.ofReal_ne_zero.2 (lt_of_lt_of_le he (le_max_right _ _)).ne')

lemma ownIp_projection {W : Matrix (Fin s) (Fin C) ℂ} (h : OwnIp P x W) {J : Option (Matrix (Fin (C - s)) (Fin s) ℂ)} (hJ : NoBackground J)
    {m : ℕ} {a : Fin s → ℂ} (ha : projectionBackDemixing W J m = .ok a) (k : Fin s) :
    (k.1 ≠ m → a k = 0) ∧ (k.1 = m → (∀ c, c.1 = k.1 → W k c ≠ 0) → a k ≠ 0) := by
  unfold projectionBackDemixing at ha
  cases J with
  | none =>
    obtain rfl := hJ.2 rfl
    dsimp only at ha
    split_ifs at ha
    obtain ⟨r, hr, ha⟩ := (bind_ok_iff _ _ _).1 ha
    obtain rfl := Except.ok.inj ha
    refine ⟨fun hk => ?_, fun hk hW => ?_⟩
    · exact solveLoadedGeneral_diag (fun i j hij => h.w j i fun e => hij (Fin.ext e)) (by simp [hk]) hr
    · exact solveLoadedGeneral_diag_ne (by norm_num) (fun i j hij => h.w j i fun e => hij (Fin.ext e)) (hW k rfl) (by simp [hk]) hr
  | some J =>
    obtain rfl := hJ.1 J rfl
    by_cases hs : s ≤ C
    swap
    · simp only [dif_neg hs] at ha
      cases ha
    simp only [dif_pos hs, Matrix.mul_zero, add_zero] at ha
    obtain ⟨e1, he, ha⟩ := (bind_ok_iff _ _ _).1 ha
    obtain ⟨r, hr, ha⟩ := (bind_ok_iff _ _ _).1 ha
    obtain rfl := Except.ok.inj ha
    refine ⟨fun hk => ?_, fun hk hW => ?_⟩
    · refine solveLoadedGeneral_diag (fun i j hij => h.w j _ fun e => hij (Fin.ext e)) ?_ hr
      split_ifs at he with h1 h2
      · obtain rfl := Except.ok.inj he
        simp [hk]
      · obtain rfl := Except.ok.inj he
        simp
    · refine solveLoadedGeneral_diag_ne (by norm_num) (fun i j hij => h.w j _ fun e => hij (Fin.ext e)) (hW _ rfl) ?_ hr
      rw [if_pos (hk ▸ k.2)] at he
      obtain rfl := Except.ok.inj he
      simp [hk]

lemma demix_single (hs : s ≤ C) {X : Sig C F N} {W : Fin F → Matrix (Fin s) (Fin C) ℂ} (h : ∀ f, OwnIp P (fun c => X c f) (W f)) (k f n) :
    demix X W k f n = W f k (Fin.castLE hs k) * X (Fin.castLE hs k) f n := by
  unfold demix
  exact Finset.sum_eq_single (Fin.castLE hs k) (fun c _ hc => by rw [(h f).w k c (fun e => hc (Fin.ext e)), zero_mul]) (by simp)

lemma auxiva_own {σ : Type} (p : IpParams) (he : 0 < p.eps) (nSrc : Option ℕ) (X : Sig C F N) (model : SourceModel σ F N)
    (hP : P → ∀ s ms Y k f n, 0 < (model s ms Y).1 k f n) (reset : σ → σ) (ms : σ)
    (hX : Apart 0 X) (r : Σ s : ℕ, IpOut σ s F N) (h : auxivaForward p nSrc X model reset ms = .ok r) :
    ∃ (_ : r.1 ≤ C) (W : Fin F → Matrix (Fin r.1) (Fin C) ℂ) (g : Fin r.1 → Fin F → ℂ), (∀ f, OwnIp P (fun c => X c f) (W f)) ∧
      (∀ m, p.projBackMic = some m → ∀ k : Fin r.1, k.1 ≠ m → ∀ f, g k f = 0) ∧
      (∀ k : Fin r.1, (∀ m, p.projBackMic = some m → k.1 = m) → ∀ f, (∀ c, c.1 = k.1 → W f k c ≠ 0) → g k f ≠ 0) ∧
      ∀ k f n, r.2.Y k f n = demix X W k f n * g k f := by
  unfold auxivaForward at h
  cases nSrc with
  | none => cases h
  | some s =>
    dsimp only at h
    by_cases hs : s ≤ C
    swap
    · rw [dif_neg hs] at h
      cases h
    rw [dif_pos hs] at h
    obtain ⟨J0, hJ0, h⟩ := (bind_ok_iff _ _ _).1 h
    obtain ⟨st, hst, h⟩ := (bind_ok_iff _ _ _).1 h
    have hO : ∀ f, OwnIp P (fun c => X c f) (Matrix.of fun (k : Fin s) (c : Fin C) => if k.1 = c.1 then (1 : ℂ) else 0) :=
      fun f => ⟨fun k c hc => if_neg (Ne.symm hc), fun _ k c hc _ => by rw [Matrix.of_apply, if_pos hc.symm]; exact one_ne_zero⟩
    have h0 : KeptIp P X (⟨fun k => X (Fin.castLE hs k), fun _ => Matrix.of fun (k : Fin s) (c : Fin C) => if k.1 = c.1 then (1 : ℂ) else 0,
        J0, reset ms⟩ : IpState σ s C F N) := by
      refine ⟨?_, fun f => ⟨hO f, ownIp_constraint (hO f) (inputCov_apart hX f) (seqAll_ok_iff.1 hJ0 f)⟩⟩
      funext k f n
      rw [demix_single hs hO]
      simp
    have hk := iterM_inv (KeptIp P X) _ (fun a a' ha h => keptIp_epoch hs hX model (fun hp => hP hp s) he a a' ha h) p.nIter _ st h0 hst
    cases hp : p.projBackMic with
    | none =>
      rw [hp] at h
      obtain rfl := Except.ok.inj h
      exact ⟨hs, st.W, fun _ _ => 1, fun f => (hk.2 f).1, fun m hm => (by cases hm), fun _ _ _ _ => one_ne_zero,
        fun k f n => by rw [mul_one, ← hk.1]⟩
    | some m =>
      rw [hp] at h
      obtain ⟨a, ha, h⟩ := (bind_ok_iff _ _ _).1 h
      obtain rfl := Except.ok.inj h
      refine ⟨hs, st.W, fun k f => a f k, fun f => (hk.2 f).1, fun m' hm k hk' f => ?_, fun k hm f hW => ?_, fun k f n => by rw [← hk.1]⟩
      · obtain rfl := Option.some.inj hm
        exact (ownIp_projection (hk.2 f).1 (hk.2 f).2 (seqAll_ok_iff.1 ha f) k).1 hk'
      · exact (ownIp_projection (hk.2 f).1 (hk.2 f).2 (seqAll_ok_iff.1 ha f) k).2 (hm m rfl) hW

end ip

end Torchiva
