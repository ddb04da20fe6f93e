import Verif.Model.TIss
import Verif.Proofs.Ridge
import Mathlib.Algebra.BigOperators.Field

/-! # Helper lemmas for T-ISS -/

namespace Torchiva

open Matrix

lemma seqAll_ok_iff {φ α : Type} {g : φ → Except Err α} {x : φ → α} :
    seqAll g = .ok x ↔ ∀ f, g f = .ok (x f) := by
  unfold seqAll
  constructor
  · intro h f
    split_ifs at h with hh
    simp only [Except.ok.injEq] at h
    subst h
    exact (hh f).choose_spec
  · intro h
    have hh : ∀ f, ∃ y, g f = .ok y := fun f => ⟨x f, h f⟩
    rw [dif_pos hh]
    congr 1
    funext f
    have h1 := (hh f).choose_spec
    exact Except.ok.inj (h1.symm.trans (h f))

lemma seqAll_total {φ α : Type} {g : φ → Except Err α} (h : ∀ f, ∃ x, g f = .ok x) :
    ∃ x, seqAll g = .ok x := by
  choose x hx using h
  exact ⟨x, seqAll_ok_iff.2 hx⟩

/-- If every frequency raises `e`, so does the whole. -/
lemma seqAll_error {φ α : Type} [Nonempty φ] {g : φ → Except Err α} {e : Err} (h : ∀ f, g f = .error e) :
    seqAll g = .error e := by
  unfold seqAll
  rw [dif_neg]
  · simp only [h]
  · intro hh
    obtain ⟨x, hx⟩ := hh (Classical.arbitrary φ)
    rw [h] at hx
    cases hx

lemma iterM_snoc {α : Type} (f : α → Except Err α) (n : ℕ) (x : α) :
    iterM f (n + 1) x = iterM f n x >>= f := by
  induction n generalizing x with
  | zero => simp [iterM, bind, Except.bind]; cases f x <;> rfl
  | succ n ih =>
    rw [iterM]
    cases h : f x with
    | error e => simp [iterM, h, bind, Except.bind]
    | ok y =>
      have := ih y
      simp only [iterM, h, bind, Except.bind] at this ⊢
      exact this

lemma foldl_inv {α β : Type} (P : α → Prop) (f : α → β → α) (hf : ∀ a b, P a → P (f a b))
    (l : List β) (a : α) (ha : P a) : P (l.foldl f a) := by
  induction l generalizing a with
  | nil => exact ha
  | cons b l ih => exact ih _ (hf a b ha)

lemma iterM_inv {α : Type} (P : α → Prop) (f : α → Except Err α)
    (hf : ∀ a a', P a → f a = .ok a' → P a') (n : ℕ) (a a' : α) (ha : P a)
    (h : iterM f n a = .ok a') : P a' := by
  induction n generalizing a with
  | zero => simp only [iterM, Except.ok.injEq] at h; exact h ▸ ha
  | succ n ih =>
    simp only [iterM] at h
    cases hfa : f a with
    | error e => rw [hfa] at h; cases h
    | ok b => rw [hfa] at h; exact ih b (hf a b ha hfa) h

lemma iterM_total {α : Type} (P : α → Prop) (f : α → Except Err α)
    (hf : ∀ a, P a → ∃ a', f a = .ok a' ∧ P a') (n : ℕ) (a : α) (ha : P a) :
    ∃ a', iterM f n a = .ok a' ∧ P a' := by
  induction n generalizing a with
  | zero => exact ⟨a, rfl, ha⟩
  | succ n ih =>
    obtain ⟨b, hb, hPb⟩ := hf a ha
    obtain ⟨a', h, hP⟩ := ih b hPb
    exact ⟨a', by simp only [iterM, hb]; exact h, hP⟩

section dims
variable {s C F N T : ℕ}

/-- Splitting a sum over channels at `n_src`. -/
lemma sum_split (hs : s ≤ C) (g : Fin C → ℂ) :
    ∑ d, g d = (∑ k : Fin s, g (Fin.castLE hs k)) + ∑ k : Fin (C - s), g ⟨s + k, by omega⟩ := by
  obtain ⟨b, rfl⟩ := Nat.exists_eq_add_of_le hs
  rw [Fin.sum_univ_add]
  congr 1
  have hb : s + b - s = b := by omega
  let e : Fin b ≃ Fin (s + b - s) := finCongr hb.symm
  rw [← e.sum_comp]
  exact Finset.sum_congr rfl fun i _ => by congr 1

lemma sum_dite_lt (hs : s ≤ C) (g : Fin s → ℂ) (x : Fin C → ℂ) :
    ∑ d : Fin C, (if h : d.1 < s then g ⟨d, h⟩ else 0) * x d
      = ∑ k : Fin s, g k * x (Fin.castLE hs k) := by
  rw [sum_split hs]
  have h2 : ∑ k : Fin (C - s), (if h : s + k.1 < s then g ⟨s + k, h⟩ else 0) * x ⟨s + k, by omega⟩ = 0 :=
    Finset.sum_eq_zero fun k _ => by rw [dif_neg (by omega)]; ring
  rw [h2, add_zero]
  refine Finset.sum_congr rfl fun k _ => ?_
  rw [dif_pos (show (Fin.castLE hs k).1 < s from k.2)]
  rfl

/-- The carried signals are the demixing filters applied to the input. -/
def Inv (X : Sig C F N) (Xbar : Taps C F T N) (Y : Sig s F N) (W : DemixW s F C)
    (H : DemixH s F C T) : Prop := Y = demixDerev X Xbar W H

lemma inv_srcStep {X : Sig C F N} {Xbar : Taps C F T N} (w : Weights s F N) (eps : ℝ)
    (st : IssState s C F N T) (src : Fin s) (h : Inv X Xbar st.Y st.W st.H) :
    Inv X Xbar (issSrcStep w eps st src).Y (issSrcStep w eps st src).W (issSrcStep w eps st src).H := by
  unfold Inv at *
  funext c f n
  simp only [issSrcStep]
  set v := issType1 src st.Y w eps
  rw [h]
  simp only [demixDerev]
  simp only [sub_mul, Finset.sum_sub_distrib, mul_assoc, ← Finset.mul_sum]
  ring

lemma inv_bakStep (hs : s ≤ C) {X : Sig C F N} {Xbar : Taps C F T N} (w : Weights s F N) (eps : ℝ)
    (J : BackJ (C - s) F s) (st : IssState s C F N T) (bak : Fin (C - s))
    (h : Inv X Xbar st.Y st.W st.H) :
    Inv X Xbar (issBakStep w eps (demixBackground hs X J) J st bak).Y
      (issBakStep w eps (demixBackground hs X J) J st bak).W
      (issBakStep w eps (demixBackground hs X J) J st bak).H := by
  unfold Inv at *
  funext c f n
  simp only [issBakStep]
  set v := issType2 st.Y (demixBackground hs X J bak) w eps
  rw [h]
  simp only [demixDerev, demixBackground]
  have e : ∀ d : Fin C, (if d.1 = s + bak then
        (if h : d.1 < s then st.W c f d - v c f * J bak f ⟨d, h⟩ else st.W c f d) + v c f
      else (if h : d.1 < s then st.W c f d - v c f * J bak f ⟨d, h⟩ else st.W c f d)) * X d f n
      = st.W c f d * X d f n
        - v c f * ((if h : d.1 < s then J bak f ⟨d, h⟩ else 0) * X d f n)
        + v c f * (if d = (⟨s + bak, by omega⟩ : Fin C) then X d f n else 0) := by
    intro d
    have hd : (d = (⟨s + bak, by omega⟩ : Fin C)) ↔ d.1 = s + bak := by
      rw [Fin.ext_iff]
    simp only [hd]
    split_ifs <;> ring
  simp only [e, Finset.sum_add_distrib, Finset.sum_sub_distrib, ← Finset.mul_sum,
    Finset.sum_ite_eq', Finset.mem_univ, if_true]
  rw [sum_dite_lt hs (fun d => J bak f d) (fun d => X d f n)]
  ring

lemma inv_tapStep {X : Sig C F N} {Xbar : Taps C F T N} (w : Weights s F N) (eps : ℝ)
    (st : IssState s C F N T) (src : Fin C) (tap : Fin T) (h : Inv X Xbar st.Y st.W st.H) :
    Inv X Xbar (issTapStep w eps Xbar st src tap).Y (issTapStep w eps Xbar st src tap).W
      (issTapStep w eps Xbar st src tap).H := by
  unfold Inv at *
  funext c f n
  simp only [issTapStep]
  set v := issType3 src tap st.Y Xbar w eps
  rw [h]
  simp only [demixDerev]
  have e : ∀ d t, (if d = src ∧ t = tap then st.H c f d t + v c f else st.H c f d t) * Xbar d f t n
      = st.H c f d t * Xbar d f t n
        + (if d = src then (if t = tap then v c f * Xbar d f t n else 0) else 0) := by
    intro d t
    by_cases h1 : d = src <;> by_cases h2 : t = tap <;> simp [h1, h2] <;> ring
  simp only [e, Finset.sum_add_distrib]
  have e2 : ∑ d, ∑ t, (if d = src then (if t = tap then v c f * Xbar d f t n else 0) else 0)
      = v c f * Xbar src f tap n := by
    rw [Finset.sum_eq_single src]
    · simp
    · intro d _ hd; simp [hd]
    · simp
  rw [e2]
  ring

lemma inv_issUpdates (hs : s ≤ C) {X : Sig C F N} {Xbar : Taps C F T N} (w : Weights s F N) (eps : ℝ)
    (oJ : Option (BackJ (C - s) F s)) (st : IssState s C F N T) (h : Inv X Xbar st.Y st.W st.H) :
    Inv X Xbar (issUpdates Xbar w eps (oJ.map fun J => (demixBackground hs X J, J)) st).Y
      (issUpdates Xbar w eps (oJ.map fun J => (demixBackground hs X J, J)) st).W
      (issUpdates Xbar w eps (oJ.map fun J => (demixBackground hs X J, J)) st).H := by
  unfold issUpdates
  simp only
  refine foldl_inv (fun st : IssState s C F N T => Inv X Xbar st.Y st.W st.H) _ (fun a b ha => ?_) _ _ ?_
  · exact foldl_inv (fun st : IssState s C F N T => Inv X Xbar st.Y st.W st.H) _
      (fun a' b' h' => inv_tapStep w eps a' b b' h') _ _ ha
  · have h1 := foldl_inv (fun st : IssState s C F N T => Inv X Xbar st.Y st.W st.H) _
      (fun a b ha => inv_srcStep w eps a b ha) (List.finRange s) st h
    cases oJ with
    | none => exact h1
    | some J =>
      exact foldl_inv (fun st : IssState s C F N T => Inv X Xbar st.Y st.W st.H) _
        (fun a b ha => inv_bakStep hs w eps J a b ha) _ _ h1

lemma inv_scale {X : Sig C F N} {Xbar : Taps C F T N} {Y : Sig s F N} {W : DemixW s F C}
    {H : DemixH s F C T} (g : Fin s → ℝ) (eps : ℝ) (h : Inv X Xbar Y W H) :
    Inv X Xbar (fun k f n => divide (Y k f n) (g k) eps) (fun k f c => divide (W k f c) (g k) eps)
      (fun k f c t => divide (H k f c t) (g k) eps) := by
  unfold Inv at *
  subst h
  funext k f n
  simp only [demixDerev, divide, sub_div, Finset.sum_div, div_mul_eq_mul_div]

lemma inv_oneIter {σ : Type} (hs : s ≤ C) (X : Sig C F N) (Xbar : Taps C F T N) (cXX cXbarX)
    (model : SourceModel σ F N) (eps : ℝ) (st st' : TissState σ s C F N T)
    (h : Inv X Xbar st.Y st.W st.H)
    (hr : tissOneIter hs X Xbar cXX cXbarX model eps st = .ok st') :
    Inv X Xbar st'.Y st'.W st'.H := by
  unfold tissOneIter at hr
  simp only at hr
  have h1 := inv_scale (fun k => √(sourceGain st.Y eps k)) eps h
  cases hJ : st.J with
  | none =>
    rw [hJ] at hr
    simp only [pure, Except.pure, Except.ok.injEq] at hr
    subst hr
    exact inv_issUpdates hs _ eps none ⟨_, _, _⟩ h1
  | some J0 =>
    rw [hJ] at hr
    simp only at hr
    cases hb : backgroundUpdate hs (fun k f c => divide (st.W k f c) (√(sourceGain st.Y eps k)) eps)
        (fun k f c t => divide (st.H k f c t) (√(sourceGain st.Y eps k)) eps) cXX cXbarX 1e-3 with
    | error e => rw [hb] at hr; cases hr
    | ok J =>
      rw [hb] at hr
      simp only [bind, Except.bind, pure, Except.pure, Except.ok.injEq] at hr
      subst hr
      exact inv_issUpdates hs _ eps (some J) ⟨_, _, _⟩ h1

lemma tissInit_ok {σ : Type} (hs : s ≤ C) (X : Sig C F N) (D : ℕ) (eps : ℝ) (ms : σ)
    (st : TissState σ s C F N T) (h : tissInit hs X T D eps ms = .ok st) :
    st.W = (fun k _ c => if k.1 = c.1 then 1 else 0) ∧ st.H = (fun _ _ _ _ => 0) ∧
    st.Y = demixDerev X (delayedTaps X T D) st.W st.H ∧ (st.J.isSome ↔ s < C) ∧ st.ms = ms := by
  unfold tissInit at h
  simp only at h
  split_ifs at h with hc
  · cases hb : backgroundUpdate hs (fun (k : Fin s) (_ : Fin F) (c : Fin C) => if k.1 = c.1 then (1 : ℂ) else 0)
        (fun _ _ _ _ => 0) (covXX X) (covXbarX X (delayedTaps X T D)) eps with
    | error e => rw [hb] at h; cases h
    | ok J =>
      rw [hb] at h
      simp only [bind, Except.bind, pure, Except.pure, Except.ok.injEq] at h
      subst h
      exact ⟨rfl, rfl, rfl, by simp [hc], rfl⟩
  · simp only [pure, Except.pure, Except.ok.injEq] at h
    subst h
    exact ⟨rfl, rfl, rfl, by simp [hc], rfl⟩

lemma backgroundUpdate_total (hs : s ≤ C) (W : DemixW s F C) (H : DemixH s F C T) (cXX cXbarX)
    {eps : ℝ} (he : 0 < eps) : ∃ J, backgroundUpdate hs W H cXX cXbarX eps = .ok J := by
  unfold backgroundUpdate
  obtain ⟨x, hx⟩ := seqAll_total (g := fun f =>
    solveLoadedGeneral
      (Matrix.of fun (k : Fin s) (d : Fin s) => bgA W H cXX cXbarX f k (Fin.castLE hs d))
      (Matrix.of fun (k : Fin s) (d : Fin (C - s)) => bgA W H cXX cXbarX f k ⟨s + d, by omega⟩)
      eps eps)
    (fun f => (solveLoadedGeneral_normal _ _ eps he).imp fun _ h => h.1)
  exact ⟨_, by simp only [hx]; rfl⟩

lemma tissOneIter_total {σ : Type} (hs : s ≤ C) (X : Sig C F N) (Xbar : Taps C F T N) (cXX cXbarX)
    (model : SourceModel σ F N) (eps : ℝ) (st : TissState σ s C F N T) :
    ∃ st', tissOneIter hs X Xbar cXX cXbarX model eps st = .ok st' ∧
      (st'.J.isSome ↔ st.J.isSome) := by
  unfold tissOneIter
  simp only
  cases hJ : st.J with
  | none => exact ⟨_, rfl, by simp⟩
  | some J0 =>
    obtain ⟨J, hb⟩ := backgroundUpdate_total hs
      (fun k f c => divide (st.W k f c) (√(sourceGain st.Y eps k)) eps)
      (fun k f c t => divide (st.H k f c t) (√(sourceGain st.Y eps k)) eps) cXX cXbarX
      (show (0 : ℝ) < 1e-3 by norm_num)
    simp only [hb]
    exact ⟨_, rfl, by simp⟩

lemma tissInit_total {σ : Type} (hs : s ≤ C) (X : Sig C F N) (D : ℕ) {eps : ℝ} (he : 0 < eps)
    (ms : σ) : ∃ st, tissInit hs X T D eps ms = .ok st := by
  unfold tissInit
  simp only
  split_ifs with hc
  · obtain ⟨J, hb⟩ := backgroundUpdate_total (T := T) hs
      (fun (k : Fin s) (_ : Fin F) (c : Fin C) => if k.1 = c.1 then (1 : ℂ) else 0)
      (fun _ _ _ _ => 0) (covXX X) (covXbarX X (delayedTaps X T D)) he
    simp only [hb]
    exact ⟨_, rfl⟩
  · exact ⟨_, rfl⟩

/-- The DMC iteration is the plain iteration with the new signals dropped. -/
lemma tissOneIterDmc_eq {σ : Type} (hs : s ≤ C) (X : Sig C F N) (Xbar : Taps C F T N) (cXX cXbarX)
    (model : SourceModel σ F N) (eps : ℝ) (st st' : TissState σ s C F N T)
    (h : Inv X Xbar st.Y st.W st.H) (hW : st'.W = st.W) (hH : st'.H = st.H) (hJ : st'.J = st.J)
    (hms : st'.ms = st.ms) :
    tissOneIterDmc hs X Xbar cXX cXbarX model eps st'
      = (tissOneIter hs X Xbar cXX cXbarX model eps st).map
          fun r => ⟨st'.Y, r.W, r.H, r.J, r.ms⟩ := by
  unfold tissOneIterDmc
  simp only [hW, hH, hJ, hms]
  unfold Inv at h
  rw [← h]
  cases tissOneIter hs X Xbar cXX cXbarX model eps st <;> rfl

lemma iter_dmc {σ : Type} (hs : s ≤ C) (X : Sig C F N) (Xbar : Taps C F T N) (cXX cXbarX)
    (model : SourceModel σ F N) (eps : ℝ) (n : ℕ) (st st' : TissState σ s C F N T)
    (h : Inv X Xbar st.Y st.W st.H) (hW : st'.W = st.W) (hH : st'.H = st.H) (hJ : st'.J = st.J)
    (hms : st'.ms = st.ms) :
    iterM (tissOneIterDmc hs X Xbar cXX cXbarX model eps) n st'
      = (iterM (tissOneIter hs X Xbar cXX cXbarX model eps) n st).map
          fun r => ⟨st'.Y, r.W, r.H, r.J, r.ms⟩ := by
  induction n generalizing st st' with
  | zero =>
    cases st; cases st'
    simp only at hW hH hJ hms
    subst hW hH hJ hms
    rfl
  | succ n ih =>
    simp only [iterM]
    rw [tissOneIterDmc_eq hs X Xbar cXX cXbarX model eps st st' h hW hH hJ hms]
    cases hr : tissOneIter hs X Xbar cXX cXbarX model eps st with
    | error e => rfl
    | ok r =>
      exact ih r ⟨st'.Y, r.W, r.H, r.J, r.ms⟩ (inv_oneIter hs X Xbar cXX cXbarX model eps st r h hr)
        rfl rfl rfl rfl

lemma tissLoop_inv {σ : Type} (hs : s ≤ C) (X : Sig C F N) (D : ℕ) (model : SourceModel σ F N)
    (eps : ℝ) (n : ℕ) (st st' : TissState σ s C F N T)
    (h : Inv X (delayedTaps X T D) st.Y st.W st.H)
    (hr : tissLoop hs X T D model eps false n st = .ok st') :
    Inv X (delayedTaps X T D) st'.Y st'.W st'.H :=
  iterM_inv (fun st => Inv X (delayedTaps X T D) st.Y st.W st.H) _
    (fun a a' ha h' => inv_oneIter hs X _ _ _ model eps a a' ha h') n st st' h hr

lemma tissLoop_dmc {σ : Type} (hs : s ≤ C) (X : Sig C F N) (D : ℕ) (model : SourceModel σ F N)
    (eps : ℝ) (n : ℕ) (st : TissState σ s C F N T)
    (h : Inv X (delayedTaps X T D) st.Y st.W st.H) :
    tissLoop hs X T D model eps true n st
      = (tissLoop hs X T D model eps false n st).map fun r => ⟨st.Y, r.W, r.H, r.J, r.ms⟩ :=
  iter_dmc hs X _ _ _ model eps n st st h rfl rfl rfl rfl

end dims

end Torchiva
