import Verif.Spec.Reorder
import Verif.Proofs.TIss
import Verif.Proofs.Eig2
import Verif.Proofs.Ridge
import Verif.Props.Hankel
import Verif.Model.Models
import Verif.Model.AuxIva
import Verif.Model.Wpe

/-!
# Lemmas: the algorithms follow a change of convention
-/

namespace Torchiva

open Matrix Spec

variable {s C F N T : ℕ} (r : Reorder F N) (v : Fin F → Fin T → ℂ)

lemma reorder_mul_star (f : Fin F) (n : Fin N) : r.u f n * star (r.u f n) = 1 := by
  rw [Complex.star_def, Complex.mul_conj', r.unit]; simp

lemma reorder_magSq (f : Fin F) (n : Fin N) (z : ℂ) : magSq (r.u f n * z) = magSq z := by
  rw [magSq_eq, magSq_eq, norm_mul, r.unit, one_mul]

/-- Weighted correlations do not change. -/
lemma reorder_corr (f : Fin F) (w : Fin F → Fin N → ℂ) (x z : Fin F → Fin N → ℂ) :
    ∑ n, w (r.freq f) (r.frame n) * (r.u f n * x (r.freq f) (r.frame n)) * star (r.u f n * z (r.freq f) (r.frame n))
      = ∑ n, w (r.freq f) n * x (r.freq f) n * star (z (r.freq f) n) := by
  rw [← Equiv.sum_comp r.frame fun n => w (r.freq f) n * x (r.freq f) n * star (z (r.freq f) n)]
  refine Finset.sum_congr rfl fun n _ => ?_
  rw [star_mul']
  have := reorder_mul_star r f n
  linear_combination (w (r.freq f) (r.frame n) * x (r.freq f) (r.frame n) * star (z (r.freq f) (r.frame n))) * this

lemma reorder_corr' (f : Fin F) (x z : Fin F → Fin N → ℂ) :
    ∑ n, (r.u f n * x (r.freq f) (r.frame n)) * star (r.u f n * z (r.freq f) (r.frame n))
      = ∑ n, x (r.freq f) n * star (z (r.freq f) n) := by
  have := reorder_corr r f (fun _ _ => 1) x z
  simpa only [one_mul] using this

lemma reorder_pow (f : Fin F) (w : Fin F → Fin N → ℝ) (z : Fin F → Fin N → ℂ) :
    ∑ n, w (r.freq f) (r.frame n) * magSq (r.u f n * z (r.freq f) (r.frame n))
      = ∑ n, w (r.freq f) n * magSq (z (r.freq f) n) := by
  rw [← Equiv.sum_comp r.frame fun n => w (r.freq f) n * magSq (z (r.freq f) n)]
  exact Finset.sum_congr rfl fun n _ => by rw [reorder_magSq]

lemma reorder_total (z : Fin F → Fin N → ℂ) :
    ∑ f, ∑ n, magSq (r.u f n * z (r.freq f) (r.frame n)) = ∑ f, ∑ n, magSq (z f n) := by
  rw [← Equiv.sum_comp r.freq fun f => ∑ n, magSq (z f n)]
  refine Finset.sum_congr rfl fun f _ => ?_
  have := reorder_pow r f (fun _ _ => 1) z
  simpa only [one_mul] using this

lemma unit_mul_star {z : ℂ} (h : ‖z‖ = 1) : z * star z = 1 := by
  rw [Complex.star_def, Complex.mul_conj', h]; simp

lemma seqAll_reorder {α : Type} {g g' : Fin F → Except Err α} {x : Fin F → α} (hg : ∀ f, g' f = g (r.freq f))
    (h : seqAll g = .ok x) : seqAll g' = .ok fun f => x (r.freq f) :=
  seqAll_ok_iff.2 fun f => by rw [hg, seqAll_ok_iff.1 h]

/-! ## T-ISS -/

/-- The delayed taps seen through the change of convention: each tap gets a factor of its own. -/
def rTaps (Xbar : Taps C F T N) : Taps C F T N := fun c f t n => v f t * (r.u f n * Xbar c (r.freq f) t (r.frame n))

/-- The dereverberation filters seen through the change of convention. -/
def rH (H : DemixH s F C T) : DemixH s F C T := fun k f c t => star (v f t) * H k (r.freq f) c t

/-- The demixing quantities are reindexed by frequency. -/
def rIss (st : IssState s C F N T) : IssState s C F N T :=
  ⟨r.sig st.Y, fun k f => st.W k (r.freq f), rH r v st.H⟩

lemma issType1_reorder (src : Fin s) (X : Sig s F N) (w : Weights s F N) (eps : ℝ) (c : Fin s) (f : Fin F) :
    issType1 src (r.sig X) (r.weights w) eps c f = issType1 src X w eps c (r.freq f) := by
  have h1 : ∀ c, ∑ n, (r.weights w c f n : ℂ) * r.sig X c f n * star (r.sig X src f n)
      = ∑ n, (w c (r.freq f) n : ℂ) * X c (r.freq f) n * star (X src (r.freq f) n) := fun c =>
    reorder_corr r f (fun f n => (w c f n : ℂ)) (X c) (X src)
  have h2 : ∀ c, ∑ n, r.weights w c f n * magSq (r.sig X src f n)
      = ∑ n, w c (r.freq f) n * magSq (X src (r.freq f) n) := fun c => reorder_pow r f (w c) (X src)
  unfold issType1
  simp only [h1, h2]

lemma issType2_reorder (X : Sig s F N) (Zs : Fin F → Fin N → ℂ) (w : Weights s F N) (eps : ℝ) (c : Fin s) (f : Fin F) :
    issType2 (r.sig X) (fun f n => r.u f n * Zs (r.freq f) (r.frame n)) (r.weights w) eps c f
      = issType2 X Zs w eps c (r.freq f) := by
  have h1 : ∑ n, (r.weights w c f n : ℂ) * r.sig X c f n * star (r.u f n * Zs (r.freq f) (r.frame n))
      = ∑ n, (w c (r.freq f) n : ℂ) * X c (r.freq f) n * star (Zs (r.freq f) n) :=
    reorder_corr r f (fun f n => (w c f n : ℂ)) (X c) Zs
  have h2 : ∑ n, r.weights w c f n * magSq (r.u f n * Zs (r.freq f) (r.frame n))
      = ∑ n, w c (r.freq f) n * magSq (Zs (r.freq f) n) := reorder_pow r f (w c) Zs
  unfold issType2
  simp only [h1, h2]

lemma issSrcStep_reorder (w : Weights s F N) (eps : ℝ) (st : IssState s C F N T) (src : Fin s) :
    issSrcStep (r.weights w) eps (rIss r v st) src = rIss r v (issSrcStep w eps st src) := by
  unfold issSrcStep rIss
  simp only [issType1_reorder, IssState.mk.injEq, true_and]
  constructor
  · funext c f n
    simp only [Reorder.sig]
    ring
  · funext c f d t
    simp only [rH]
    ring

lemma issBakStep_reorder (w : Weights s F N) (eps : ℝ) (Z : Sig (C - s) F N) (J : BackJ (C - s) F s)
    (st : IssState s C F N T) (bak : Fin (C - s)) :
    issBakStep (r.weights w) eps (r.sig Z) (fun c f => J c (r.freq f)) (rIss r v st) bak
      = rIss r v (issBakStep w eps Z J st bak) := by
  have h : ∀ c f, issType2 (r.sig st.Y) (r.sig Z bak) (r.weights w) eps c f = issType2 st.Y (Z bak) w eps c (r.freq f) :=
    fun c f => issType2_reorder r st.Y (Z bak) w eps c f
  unfold issBakStep rIss
  simp only [h, IssState.mk.injEq, and_true]
  funext c f n
  simp only [Reorder.sig]
  ring

variable (hv : ∀ f t, ‖v f t‖ = 1)
include hv

lemma issType3_reorder (w : Weights s F N) (eps : ℝ) (Xbar : Taps C F T N) (Y : Sig s F N) (src : Fin C) (tap : Fin T)
    (c : Fin s) (f : Fin F) :
    issType3 src tap (r.sig Y) (rTaps r v Xbar) (r.weights w) eps c f
      = star (v f tap) * issType3 src tap Y Xbar w eps c (r.freq f) := by
  have h1 : ∑ n, (r.weights w c f n : ℂ) * r.sig Y c f n * star (rTaps r v Xbar src f tap n)
      = star (v f tap) * ∑ n, (w c (r.freq f) n : ℂ) * Y c (r.freq f) n * star (Xbar src (r.freq f) tap n) := by
    rw [← reorder_corr r f (fun f n => (w c f n : ℂ)) (Y c) (fun f n => Xbar src f tap n), Finset.mul_sum]
    refine Finset.sum_congr rfl fun n _ => ?_
    simp only [Reorder.weights, Reorder.sig, rTaps, star_mul']
    ring
  have h2 : ∑ n, r.weights w c f n * magSq (rTaps r v Xbar src f tap n)
      = ∑ n, w c (r.freq f) n * magSq (Xbar src (r.freq f) tap n) := by
    rw [← reorder_pow r f (w c) (fun f n => Xbar src f tap n)]
    refine Finset.sum_congr rfl fun n _ => ?_
    simp only [Reorder.weights, rTaps, magSq_eq]
    rw [norm_mul (v f tap), hv, one_mul]
  unfold issType3
  simp only [h1, h2, divide, mul_div_assoc]

lemma issTapStep_reorder (w : Weights s F N) (eps : ℝ) (Xbar : Taps C F T N)
    (st : IssState s C F N T) (src : Fin C) (tap : Fin T) :
    issTapStep (r.weights w) eps (rTaps r v Xbar) (rIss r v st) src tap = rIss r v (issTapStep w eps Xbar st src tap) := by
  unfold issTapStep rIss
  simp only [issType3_reorder r v hv, IssState.mk.injEq, true_and]
  constructor
  · funext c f n
    simp only [Reorder.sig, rTaps]
    linear_combination (-issType3 src tap st.Y Xbar w eps c (r.freq f) * r.u f n * Xbar src (r.freq f) tap (r.frame n))
      * unit_mul_star (hv f tap)
  · funext c f d t
    simp only [rH]
    split_ifs with h
    · rw [h.2]; ring
    · rfl

omit hv in
private lemma foldl_comm {α β : Type} (g g' : β → α → β) (t : β → β) (h : ∀ b a, g' (t b) a = t (g b a)) (l : List α) (b : β) :
    l.foldl g' (t b) = t (l.foldl g b) := by
  induction l generalizing b with
  | nil => rfl
  | cons a l ih => rw [List.foldl_cons, List.foldl_cons, h, ih]

/-- The background signals and filters are transformed together. -/
def rZJ (ZJ : Option (Sig (C - s) F N × BackJ (C - s) F s)) : Option (Sig (C - s) F N × BackJ (C - s) F s) :=
  ZJ.map fun p => (r.sig p.1, fun c f => p.2 c (r.freq f))

lemma issUpdates_reorder (Xbar : Taps C F T N) (w : Weights s F N) (eps : ℝ)
    (ZJ : Option (Sig (C - s) F N × BackJ (C - s) F s)) (st : IssState s C F N T) :
    issUpdates (rTaps r v Xbar) (r.weights w) eps (rZJ r ZJ) (rIss r v st) = rIss r v (issUpdates Xbar w eps ZJ st) := by
  unfold issUpdates
  rw [foldl_comm _ _ (rIss r v) (issSrcStep_reorder r v w eps)]
  have h3 : ∀ st : IssState s C F N T, (List.finRange C).foldl (fun st src => (List.finRange T).foldl
      (fun st tap => issTapStep (r.weights w) eps (rTaps r v Xbar) st src tap) st) (rIss r v st)
      = rIss r v ((List.finRange C).foldl (fun st src => (List.finRange T).foldl
      (fun st tap => issTapStep w eps Xbar st src tap) st) st) := fun st =>
    foldl_comm _ _ (rIss r v) (fun st src => foldl_comm _ _ (rIss r v)
      (fun st tap => issTapStep_reorder r v hv w eps Xbar st src tap) _ st) _ st
  match ZJ with
  | none => exact h3 _
  | some (Z, J) =>
    show (List.finRange C).foldl _ ((List.finRange (C - s)).foldl _ _) = _
    rw [foldl_comm _ _ (rIss r v) (issBakStep_reorder r v w eps Z J)]
    exact h3 _

omit hv in
lemma covXX_reorder (X : Sig C F N) (c : Fin C) (f : Fin F) (d : Fin C) :
    covXX (r.sig X) c f d = covXX X c (r.freq f) d := by
  unfold covXX
  rw [← reorder_corr' r f (X c) (X d)]
  rfl

omit hv in
lemma covXbarX_reorder (X : Sig C F N) (Xbar : Taps C F T N) (c : Fin C) (t : Fin T) (f : Fin F) (d : Fin C) :
    covXbarX (r.sig X) (rTaps r v Xbar) c t f d = v f t * covXbarX X Xbar c t (r.freq f) d := by
  unfold covXbarX
  rw [← reorder_corr' r f (fun f n => Xbar c f t n) (X d), ← mul_div_assoc, Finset.mul_sum]
  congr 1
  exact Finset.sum_congr rfl fun n _ => by simp only [rTaps, Reorder.sig]; ring

lemma demixDerev_reorder (X : Sig C F N) (Xbar : Taps C F T N) (W : DemixW s F C) (H : DemixH s F C T) :
    demixDerev (r.sig X) (rTaps r v Xbar) (fun k f => W k (r.freq f)) (rH r v H)
      = r.sig (demixDerev X Xbar W H) := by
  funext c f n
  simp only [demixDerev, Reorder.sig, rTaps, rH, mul_sub, Finset.mul_sum]
  congr 1
  · exact Finset.sum_congr rfl fun _ _ => by ring
  · refine Finset.sum_congr rfl fun d _ => Finset.sum_congr rfl fun t _ => ?_
    linear_combination (H c (r.freq f) d t * r.u f n * Xbar d (r.freq f) t (r.frame n)) * unit_mul_star (hv f t)

omit hv in
lemma demixBackground_reorder (hs : s ≤ C) (X : Sig C F N) (J : BackJ (C - s) F s) :
    demixBackground hs (r.sig X) (fun c f => J c (r.freq f)) = r.sig (demixBackground hs X J) := by
  funext c f n
  simp only [demixBackground, Reorder.sig, mul_sub, Finset.mul_sum]
  congr 1
  exact Finset.sum_congr rfl fun _ _ => by ring

lemma backgroundUpdate_reorder (hs : s ≤ C) (W : DemixW s F C) (H : DemixH s F C T) (X : Sig C F N) (Xbar : Taps C F T N)
    (eps : ℝ) (J : BackJ (C - s) F s) (h : backgroundUpdate hs W H (covXX X) (covXbarX X Xbar) eps = .ok J) :
    backgroundUpdate hs (fun k f => W k (r.freq f)) (rH r v H) (covXX (r.sig X))
      (covXbarX (r.sig X) (rTaps r v Xbar)) eps = .ok fun c f => J c (r.freq f) := by
  unfold backgroundUpdate at h ⊢
  simp only [bind, Except.bind, pure, Except.pure] at h ⊢
  split at h
  · cases h
  rename_i JH hJ
  cases h
  have hA : ∀ f, bgA (fun k f => W k (r.freq f)) (rH r v H) (covXX (r.sig X))
      (covXbarX (r.sig X) (rTaps r v Xbar)) f = bgA W H (covXX X) (covXbarX X Xbar) (r.freq f) := by
    intro f
    unfold bgA
    simp only [covXX_reorder, covXbarX_reorder, rH]
    ext k d
    simp only [Matrix.of_apply]
    congr 1
    refine Finset.sum_congr rfl fun c _ => Finset.sum_congr rfl fun t _ => ?_
    linear_combination (H k (r.freq f) c t * covXbarX X Xbar c t (r.freq f) d) * unit_mul_star (hv f t)
  rw [seqAll_reorder r (fun f => by rw [hA]) hJ]

/-- The main-loop state seen through the change of convention. -/
def rTiss {σ : Type} (st : TissState σ s C F N T) : TissState σ s C F N T :=
  ⟨r.sig st.Y, fun k f => st.W k (r.freq f), rH r v st.H, st.J.map fun J c f => J c (r.freq f), st.ms⟩

omit hv in
lemma sourceGain_reorder (Y : Sig s F N) (eps : ℝ) (k : Fin s) : sourceGain (r.sig Y) eps k = sourceGain Y eps k := by
  unfold sourceGain
  have := reorder_total r (Y k)
  show clampMin ((∑ f, ∑ n, magSq (r.u f n * Y k (r.freq f) (r.frame n))) / _) _ = _
  rw [this]

lemma tissOneIter_reorder {σ : Type} (hs : s ≤ C) (X : Sig C F N) (Xbar : Taps C F T N) (model : SourceModel σ F N)
    (hm : Follows r model) (eps : ℝ) (st st' : TissState σ s C F N T)
    (h : tissOneIter hs X Xbar (covXX X) (covXbarX X Xbar) model eps st = .ok st') :
    tissOneIter hs (r.sig X) (rTaps r v Xbar) (covXX (r.sig X)) (covXbarX (r.sig X) (rTaps r v Xbar)) model eps (rTiss r v st)
      = .ok (rTiss r v st') := by
  obtain ⟨Y, W, H, J, ms⟩ := st
  have hY : ∀ g : Fin s → ℝ, (fun k f n => divide (r.sig Y k f n) (g k) eps)
      = r.sig fun k f n => divide (Y k f n) (g k) eps := by
    intro g
    funext k f n
    simp only [Reorder.sig, divide, mul_div_assoc]
  have hH : ∀ g : Fin s → ℝ, (fun k f c t => divide (rH r v H k f c t) (g k) eps)
      = rH r v fun k f c t => divide (H k f c t) (g k) eps := by
    intro g
    funext k f c t
    simp only [rH, divide, mul_div_assoc]
  have hw : ∀ (w : Weights s F N) (g : Fin s → ℝ), (fun k f n => r.weights w k f n * g k)
      = r.weights fun k f n => w k f n * g k := fun w g => rfl
  unfold tissOneIter at h ⊢
  simp only [rTiss, hm s ms Y, sourceGain_reorder] at h ⊢
  match J with
  | none =>
    simp only [Option.map_none, pure, Except.pure, hw, hY, hH] at h ⊢
    cases h
    have := issUpdates_reorder r v hv Xbar (fun k f n => (model s ms Y).1 k f n * sourceGain Y eps k) eps none
      ⟨fun k f n => divide (Y k f n) √(sourceGain Y eps k) eps, fun k f c => divide (W k f c) √(sourceGain Y eps k) eps,
        fun k f c t => divide (H k f c t) √(sourceGain Y eps k) eps⟩
    simp only [rZJ, Option.map_none, rIss] at this
    rw [this]
    rfl
  | some J =>
    simp only [Option.map_some, bind, Except.bind, pure, Except.pure, hw, hY, hH] at h ⊢
    split at h
    · cases h
    rename_i J' hJ
    cases h
    have hJ' := backgroundUpdate_reorder r v hv hs _ _ X Xbar _ J' hJ
    rw [hJ']
    have := issUpdates_reorder r v hv Xbar (fun k f n => (model s ms Y).1 k f n * sourceGain Y eps k) eps
      (some (demixBackground hs X J', J'))
      ⟨fun k f n => divide (Y k f n) √(sourceGain Y eps k) eps, fun k f c => divide (W k f c) √(sourceGain Y eps k) eps,
        fun k f c t => divide (H k f c t) √(sourceGain Y eps k) eps⟩
    simp only [rZJ, Option.map_some, rIss, ← demixBackground_reorder] at this
    simp only
    rw [this]
    rfl

lemma tissOneIterDmc_reorder {σ : Type} (hs : s ≤ C) (X : Sig C F N) (Xbar : Taps C F T N) (model : SourceModel σ F N)
    (hm : Follows r model) (eps : ℝ) (st st' : TissState σ s C F N T)
    (h : tissOneIterDmc hs X Xbar (covXX X) (covXbarX X Xbar) model eps st = .ok st') :
    tissOneIterDmc hs (r.sig X) (rTaps r v Xbar) (covXX (r.sig X)) (covXbarX (r.sig X) (rTaps r v Xbar)) model eps
      (rTiss r v st) = .ok (rTiss r v st') := by
  unfold tissOneIterDmc at h ⊢
  simp only [bind, Except.bind, pure, Except.pure] at h ⊢
  split at h
  · cases h
  rename_i st1 h1
  cases h
  have := tissOneIter_reorder r v hv hs X Xbar model hm eps _ st1 h1
  simp only [rTiss] at this ⊢
  rw [demixDerev_reorder r v hv, this]

omit hv in
lemma iterM_map {α : Type} (g g' : α → Except Err α) (t : α → α) (h : ∀ a b, g a = .ok b → g' (t a) = .ok (t b)) (n : ℕ)
    (a b : α) (hab : iterM g n a = .ok b) : iterM g' n (t a) = .ok (t b) := by
  induction n generalizing a with
  | zero => cases hab; rfl
  | succ n ih =>
    simp only [iterM, bind, Except.bind] at hab ⊢
    split at hab
    · cases hab
    rename_i c hc
    rw [h a c hc]
    exact ih c hab

omit hv in
lemma projectionBackWeights_reorder (hs : s ≤ C) (W : DemixW s F C) (J : Option (BackJ (C - s) F s)) (m : ℕ)
    (a : Fin s → Fin F → ℂ) (h : projectionBackWeights hs W J m = .ok a) :
    projectionBackWeights hs (fun k f => W k (r.freq f)) (J.map fun J c f => J c (r.freq f)) m
      = .ok fun k f => a k (r.freq f) := by
  match J with
  | none =>
    unfold projectionBackWeights at h ⊢
    simp only [Option.map_none, bind, Except.bind, pure, Except.pure] at h ⊢
    split_ifs at h ⊢
    split at h
    · cases h
    rename_i x hx
    cases h
    rw [seqAll_reorder r (fun f => rfl) hx]
  | some J =>
    unfold projectionBackWeights at h ⊢
    simp only [Option.map_some, bind, Except.bind, pure, Except.pure] at h ⊢
    split_ifs at h ⊢
    all_goals
      try simp only at h ⊢
      try (split at h; · cases h)
      try (rename_i x hx; cases h; rw [seqAll_reorder r (fun f => rfl) hx])
    all_goals cases h

omit hv in
lemma tissCore_reorder {σ : Type} (hs : s ≤ C) (p : TissParams) (v : Fin F → Fin p.nTaps → ℂ) (hv : ∀ f t, ‖v f t‖ = 1)
    (X : Sig C F N) (hX : delayedTaps (r.sig X) p.nTaps p.nDelay = rTaps r v (delayedTaps X p.nTaps p.nDelay))
    (model : SourceModel σ F N) (hm : Follows r model) (ms : σ) (o : TissOut σ s C F N)
    (h : tissCore hs p X model ms = .ok o) :
    tissCore hs p (r.sig X) model ms
      = .ok ⟨r.sig o.Y, fun k f => o.W k (r.freq f), o.J.map fun J c f => J c (r.freq f), o.ms⟩ := by
  have hinit : ∀ st : TissState σ s C F N p.nTaps, tissInit hs X p.nTaps p.nDelay p.eps ms = .ok st →
      tissInit hs (r.sig X) p.nTaps p.nDelay p.eps ms = .ok (rTiss r v st) := by
    intro st hst
    have hH0 : (fun _ _ _ _ => 0 : DemixH s F C p.nTaps) = rH r v fun _ _ _ _ => 0 := by
      funext k f c t
      simp [rH]
    have hd := demixDerev_reorder r v hv X (delayedTaps X p.nTaps p.nDelay) (fun (k : Fin s) _ (c : Fin C) => if k.1 = c.1 then 1 else 0)
      (fun _ _ _ _ => 0)
    rw [← hH0] at hd
    unfold tissInit at hst ⊢
    simp only [hX] at hst ⊢
    split_ifs at hst ⊢ with hlt
    · simp only [bind, Except.bind, pure, Except.pure] at hst ⊢
      split at hst
      · cases hst
      rename_i J hJ
      cases hst
      have := backgroundUpdate_reorder r v hv hs _ _ X _ _ J hJ
      rw [← hH0] at this
      rw [this]
      simp only [rTiss, Option.map_some]
      rw [hd, ← hH0]
    · simp only [pure, Except.pure] at hst ⊢
      cases hst
      simp only [rTiss, Option.map_none]
      rw [hd, ← hH0]
  have hloop : ∀ st0 st : TissState σ s C F N p.nTaps,
      tissLoop hs X p.nTaps p.nDelay model p.eps p.useDmc p.nIter st0 = .ok st →
      tissLoop hs (r.sig X) p.nTaps p.nDelay model p.eps p.useDmc p.nIter (rTiss r v st0) = .ok (rTiss r v st) := by
    intro st0 st hst
    unfold tissLoop at hst ⊢
    rw [hX]
    refine iterM_map _ _ (rTiss r v) ?_ p.nIter st0 st hst
    intro a b hab
    split_ifs at hab ⊢
    · exact tissOneIterDmc_reorder r v hv hs X _ model hm p.eps a b hab
    · exact tissOneIter_reorder r v hv hs X _ model hm p.eps a b hab
  unfold tissCore at h ⊢
  simp only [bind, Except.bind] at h ⊢
  split at h
  · cases h
  rename_i st0 h0
  split at h
  · cases h
  rename_i st h1
  rw [hinit st0 h0]
  simp only
  rw [hloop st0 st h1]
  simp only at h ⊢
  have hYY : (if p.useDmc = true then demixDerev (r.sig X) (delayedTaps (r.sig X) p.nTaps p.nDelay) (rTiss r v st).W (rTiss r v st).H
      else (rTiss r v st).Y) = r.sig (if p.useDmc = true then demixDerev X (delayedTaps X p.nTaps p.nDelay) st.W st.H else st.Y) := by
    split_ifs
    · rw [hX]
      exact demixDerev_reorder r v hv X _ st.W st.H
    · rfl
  rw [hYY]
  generalize (if p.useDmc = true then demixDerev X (delayedTaps X p.nTaps p.nDelay) st.W st.H else st.Y) = Y at h ⊢
  split at h
  · split_ifs at h ⊢
    · split at h
      · cases h
      rename_i m a ha
      cases h
      have := projectionBackWeights_reorder r hs st.W st.J _ a ha
      simp only [rTiss]
      rw [this]
      simp only [pure, Except.pure, Except.ok.injEq, TissOut.mk.injEq, and_true]
      funext k f n
      simp only [Reorder.sig]
      ring
    · cases h
      rfl
  · cases h
    rfl

omit hv in
/-- Each tap of the reordered signal is the reordered tap, up to a factor per frequency and tap. -/
lemma delayedTaps_reorder (D : ℕ) (X : Sig C F N) (hr : T = 0 ∨ r.KeepsTime) :
    ∃ v : Fin F → Fin T → ℂ, (∀ f t, ‖v f t‖ = 1) ∧ delayedTaps (r.sig X) T D = rTaps r v (delayedTaps X T D) := by
  rcases hr with rfl | ⟨hf, a, b, hb, hu⟩
  · exact ⟨fun _ t => t.elim0, fun _ t => t.elim0, by funext c f t; exact t.elim0⟩
  · refine ⟨fun f t => star (b f) ^ (D + T - t.1), fun f t => by rw [norm_pow, norm_star, hb, one_pow], ?_⟩
    funext c f t n
    unfold delayedTaps rTaps
    simp only [Props.xbarRow_eq, hf, Equiv.Perm.coe_one, id]
    split_ifs with h
    · simp only [Reorder.sig, hf, Equiv.Perm.coe_one, id, hu]
      have e : (n.1 : ℕ) = (D + T - t.1) + (n.1 - (D + T - t.1)) := by omega
      have hbs : star (b f) ^ (D + T - t.1) * b f ^ n.1 = b f ^ (n.1 - (D + T - t.1)) := by
        conv_lhs => rw [e]
        rw [pow_add, ← mul_assoc, ← mul_pow, mul_comm (star (b f)), unit_mul_star (hb f), one_pow, one_mul]
      rw [← hbs]
      ring
    · simp

/-! ## AuxIVA -/

omit hv in
lemma ipSrcUpdate_cov (hs : s ≤ C) (x x' : Fin C → Fin N → ℂ) (Cx : Matrix (Fin C) (Fin C) ℂ) (w w' : Fin s → Fin N → ℝ)
    (eps : ℝ) (h : ∀ k, weightedCov x (w k) = weightedCov x' (w' k)) :
    ipSrcUpdate hs x Cx w eps = ipSrcUpdate hs x' Cx w' eps := by
  funext W k
  unfold ipSrcUpdate
  simp only [h]

omit hv in
lemma ipSweep_cov (hs : s ≤ C) (x x' : Fin C → Fin N → ℂ) (Cx : Matrix (Fin C) (Fin C) ℂ) (w w' : Fin s → Fin N → ℝ)
    (eps : ℝ) (h : ∀ k, weightedCov x (w k) = weightedCov x' (w' k)) (l : List (Fin s)) :
    ipSweep hs x Cx w eps l = ipSweep hs x' Cx w' eps l := by
  induction l with
  | nil => rfl
  | cons k l ih =>
    funext st
    rw [ipSweep, ipSweep, ih, ipSrcUpdate_cov hs x x' Cx w w' eps h]

omit hv in
lemma inputCov_reorder (X : Sig C F N) (f : Fin F) : inputCov (r.sig X) f = inputCov X (r.freq f) := by
  ext c d
  exact covXX_reorder r X c f d

omit hv in
lemma weightedCov_reorder (X : Sig C F N) (w : Weights s F N) (k : Fin s) (f : Fin F) :
    weightedCov (fun c => r.sig X c f) (r.weights w k f) = weightedCov (fun c => X c (r.freq f)) (w k (r.freq f)) := by
  ext c d
  have := reorder_corr r f (fun f n => (w k f n : ℂ)) (X c) (X d)
  simp only [weightedCov, Matrix.of_apply, Reorder.sig, Reorder.weights]
  simp only [mul_comm (_ * X c _ _), mul_comm (X c _ _)] at this ⊢
  rw [← Finset.sum_congr rfl fun n _ => ?_] at this
  exact this.trans (Finset.sum_congr rfl fun n _ => by ring)
  ring

omit hv in
lemma demix_reorder (X : Sig C F N) (W : Fin F → Matrix (Fin s) (Fin C) ℂ) :
    demix (r.sig X) (fun f => W (r.freq f)) = r.sig (demix X W) := by
  funext c f n
  simp only [demix, Reorder.sig, Finset.mul_sum]
  exact Finset.sum_congr rfl fun _ _ => by ring

/-- The loop state of AuxIVA-IP seen through the change of convention. -/
def rIp {σ : Type} (st : IpState σ s C F N) : IpState σ s C F N :=
  ⟨r.sig st.Y, fun f => st.W (r.freq f), fun f => st.J (r.freq f), st.ms⟩

omit hv in
lemma ipEpoch_reorder {σ : Type} (hs : s ≤ C) (X : Sig C F N) (model : SourceModel σ F N) (hm : Follows r model) (eps : ℝ)
    (st st' : IpState σ s C F N) (h : ipEpoch hs X model eps st = .ok st') :
    ipEpoch hs (r.sig X) model eps (rIp r st) = .ok (rIp r st') := by
  obtain ⟨Y, W, J, ms⟩ := st
  unfold ipEpoch at h ⊢
  simp only [rIp, hm s ms Y, sourceGain_reorder, bind, Except.bind, pure, Except.pure] at h ⊢
  split at h
  · cases h
  rename_i x hx
  cases h
  have hw : ∀ f k, (fun n => r.weights (model s ms Y).1 k f n * sourceGain Y eps k)
      = r.weights (fun k f n => (model s ms Y).1 k f n * sourceGain Y eps k) k f := fun f k => rfl
  rw [seqAll_reorder r (fun f => ?_) hx]
  · simp only [demix_reorder r X fun f => (x f).1]
  · rw [inputCov_reorder, ipSweep_cov hs _ (fun c => X c (r.freq f)) _ _
      (fun k n => (model s ms Y).1 k (r.freq f) n * sourceGain Y eps k) eps (fun k => ?_)]
    exact weightedCov_reorder r X (fun k f n => (model s ms Y).1 k f n * sourceGain Y eps k) k f

omit hv in
lemma auxiva_reorder {σ : Type} (p : IpParams) (nSrc : Option ℕ) (X : Sig C F N) (model : SourceModel σ F N)
    (hm : Follows r model) (reset : σ → σ) (ms : σ) (o : IpOut σ s F N)
    (h : auxivaForward p nSrc X model reset ms = .ok ⟨s, o⟩) :
    auxivaForward p nSrc (r.sig X) model reset ms = .ok ⟨s, ⟨r.sig o.Y, o.ms⟩⟩ := by
  match nSrc with
  | none => cases h
  | some s' =>
    unfold auxivaForward at h ⊢
    simp only at h ⊢
    split_ifs at h ⊢ with hs
    simp only [bind, Except.bind] at h ⊢
    split at h
    · cases h
    rename_i J hJ
    split at h
    · cases h
    rename_i st hst
    have hst' := iterM_map _ _ (rIp r) (fun a b => ipEpoch_reorder r hs X model hm p.eps a b) p.nIter _ _ hst
    rw [seqAll_reorder r (fun f => by rw [inputCov_reorder]) hJ]
    simp only
    simp only [rIp] at hst'
    rw [show (fun k => r.sig X (Fin.castLE hs k)) = r.sig (fun k => X (Fin.castLE hs k)) from rfl, hst']
    simp only
    split at h
    · split at h
      · cases h
      rename_i a ha
      cases h
      rw [seqAll_reorder r (fun f => rfl) ha]
      simp only [pure, Except.pure]
      congr 3
      funext k f n
      simp only [Reorder.sig]
      ring
    · cases h
      rfl

/-! ## AuxIVA-IP2 -/

omit hv in
lemma ip2Cov_reorder (X : Sig 2 F N) (w : Weights 2 F N) (k : Fin 2) (f : Fin F) :
    ip2Cov (fun c => r.sig X c f) (r.weights w k f) = ip2Cov (fun c => X c (r.freq f)) (w k (r.freq f)) := by
  have : ∀ c d, ∑ n, ((r.weights w k f n : ℝ) : ℂ) * r.sig X c f n * star (r.sig X d f n)
      = ∑ n, ((w k (r.freq f) n : ℝ) : ℂ) * X c (r.freq f) n * star (X d (r.freq f) n) :=
    fun c d => reorder_corr r f (fun f n => (w k f n : ℂ)) (X c) (X d)
  unfold ip2Cov
  simp only [this]

/-- The loop state of AuxIVA-IP2 seen through the change of convention. -/
def rIp2 {σ : Type} (st : Ip2State σ F N) : Ip2State σ F N :=
  ⟨r.sig st.X, fun f => st.W (r.freq f), fun f => st.A (r.freq f), st.ms⟩

omit hv in
lemma ip2Epoch_reorder {σ : Type} (X : Sig 2 F N) (model : SourceModel σ F N) (hm : Follows r model) (eps : ℝ)
    (st st' : Ip2State σ F N) (h : ip2Epoch X model eps st = .ok st') :
    ip2Epoch (r.sig X) model eps (rIp2 r st) = .ok (rIp2 r st') := by
  obtain ⟨Y, W, A, ms⟩ := st
  unfold ip2Epoch at h ⊢
  have ht : ∀ k, ∑ f, ∑ n, magSq (r.sig Y k f n) = ∑ f, ∑ n, magSq (Y k f n) := fun k => reorder_total r (Y k)
  simp only [rIp2, hm 2 ms Y, ht, bind, Except.bind, pure, Except.pure] at h ⊢
  split at h
  · cases h
  rename_i x hx
  cases h
  rw [seqAll_reorder r (fun f => ?_) hx]
  · have : (fun c f n => ∑ d, x (r.freq f) c d * r.sig X d f n) = r.sig fun c f n => ∑ d, x f c d * X d f n :=
      demix_reorder r X x
    simp only [this]
  · unfold ip2Update
    congr 2
    funext k
    exact ip2Cov_reorder r X (fun k f n => (model 2 ms Y).1 k f n * clampMin ((∑ f, ∑ n, magSq (Y k f n)) / (F * N)) 1e-5) k f

omit hv in
lemma auxiva2_reorder {σ : Type} (nIter : ℕ) (m : Option ℤ) (eps : ℝ) (X : Sig C F N) (model : SourceModel σ F N)
    (hm : Follows r model) (reset : σ → σ) (ms : σ) (Y : Sig 2 F N)
    (h : auxiva2Forward nIter m eps X model reset ms = .ok Y) :
    auxiva2Forward nIter m eps (r.sig X) model reset ms = .ok (r.sig Y) := by
  unfold auxiva2Forward at h ⊢
  by_cases hC : C = 2
  · subst hC
    simp only [dif_pos] at h ⊢
    by_cases hp : ∀ j ∈ m, 0 ≤ j ∧ j < ((2 : ℕ) : ℤ)
    swap
    · rw [if_neg hp] at h
      cases h
    rw [if_pos hp] at h ⊢
    simp only [bind, Except.bind] at h ⊢
    split at h
    · cases h
    rename_i st hst
    have hst' := iterM_map _ _ (rIp2 r) (fun a b => ip2Epoch_reorder r _ model hm eps a b) nIter _ _ hst
    have e : (fun c => r.sig X (Fin.cast rfl c)) = r.sig fun c => X (Fin.cast rfl c) := rfl
    simp only [rIp2] at hst'
    rw [e, hst']
    simp only
    match m with
    | some m =>
      simp only at h ⊢
      split_ifs at h ⊢
      iterate 2
        · cases h
          simp only [pure, Except.pure]
          congr 1
          funext c f n
          simp only [Reorder.sig]
          ring
      · cases h
        rfl
    | none =>
      cases h
      rfl
  · rw [dif_neg hC] at h
    cases h

/-! ## WPE -/

omit hv in
lemma wpeDefaultWeights_reorder (Y : Sig C F N) (eps : ℝ) (w : Fin F → Fin N → ℝ) (h : wpeDefaultWeights Y eps = .ok w) :
    wpeDefaultWeights (r.sig Y) eps = .ok fun f n => w (r.freq f) (r.frame n) := by
  have hd : ∀ f n, ∑ c, magSq (r.sig Y c f n) = ∑ c, magSq (Y c (r.freq f) (r.frame n)) := fun f n =>
    Finset.sum_congr rfl fun c _ => reorder_magSq r f n _
  have hs : ∀ f, ∑ n, 1 / clampMin ((∑ c, magSq (Y c (r.freq f) (r.frame n))) / C) eps
      = ∑ n, 1 / clampMin ((∑ c, magSq (Y c (r.freq f) n)) / C) eps := fun f =>
    Equiv.sum_comp r.frame fun n => 1 / clampMin ((∑ c, magSq (Y c (r.freq f) n)) / C) eps
  unfold wpeDefaultWeights at h ⊢
  simp only [hd, hs] at h ⊢
  split_ifs at h with h1
  cases h
  rw [if_neg]
  rintro ⟨p, hp⟩
  exact h1 ⟨(r.freq p.1, r.frame p.2), hp⟩

lemma wpeAcm_reorder (w : Fin F → Fin N → ℝ) (Xbar : Taps C F T N) (f : Fin F) (p q : Fin C × Fin T) :
    wpeAcm (fun f n => w (r.freq f) (r.frame n)) (rTaps r v Xbar) f p q
      = v f p.2 * wpeAcm w Xbar (r.freq f) p q * star (v f q.2) := by
  have := reorder_corr r f (fun f n => (w f n : ℂ)) (fun f n => Xbar p.1 f p.2 n) (fun f n => Xbar q.1 f q.2 n)
  simp only [wpeAcm, Matrix.of_apply, rTaps]
  rw [← this, Finset.mul_sum, Finset.sum_mul]
  refine Finset.sum_congr rfl fun n _ => ?_
  simp only [star_mul']
  ring

lemma wpeXcv_reorder (w : Fin F → Fin N → ℝ) (X : Sig C F N) (Xbar : Taps C F T N) (f : Fin F) (p : Fin C × Fin T) (c : Fin C) :
    wpeXcv (fun f n => w (r.freq f) (r.frame n)) (r.sig X) (rTaps r v Xbar) f p c
      = v f p.2 * wpeXcv w X Xbar (r.freq f) p c := by
  have := reorder_corr r f (fun f n => (w f n : ℂ)) (fun f n => Xbar p.1 f p.2 n) (X c)
  simp only [wpeXcv, Matrix.of_apply, rTaps, Reorder.sig]
  rw [← this, Finset.mul_sum]
  exact Finset.sum_congr rfl fun n _ => by ring

omit hv in
/-- A loaded solve in coordinates that are rotated one by one. -/
lemma solveLoaded_rotate {ι κ : Type} [Fintype ι] [DecidableEq ι] [Fintype κ] (A A' : Matrix ι ι ℂ) (b b' x : Matrix ι κ ℂ)
    (d : ι → ℂ) (hd : ∀ i, ‖d i‖ = 1) (hA : ∀ i j, A' i j = d i * A i j * star (d j)) (hb : ∀ i k, b' i k = d i * b i k)
    (load : ℝ) (h : solveLoaded A b load = .ok x) :
    solveLoaded A' b' load = .ok (Matrix.of fun i k => d i * x i k) := by
  have hn : ∀ i j, ‖A' i j‖ = ‖A i j‖ := fun i j => by
    rw [hA, norm_mul, norm_mul, hd, norm_star, hd, one_mul, mul_one]
  have hmax : maxAbs A' = maxAbs A := by
    unfold maxAbs
    simp only [hn]
  unfold solveLoaded at h ⊢
  simp only [bind, Except.bind] at h ⊢
  rw [hmax]
  split at h
  · cases h
  rename_i m hm
  generalize clampMin (load * m) load = lam at h ⊢
  rw [solve_ok_iff] at h ⊢
  have hdd : ∀ i, d i * star (d i) = 1 := fun i => unit_mul_star (hd i)
  have hD : (Matrix.diagonal d) * (Matrix.diagonal fun i => star (d i)) = 1 := by
    rw [Matrix.diagonal_mul_diagonal, ← Matrix.diagonal_one]
    congr 1
    funext i
    exact hdd i
  have hD' : (Matrix.diagonal fun i => star (d i)) * (Matrix.diagonal d) = 1 := mul_eq_one_comm.1 hD
  have hA2 : A' + (lam : ℂ) • (1 : Matrix ι ι ℂ)
      = Matrix.diagonal d * (A + (lam : ℂ) • (1 : Matrix ι ι ℂ)) * Matrix.diagonal fun i => star (d i) := by
    rw [Matrix.mul_add, Matrix.add_mul, Matrix.mul_smul, Matrix.smul_mul, Matrix.mul_one, hD]
    congr 1
    ext i j
    rw [Matrix.mul_diagonal, Matrix.diagonal_mul, hA]
  have hx : (Matrix.of fun i k => d i * x i k) = Matrix.diagonal d * x := by
    ext i k
    rw [Matrix.diagonal_mul, Matrix.of_apply]
  have hb2 : b' = Matrix.diagonal d * b := by
    ext i k
    rw [Matrix.diagonal_mul, hb]
  rw [hA2, hx, hb2]
  constructor
  · rw [Matrix.det_mul, Matrix.det_mul]
    have h1 : IsUnit ((Matrix.diagonal d).det * (Matrix.diagonal fun i => star (d i)).det) := by
      rw [← Matrix.det_mul, hD, Matrix.det_one]
      exact isUnit_one
    exact (((isUnit_of_mul_isUnit_left h1).mul h.1).mul (isUnit_of_mul_isUnit_right h1))
  · rw [← h.2]
    simp only [Matrix.mul_assoc]
    rw [← Matrix.mul_assoc (Matrix.diagonal fun i => star (d i)), hD', Matrix.one_mul]

lemma wpeFilter_reorder (w : Fin F → Fin N → ℝ) (X : Sig C F N) (Xbar : Taps C F T N) (eps : ℝ)
    (H : Fin F → Matrix (Fin C × Fin T) (Fin C) ℂ) (h : wpeFilter w X Xbar eps = .ok H) :
    wpeFilter (fun f n => w (r.freq f) (r.frame n)) (r.sig X) (rTaps r v Xbar) eps
      = .ok fun f => Matrix.of fun p c => v f p.2 * H (r.freq f) p c := by
  unfold wpeFilter at h ⊢
  rw [seqAll_ok_iff] at h ⊢
  exact fun f => solveLoaded_rotate _ _ _ _ _ (fun p => v f p.2) (fun p => hv f p.2)
    (fun p q => wpeAcm_reorder r v hv w Xbar f p q) (fun p c => wpeXcv_reorder r v hv w X Xbar f p c) eps (h (r.freq f))

lemma wpeDerev_reorder (H : Fin F → Matrix (Fin C × Fin T) (Fin C) ℂ) (X : Sig C F N) (Xbar : Taps C F T N) :
    wpeDerev (fun f => Matrix.of fun p c => v f p.2 * H (r.freq f) p c) (r.sig X) (rTaps r v Xbar)
      = r.sig (wpeDerev H X Xbar) := by
  funext c f n
  simp only [wpeDerev, Reorder.sig, rTaps, Matrix.of_apply, mul_sub, Finset.mul_sum, star_mul']
  congr 1
  refine Finset.sum_congr rfl fun d _ => Finset.sum_congr rfl fun t _ => ?_
  linear_combination (star (H (r.freq f) (d, t) c) * r.u f n * Xbar d (r.freq f) t (r.frame n)) * unit_mul_star (hv f t)

/-- The loop state of WPE seen through the change of convention. -/
def rWpe {σ : Type} (st : WpeState σ C F N) : WpeState σ C F N := ⟨r.sig st.Y, st.ms⟩

lemma wpeStep_reorder {σ : Type} (X : Sig C F N) (Xbar : Taps C F T N) (model : Option (WpeModel σ C F N))
    (hm : ∀ m ∈ model, FollowsWpe r m) (eps : ℝ) (st st' : WpeState σ C F N) (h : wpeStep X Xbar model eps st = .ok st') :
    wpeStep (r.sig X) (rTaps r v Xbar) model eps (rWpe r st) = .ok (rWpe r st') := by
  obtain ⟨Y, ms⟩ := st
  unfold wpeStep at h ⊢
  match model with
  | none =>
    simp only [bind, Except.bind, pure, Except.pure, rWpe] at h ⊢
    match hw : wpeDefaultWeights Y eps with
    | .error e => rw [hw] at h; cases h
    | .ok w =>
      rw [hw] at h
      rw [wpeDefaultWeights_reorder r Y eps w hw]
      simp only [Except.map] at h ⊢
      split at h
      · cases h
      rename_i H hH
      cases h
      rw [wpeFilter_reorder r v hv w X Xbar eps H hH]
      simp only [wpeDerev_reorder r v hv]
  | some m =>
    simp only [bind, Except.bind, pure, Except.pure, rWpe, hm m rfl ms Y] at h ⊢
    split at h
    · cases h
    rename_i H hH
    cases h
    rw [wpeFilter_reorder r v hv _ X Xbar eps H hH]
    simp only [wpeDerev_reorder r v hv]

omit hv in
lemma wpe_reorder {σ : Type} (nIter T D : ℕ) (hr : T = 0 ∨ r.KeepsTime) (eps : ℝ) (X : Sig C F N)
    (model : Option (WpeModel σ C F N)) (hm : ∀ m ∈ model, FollowsWpe r m) (ms : σ) (st : WpeState σ C F N)
    (h : wpeRun nIter T D eps X model ms = .ok st) :
    wpeRun nIter T D eps (r.sig X) model ms = .ok (rWpe r st) := by
  obtain ⟨v, hv, hX⟩ := delayedTaps_reorder (T := T) r D X hr
  unfold wpeRun at h ⊢
  rw [hX]
  exact iterM_map _ _ (rWpe r) (fun a b => wpeStep_reorder r v hv X _ model hm eps a b) nIter _ _ h

/-! ## Classic source models -/

omit hv in
lemma reorder_frame (z : Fin F → Fin N → ℂ) (n : Fin N) :
    ∑ f, magSq (r.u f n * z (r.freq f) (r.frame n)) = ∑ f, magSq (z f (r.frame n)) := by
  simp only [reorder_magSq]
  exact Equiv.sum_comp r.freq fun f => magSq (z f (r.frame n))

omit hv in
lemma laplace_follows (eps : ℝ) : Follows r (laplaceModel eps) := by
  intro s ms Y
  simp only [laplaceModel, Prod.mk.injEq, and_true]
  funext c f n
  simp only [laplaceForward, Reorder.weights, Reorder.sig, reorder_frame r (Y c)]

omit hv in
lemma gauss_follows (eps : ℝ) : Follows r (gaussModel eps) := by
  intro s ms Y
  simp only [gaussModel, Prod.mk.injEq, and_true]
  funext c f n
  simp only [gaussForward, Reorder.weights, Reorder.sig, reorder_frame r (Y c)]

end Torchiva
