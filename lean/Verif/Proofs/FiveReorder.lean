import Verif.Model.Five
import Verif.Proofs.Reorder

/-! FIVE seen through a change of convention. -/

namespace Torchiva

open Matrix Spec

variable {C F N : ℕ} (r : Reorder F N)

lemma fiveCov_reorder (x : Fin F → Fin C → Fin N → ℂ) (f : Fin F) :
    fiveCov (fun c n => r.u f n * x (r.freq f) c (r.frame n)) = fiveCov (x (r.freq f)) := by
  have h : ∀ c d, ∑ n, (r.u f n * x (r.freq f) c (r.frame n)) * star (r.u f n * x (r.freq f) d (r.frame n))
      = ∑ n, x (r.freq f) c n * star (x (r.freq f) d n) := fun c d =>
    reorder_corr' r f (fun f n => x f c n) (fun f n => x f d n)
  unfold fiveCov
  simp only [h]

lemma fiveWCov_reorder (x : Fin F → Fin C → Fin N → ℂ) (w : Fin F → Fin N → ℝ) (f : Fin F) :
    fiveWCov (fun c n => r.u f n * x (r.freq f) c (r.frame n)) (fun n => w (r.freq f) (r.frame n)) = fiveWCov (x (r.freq f)) (w (r.freq f)) := by
  have h : ∀ c d, ∑ n, (w (r.freq f) (r.frame n) : ℂ) * (r.u f n * x (r.freq f) c (r.frame n)) * star (r.u f n * x (r.freq f) d (r.frame n))
      = ∑ n, (w (r.freq f) n : ℂ) * x (r.freq f) c n * star (x (r.freq f) d n) := fun c d =>
    reorder_corr r f (fun f n => (w f n : ℂ)) (fun f n => x f c n) (fun f n => x f d n)
  unfold fiveWCov
  simp only [h]

lemma fiveNormalize_reorder (x y : Fin F → Fin C → ℂ) (h : fiveNormalize x = .ok y) :
    fiveNormalize (fun f => x (r.freq f)) = .ok fun f => y (r.freq f) := by
  have hs : ∀ c, ∑ f, ‖x (r.freq f) c‖ ^ 2 = ∑ f, ‖x f c‖ ^ 2 := fun c => Equiv.sum_comp r.freq fun f => ‖x f c‖ ^ 2
  unfold fiveNormalize at h ⊢
  simp only [hs]
  split_ifs at h ⊢ with h1
  obtain rfl := Except.ok.inj h
  rfl

lemma powerStep_reorder (V : Fin F → Matrix (Fin C) (Fin C) ℂ) (x y : Fin F → Fin C → ℂ) (h : powerStep V x = .ok y) :
    powerStep (fun f => V (r.freq f)) (fun f => x (r.freq f)) = .ok fun f => y (r.freq f) := by
  unfold powerStep at h ⊢
  simp only at h ⊢
  split_ifs at h with h1
  rw [if_neg fun ⟨f, hf⟩ => h1 ⟨r.freq f, hf⟩]
  obtain rfl := Except.ok.inj h
  rfl

lemma powerIter_reorder (V : Fin F → Matrix (Fin C) (Fin C) ℂ) (n : ℕ) (x y : Fin F → Fin C → ℂ) (h : iterM (powerStep V) n x = .ok y) :
    iterM (powerStep fun f => V (r.freq f)) n (fun f => x (r.freq f)) = .ok fun f => y (r.freq f) := by
  induction n generalizing x with
  | zero =>
    obtain rfl := Except.ok.inj h
    rfl
  | succ n ih =>
    unfold iterM at h ⊢
    simp only [bind, Except.bind] at h ⊢
    split at h
    · cases h
    · next z hz =>
      rw [powerStep_reorder r V x z hz]
      exact ih z h

lemma fiveVectors_reorder [NeZero C] (solver : Matrix (Fin C) (Fin C) ℂ → EigRes (Fin C)) (nPower : Option ℕ)
    (V : Fin F → Matrix (Fin C) (Fin C) ℂ) (ev : Fin F → Fin C → ℂ) (h : fiveVectors solver nPower V = .ok ev) :
    fiveVectors solver nPower (fun f => V (r.freq f)) = .ok fun f => ev (r.freq f) := by
  cases nPower with
  | none =>
    obtain rfl := Except.ok.inj h
    rfl
  | some n =>
    simp only [fiveVectors, smallestPower, bind, Except.bind, pure, Except.pure] at h ⊢
    split at h
    · cases h
    next Vi hVi =>
    rw [seqAll_reorder r (fun f => rfl) hVi]
    simp only
    split at h
    · cases h
    next x hx =>
    rw [fiveNormalize_reorder r _ x hx]
    simp only
    split at h
    · cases h
    next y hy =>
    rw [powerIter_reorder r Vi _ x y hy]
    simp only
    split_ifs at h ⊢ with h0
    obtain rfl := Except.ok.inj h
    rfl

/-- The state of the loop seen through the change of convention. -/
def rFive {σ : Type} (st : FiveState σ F N) : FiveState σ F N := ⟨fun f n => r.u f n * st.Y (r.freq f) (r.frame n), st.ms⟩

lemma fiveEpoch_reorder [NeZero C] {σ : Type} (solver : Matrix (Fin C) (Fin C) ℂ → EigRes (Fin C)) (nPower : Option ℕ) (Xw : Sig C F N)
    (qref : Fin F → Fin C → ℂ) (model : SourceModel σ F N) (hm : Follows r model) (st st' : FiveState σ F N)
    (h : fiveEpoch solver nPower Xw qref model st = .ok st') :
    fiveEpoch solver nPower (r.sig Xw) (fun f => qref (r.freq f)) model (rFive r st) = .ok (rFive r st') := by
  have hw := hm 1 st.ms fun _ => st.Y
  change model 1 (rFive r st).ms (fun _ => (rFive r st).Y) = _ at hw
  unfold fiveEpoch at h ⊢
  rw [hw]
  simp only [bind, Except.bind, pure, Except.pure] at h ⊢
  have hV : (fun f => fiveWCov (fun c => r.sig Xw c f) (r.weights (model 1 st.ms fun _ => st.Y).1 0 f))
      = fun f => fiveWCov (fun c => Xw c (r.freq f)) ((model 1 st.ms fun _ => st.Y).1 0 (r.freq f)) := by
    funext f
    exact fiveWCov_reorder r (fun f c n => Xw c f n) ((model 1 st.ms fun _ => st.Y).1 0) f
  rw [hV]
  split at h
  · cases h
  next ev hev =>
  rw [fiveVectors_reorder r solver nPower (fun f => fiveWCov (fun c => Xw c f) ((model 1 st.ms fun _ => st.Y).1 0 f)) ev hev]
  obtain rfl := Except.ok.inj h
  simp only [rFive, Except.ok.injEq, FiveState.mk.injEq, and_true]
  funext f n
  rw [Finset.mul_sum]
  exact Finset.sum_congr rfl fun c _ => by simp only [Reorder.sig]; ring

lemma five_reorder [NeZero C] {σ : Type} (solver : Matrix (Fin C) (Fin C) ℂ → EigRes (Fin C)) (nIter : ℕ) (ref : Fin C) (nPower : Option ℕ)
    (X X' : Sig C (F + 1) N) (hX : ∀ c f n, X' c f.succ n = r.u f n * X c (r.freq f).succ (r.frame n)) (model : SourceModel σ F N)
    (hm : Follows r model) (reset : σ → σ) (ms : σ) (Y : Sig 1 (F + 1) N) (h : fiveForward solver nIter ref nPower X model reset ms = .ok Y) :
    fiveForward solver nIter ref nPower X' model reset ms
      = .ok fun k f n => if hf : f = 0 then 0 else r.u (f.pred hf) n * Y k (r.freq (f.pred hf)).succ (r.frame n) := by
  have hC : ∀ f, fiveCov (fun c n => X' c (Fin.succ f) n) = fiveCov fun c n => X c (r.freq f).succ n := fun f => by
    simp only [hX]
    exact fiveCov_reorder r (fun f c n => X c (Fin.succ f) n) f
  unfold fiveForward at h ⊢
  simp only [bind, Except.bind, pure, Except.pure] at h ⊢
  split at h
  · cases h
  next wh hwh =>
  rw [seqAll_reorder r (fun f => by rw [hC]) hwh]
  simp only
  split at h
  · cases h
  next st hst =>
  have e1 : (fun c f n => ∑ d, (wh (r.freq f)).Q c d * X' d (Fin.succ f) n) = r.sig fun c f n => ∑ d, (wh f).Q c d * X d (Fin.succ f) n := by
    funext c f n
    simp only [Reorder.sig, hX, Finset.mul_sum]
    exact Finset.sum_congr rfl fun _ _ => by ring
  have e2 : (⟨fun f n => (∑ c, (wh (r.freq f)).Q 0 c * fiveCov (fun c n => X' c (Fin.succ f) n) c ref) *
      (∑ d, (wh (r.freq f)).Q 0 d * X' d (Fin.succ f) n), reset ms⟩ : FiveState σ F N)
      = rFive r ⟨fun f n => (∑ c, (wh f).Q 0 c * fiveCov (fun c n => X c (Fin.succ f) n) c ref) *
      (∑ d, (wh f).Q 0 d * X d (Fin.succ f) n), reset ms⟩ := by
    simp only [rFive, FiveState.mk.injEq, and_true]
    funext f n
    have := congrFun (congrFun (congrFun e1 0) f) n
    simp only [Reorder.sig] at this
    rw [this, hC]
    ring
  have key : ∀ (k : ℕ) (a b : FiveState σ F N),
      iterM (fiveEpoch solver nPower (fun c f n => ∑ d, (wh f).Q c d * X d (Fin.succ f) n) (fun f c => (wh f).Qinv ref c) model) k a = .ok b →
      iterM (fiveEpoch solver nPower (r.sig fun c f n => ∑ d, (wh f).Q c d * X d (Fin.succ f) n) (fun f c => (wh (r.freq f)).Qinv ref c) model) k (rFive r a)
        = .ok (rFive r b) := by
    intro k
    induction k with
    | zero =>
      intro a b e
      obtain rfl := Except.ok.inj e
      rfl
    | succ k ih =>
      intro a b e
      unfold iterM at e ⊢
      simp only [bind, Except.bind] at e ⊢
      split at e
      · cases e
      next z hz =>
      rw [fiveEpoch_reorder r solver nPower _ (fun f c => (wh f).Qinv ref c) model hm a z hz]
      exact ih z b e
  rw [e1, e2, key nIter _ st hst]
  obtain rfl := Except.ok.inj h
  simp only [Except.ok.injEq]
  funext k f n
  by_cases hf : f = 0
  · rw [dif_pos hf, dif_pos hf]
  · rw [dif_neg hf, dif_neg hf, dif_neg (Fin.succ_ne_zero _), Fin.pred_succ]
    rfl

end Torchiva
