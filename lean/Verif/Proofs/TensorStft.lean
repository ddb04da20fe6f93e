import Verif.Model.TensorStft
import Verif.Proofs.TensorScaling

/-!
# The STFT and `BSSSeparator.forward`: from the batch to its items
-/

namespace Torchiva

set_option linter.unusedSimpArgs false

variable {b : Shape} {C S n N : ℕ} {nFft : ℕ} {hop : Option ℕ} {w : Fin nFft → ℝ}

theorem flatT_one {α : Type} {t : Ten α} {s : Shape} (h : t.shape = n :: s) (hn : 0 < n) :
    ∃ r, flatT t [n] = .ok r ∧ r.shape = [n, numel s] ∧ ∀ i k, i < n → r.val [i, k] = t.val (i :: unflatIdx s k) := by
  have hs : reshapeFlat t.shape [n] = .ok [n, numel s] := by
    have h1 : numel t.shape = n * numel s := by simp [h, numel]
    have h2 : numel [n] = n := by simp [numel]
    rw [reshapeFlat, h1, h2, if_neg (by omega), if_pos (Nat.mul_mod_right _ _), Nat.mul_div_cancel_left _ hn]
    rfl
  unfold flatT
  rw [hs, ok_bind']
  refine ⟨_, rfl, rfl, fun i k hi => ?_⟩
  dsimp only
  rw [h]
  simp only [flatIdx]
  rw [unflat_cons _ hi]
  simp

theorem flatT_one_zero {α : Type} {t : Ten α} : flatT t [0] = .error .runtimeError := by
  simp [flatT, reshapeFlat, numel]
  rfl

theorem flatT_two {α : Type} {t : Ten α} {s : Shape} {f : ℕ} (h : t.shape = n :: f :: s) (hn : 0 < n) (hf : 0 < f) :
    ∃ r, flatT t [n, f] = .ok r ∧ r.shape = [n, f, numel s] ∧
      ∀ i j k, i < n → j < f → r.val [i, j, k] = t.val (i :: j :: unflatIdx s k) := by
  have hs : reshapeFlat t.shape [n, f] = .ok [n, f, numel s] := by
    have h1 : numel t.shape = n * f * numel s := by simp [h, numel, mul_assoc]
    have h2 : numel [n, f] = n * f := by simp [numel]
    rw [reshapeFlat, h1, h2, if_neg (by positivity), if_pos (Nat.mul_mod_right _ _),
      Nat.mul_div_cancel_left _ (by positivity)]
    rfl
  unfold flatT
  rw [hs, ok_bind']
  refine ⟨_, rfl, rfl, fun i j k hi hj => ?_⟩
  dsimp only
  rw [h]
  simp only [flatIdx]
  rw [unflat_cons _ hi, unflat_cons _ hj]
  simp

theorem reshape_two {α : Type} {t : Ten α} {s : Shape} {f : ℕ} (h : t.shape = [n, f, numel s]) :
    ∃ r, t.reshape (n :: f :: s) = .ok r ∧ r.shape = n :: f :: s ∧
      ∀ i j γ, i < n → j < f → Inside γ s → r.val (i :: j :: γ) = t.val [i, j, flatIdx s γ] := by
  have hs : reshapeS t.shape (n :: f :: s) = .ok (n :: f :: s) := by
    rw [reshapeS, if_pos]
    simp [h, numel]
  unfold Ten.reshape
  rw [hs, ok_bind']
  refine ⟨_, rfl, rfl, fun i j γ hi hj hγ => ?_⟩
  dsimp only
  rw [h]
  simp only [flatIdx]
  rw [unflat_cons _ hi, unflat_cons _ hj]
  simp [unflatIdx, Nat.mod_eq_of_lt (flatIdx_lt hγ)]

theorem reshape_one {α : Type} {t : Ten α} {s : Shape} (h : t.shape = [n, numel s]) :
    ∃ r, t.reshape (n :: s) = .ok r ∧ r.shape = n :: s ∧
      ∀ i γ, i < n → Inside γ s → r.val (i :: γ) = t.val [i, flatIdx s γ] := by
  have hs : reshapeS t.shape (n :: s) = .ok (n :: s) := by
    rw [reshapeS, if_pos]
    simp [h, numel]
  unfold Ten.reshape
  rw [hs, ok_bind']
  refine ⟨_, rfl, rfl, fun i γ hi hγ => ?_⟩
  dsimp only
  rw [h]
  simp only [flatIdx]
  rw [unflat_cons _ hi]
  simp [unflatIdx, Nat.mod_eq_of_lt (flatIdx_lt hγ)]

theorem stftT_rep (nFft : ℕ) (hop : Option ℕ) (w : Fin nFft → ℝ) {x : Ten ℝ} {A : List ℕ → Fin C → Fin n → ℝ} (hx : Rep2 b C n x A) (hC : 0 < C)
    (hb : ∃ β, Inside β b) :
    Batched b (fun t (a : List ℕ → Sig C (nFft / 2 + 1) (stftFrames nFft (hopOf nFft hop) n)) => Rep3 b C _ _ t a)
      (stftT nFft hop w x) fun β => stftAll nFft hop w (A β) := by
  unfold stftT
  simp only [hx.shape]
  by_cases hc : n ≤ nFft / 2 ∨ hopOf nFft hop = 0
  · obtain ⟨β, hβ⟩ := hb
    have hi : ∀ β, stftAll nFft hop w (A β) = .error .runtimeError := fun β => by
      have h1 : ∀ c, stftForward nFft hop w (A β c) = .error .runtimeError := fun c => by
        simp only [stftForward, if_pos hc]
      unfold stftAll
      rw [seqAll_error' (g := fun c => stftForward nFft hop w (A β c)) (fun c => .inr (h1 c)) ⟨0, hC⟩ (h1 _)]
      rfl
    have ht : ((do
        let x ← flatT x [n]
        let X ← torchStftT nFft hop w x
        X.reshape (X.shape.take 2 ++ C :: b)) : Except Err (Ten ℂ)) = .error .runtimeError := by
      rcases Nat.eq_zero_or_pos n with rfl | hn
      · rw [flatT_one_zero, err_bind']
      · obtain ⟨r, e, hr, -⟩ := flatT_one hx.shape hn
        rw [e, ok_bind', torchStftT, hr]
        simp only [if_pos hc]
        rfl
    rw [ht]
    exact ⟨β, hβ, hi β⟩
  · have hi : ∀ β, stftAll nFft hop w (A β) = .ok fun c k m => rfft (fun j : Fin nFft => w j *
        (if hi : reflectIdx n (nFft / 2) (m * hopOf nFft hop + j) < n then
          A β c ⟨reflectIdx n (nFft / 2) (m * hopOf nFft hop + j), hi⟩ else 0)) nFft k := fun β => by
      unfold stftAll
      simp only [stftForward, if_neg hc]
      rw [seqAll_pure]
      rfl
    simp only [hi]
    refine .of_ok ?_
    obtain ⟨r, e, hr, hv⟩ := flatT_one hx.shape (by omega)
    rw [e, ok_bind', torchStftT, hr]
    simp only [if_neg hc, ok_bind', List.take_succ_cons, List.take_zero, List.cons_append, List.nil_append]
    obtain ⟨X, e, hX, hvX⟩ := reshape_two (s := C :: b) (t := ⟨[stftFrames nFft (hopOf nFft hop) n, nFft / 2 + 1, numel (C :: b)], fun idx =>
      rfft (fun j : Fin nFft => w j * if reflectIdx n (nFft / 2) (idx.getD 0 0 * hopOf nFft hop + j) < n then
        r.val [reflectIdx n (nFft / 2) (idx.getD 0 0 * hopOf nFft hop + j), idx.getD 2 0] else 0) nFft (idx.getD 1 0)⟩) rfl
    refine ⟨X, e, hX, fun β hβ c hc' k hk m hm => ?_⟩
    rw [hvX m k (c :: β) hm hk ⟨hc', hβ⟩]
    simp only [List.getD_cons_zero, List.getD_cons_succ]
    congr 1
    funext j
    split_ifs with hlt
    · rw [hv _ _ hlt, unflat_flat (β := c :: β) (b := C :: b) ⟨hc', hβ⟩, hx.val β hβ c hc' _ hlt]
    · rfl

/-- The value of frame `m`, starting at `m * h`, at position `i`. -/
noncomputable def frameAt (nFft h : ℕ) (v : Fin nFft → ℝ) (m i : ℕ) : ℝ :=
  if hi : m * h ≤ i ∧ i - m * h < nFft then v ⟨i - m * h, hi.2⟩ else 0

open Classical in
theorem torchIstftT_eq (nFft : ℕ) (hop : Option ℕ) (w : Fin nFft → ℝ) {X : Ten ℂ} {rows : ℕ}
    (hX : X.shape = [N, nFft / 2 + 1, rows]) : torchIstftT nFft hop w X =
    if N = 0 ∨ hopOf nFft hop = 0 ∨ nFft < hopOf nFft hop then .error .runtimeError
    else if ∀ i : Fin (istftLen nFft (hopOf nFft hop) N),
        1e-11 < |∑ m : Fin N, frameAt nFft (hopOf nFft hop) (fun j => w j ^ 2) m (nFft / 2 + i)| then
      .ok ⟨[istftLen nFft (hopOf nFft hop) N, rows], fun idx =>
        (∑ m : Fin N, frameAt nFft (hopOf nFft hop) (fun j => w j * irfft (fun q => if q < nFft / 2 + 1 then
          X.val [m, q, idx.getD 1 0] else 0) nFft j) m (nFft / 2 + idx.getD 0 0)) /
        ∑ m : Fin N, frameAt nFft (hopOf nFft hop) (fun j => w j ^ 2) m (nFft / 2 + idx.getD 0 0)⟩
    else .error .runtimeError := by
  unfold torchIstftT
  simp only [hX, Finset.sum_range, ne_eq, not_true_eq_false, false_or]
  by_cases hc : N = 0 ∨ hopOf nFft hop = 0 ∨ nFft < hopOf nFft hop
  · rw [if_pos hc, if_pos hc]
  · rw [if_neg hc, if_neg hc]
    have e : (∀ i, i < istftLen nFft (hopOf nFft hop) N → (1e-11 : ℝ) < |∑ m : Fin N,
        frameAt nFft (hopOf nFft hop) (fun j => w j ^ 2) m (nFft / 2 + i)|) ↔
        ∀ i : Fin (istftLen nFft (hopOf nFft hop) N), (1e-11 : ℝ) < |∑ m : Fin N,
          frameAt nFft (hopOf nFft hop) (fun j => w j ^ 2) m (nFft / 2 + i)| :=
      ⟨fun h i => h i i.2, fun h i hi => h ⟨i, hi⟩⟩
    by_cases hE : ∀ i : Fin (istftLen nFft (hopOf nFft hop) N), (1e-11 : ℝ) < |∑ m : Fin N,
          frameAt nFft (hopOf nFft hop) (fun j => w j ^ 2) m (nFft / 2 + i)|
    · rw [if_pos hE]
      exact if_pos (e.2 hE)
    · rw [if_neg hE]
      exact if_neg fun h => hE (e.1 h)

open Classical in
theorem stftInv_eq (nFft : ℕ) (hop : Option ℕ) (w : Fin nFft → ℝ) (Z : Fin N → ℕ → ℂ) : stftInv nFft hop w Z =
    if N = 0 ∨ hopOf nFft hop = 0 ∨ nFft < hopOf nFft hop then .error .runtimeError
    else if ∀ i : Fin (istftLen nFft (hopOf nFft hop) N),
        1e-11 < |∑ m : Fin N, frameAt nFft (hopOf nFft hop) (fun j => w j ^ 2) m (nFft / 2 + i)| then
      .ok fun i => (∑ m : Fin N, frameAt nFft (hopOf nFft hop) (fun j => w j * irfft (Z m) nFft j) m (nFft / 2 + i)) /
        ∑ m : Fin N, frameAt nFft (hopOf nFft hop) (fun j => w j ^ 2) m (nFft / 2 + i)
    else .error .runtimeError := rfl

theorem istftT_rep (nFft : ℕ) (hop : Option ℕ) (w : Fin nFft → ℝ) {Y : Ten ℂ} {A : List ℕ → Sig S (nFft / 2 + 1) N}
    (hY : Rep3 b S (nFft / 2 + 1) N Y A) (hS : 0 < S) (hb : ∃ β, Inside β b) :
    Batched b (fun t (a : List ℕ → Fin S → Fin (istftLen nFft (hopOf nFft hop) N) → ℝ) => Rep2 b S _ t a)
      (istftT nFft hop w Y) fun β => istftAll nFft hop w (A β) := by
  classical
  unfold istftT
  simp only [hY.shape]
  have herr : ∀ β, (∀ Z : Fin N → ℕ → ℂ, stftInv nFft hop w Z = .error .runtimeError) →
      istftAll nFft hop w (A β) = .error .runtimeError := fun β h => by
    unfold istftAll
    exact seqAll_error' (fun c => .inr (h _)) ⟨0, hS⟩ (h _)
  obtain ⟨β0, hβ0⟩ := hb
  by_cases hc : N = 0 ∨ hopOf nFft hop = 0 ∨ nFft < hopOf nFft hop
  · have hi := herr β0 fun Z => by rw [stftInv_eq, if_pos hc]
    have ht : ((do
        let X ← flatT Y [N, nFft / 2 + 1]
        let x ← torchIstftT nFft hop w X
        x.reshape (x.shape.take 1 ++ S :: b)) : Except Err (Ten ℝ)) = .error .runtimeError := by
      rcases Nat.eq_zero_or_pos N with rfl | hn
      · rw [show flatT Y [0, nFft / 2 + 1] = .error .runtimeError by simp [flatT, reshapeFlat, numel]; rfl, err_bind']
      · obtain ⟨r, e, hr, -⟩ := flatT_two hY.shape hn (Nat.succ_pos _)
        rw [e, ok_bind', torchIstftT_eq nFft hop w hr, if_pos hc, err_bind']
    rw [ht]
    exact ⟨β0, hβ0, hi⟩
  · have hn : 0 < N := by omega
    obtain ⟨r, e, hr, hv⟩ := flatT_two hY.shape hn (Nat.succ_pos _)
    rw [e, ok_bind', torchIstftT_eq nFft hop w hr, if_neg hc]
    by_cases hE : ∀ i : Fin (istftLen nFft (hopOf nFft hop) N), (1e-11 : ℝ) < |∑ m : Fin N,
          frameAt nFft (hopOf nFft hop) (fun j => w j ^ 2) m (nFft / 2 + i)|
    · rw [if_pos hE, ok_bind']
      have hi : ∀ β, istftAll nFft hop w (A β) = .ok fun k i => (∑ m : Fin N, frameAt nFft (hopOf nFft hop)
          (fun j => w j * irfft (fun q => if h : q < nFft / 2 + 1 then A β k ⟨q, h⟩ m else 0) nFft j) m (nFft / 2 + i)) /
          ∑ m : Fin N, frameAt nFft (hopOf nFft hop) (fun j => w j ^ 2) m (nFft / 2 + i) := fun β => by
        unfold istftAll
        simp only [stftInv_eq, if_neg hc, if_pos hE]
        rw [seqAll_pure]
      simp only [hi]
      refine .of_ok ?_
      simp only [List.take_succ_cons, List.take_zero, List.cons_append, List.nil_append]
      obtain ⟨X, e, hX, hvX⟩ := reshape_one (s := S :: b) (n := istftLen nFft (hopOf nFft hop) N)
        (t := ⟨[istftLen nFft (hopOf nFft hop) N, numel (S :: b)], fun idx =>
        (∑ m : Fin N, frameAt nFft (hopOf nFft hop) (fun j => w j * irfft (fun q => if q < nFft / 2 + 1 then
          r.val [m, q, idx.getD 1 0] else 0) nFft j) m (nFft / 2 + idx.getD 0 0)) /
        ∑ m : Fin N, frameAt nFft (hopOf nFft hop) (fun j => w j ^ 2) m (nFft / 2 + idx.getD 0 0)⟩) rfl
      refine ⟨X, e, hX, fun β hβ c hc' i hi => ?_⟩
      rw [hvX i (c :: β) hi ⟨hc', hβ⟩]
      simp only [List.getD_cons_zero, List.getD_cons_succ]
      congr 1
      refine Finset.sum_congr rfl fun m _ => ?_
      congr 1
      funext j
      congr 2
      funext q
      split_ifs with hq
      · rw [hv m q _ m.2 hq, unflat_flat (β := c :: β) (b := S :: b) ⟨hc', hβ⟩, hY.val β hβ c hc' q hq m m.2]
      · rfl
    · rw [if_neg hE, err_bind']
      exact ⟨β0, hβ0, herr β0 fun Z => by rw [stftInv_eq, if_neg hc, if_neg hE]⟩

theorem fixLength_val (y : Fin N → ℝ) (i : ℕ) (hi : i < n) :
    (fixLength (List.ofFn y) n).getD i 0 = if h : i < N then y ⟨i, h⟩ else 0 := by
  unfold fixLength
  rw [List.getD_eq_getElem?_getD, List.length_ofFn]
  rcases lt_trichotomy N n with h | rfl | h
  · rw [if_pos h, List.getElem?_append, List.length_ofFn]
    split_ifs with h3
    · simp [List.getElem?_ofFn, h3]
    · simp [List.getElem?_replicate, show i - N < n - N by omega]
  · rw [if_neg (lt_irrefl _), if_neg (lt_irrefl _)]
    simp [List.getElem?_ofFn, hi]
  · rw [if_neg (by omega), if_pos h]
    simp [List.getElem?_take, List.getElem?_ofFn, hi, show i < N by omega]

theorem fixLengthT_rep (n : ℕ) {y : Ten ℝ} {A : List ℕ → Fin S → Fin N → ℝ} (h : Rep2 b S N y A) :
    ∃ t, fixLengthT n y = .ok t ∧ Rep2 b S n t fun β k i => (fixLength (List.ofFn (A β k)) n).getD i 0 := by
  unfold fixLengthT
  simp only [h.shape]
  split_ifs with h1 h2
  · refine ⟨_, by simp [Ten.cat, catS, h.shape]; rfl, ?_, fun β hβ i hi j hj => ?_⟩
    · simp; omega
    · rw [fixLength_val _ _ hj]
      by_cases h3 : j < N
      · simp [h3, h.val β hβ i hi j h3]
      · simp [h3]
  · refine ⟨_, by simp [Ten.take, onDim, h.shape]; rfl, ?_, fun β hβ i hi j hj => ?_⟩
    · simp; omega
    · rw [fixLength_val _ _ hj, dif_pos (by omega), h.val β hβ i hi j]
  · obtain rfl : N = n := by omega
    refine ⟨_, rfl, h.shape, fun β hβ i hi j hj => ?_⟩
    rw [fixLength_val _ _ hj, dif_pos hj, h.val β hβ i hi j]

/-- The separator treats the items of a batch one by one. -/
theorem separateT_rep (nFft : ℕ) (hop : Option ℕ) (w : Fin nFft → ℝ) {sep : Ten ℂ → Except Err (Ten ℂ)}
    {sep1 : List ℕ → Sig C (nFft / 2 + 1) (stftFrames nFft (hopOf nFft hop) n) →
      Except Err (Sig S (nFft / 2 + 1) (stftFrames nFft (hopOf nFft hop) n))}
    (hsep : ∀ X A, Rep3 b C (nFft / 2 + 1) (stftFrames nFft (hopOf nFft hop) n) X A →
      Batched b (fun t (a : List ℕ → Sig S (nFft / 2 + 1) (stftFrames nFft (hopOf nFft hop) n)) => Rep3 b S _ _ t a)
        (sep X) fun β => sep1 β (A β))
    {x : Ten ℝ} {A : List ℕ → Fin C → Fin n → ℝ} (hx : Rep2 b C n x A) (hC : 0 < C) (hS : 0 < S)
    (hb : ∃ β, Inside β b) :
    Batched b (fun t (a : List ℕ → Fin S → Fin n → ℝ) => Rep2 b S n t a)
      (separateT nFft hop w sep x) fun β => separateRecording nFft hop w (sep1 β) (A β) := by
  unfold separateT separateRecording
  simp only [hx.shape]
  refine (stftT_rep nFft hop w hx hC hb).bind fun X a hX => ?_
  refine (hsep X a hX).bind fun Y a' hY => ?_
  refine (istftT_rep nFft hop w hY hS hb).bind fun y a'' hy => ?_
  exact .of_ok (fixLengthT_rep n hy)

end Torchiva
