import Verif.Model.Examples
import Mathlib.Data.List.Sort
import Mathlib.Analysis.SpecialFunctions.Pow.NNReal
import Mathlib.Tactic.Linarith
import Mathlib.Tactic.Positivity

/-! # C65-C68, C81-C82 training utilities -/

namespace Torchiva.Props

open Torchiva

/-! ## C65 -/

theorem insort_perm (x : ℝ) (l : List ℝ) : (insort x l).Perm (x :: l) := by
  unfold insort
  refine List.perm_middle.trans (List.Perm.cons x ?_)
  rw [List.takeWhile_append_dropWhile]

theorem insort_sorted (x : ℝ) (l : List ℝ) (h : l.Pairwise (· ≤ ·)) :
    (insort x l).Pairwise (· ≤ ·) := by
  induction l with
  | nil => simp [insort]
  | cons a t ih =>
    rw [List.pairwise_cons] at h
    by_cases ha : a ≤ x
    · have e : insort x (a :: t) = a :: insort x t := by simp [insort, ha]
      rw [e, List.pairwise_cons]
      refine ⟨fun b hb => ?_, ih h.2⟩
      rcases List.mem_cons.1 ((insort_perm x t).mem_iff.1 hb) with rfl | hb
      · exact ha
      · exact h.1 b hb
    · have e : insort x (a :: t) = x :: a :: t := by simp [insort, ha]
      push Not at ha
      rw [e, List.pairwise_cons, List.pairwise_cons]
      refine ⟨fun b hb => ?_, h⟩
      rcases List.mem_cons.1 hb with rfl | hb
      · exact ha.le
      · exact ha.le.trans (h.1 b hb)

theorem autoclipCall_history (p : ℚ) (h : List ℝ) (g : List (Option (List ℝ))) :
    (autoclipCall p h g).2.1 = insort (gradNorm g) h := by
  unfold autoclipCall autoclipThreshold
  dsimp only
  split <;> rename_i e <;> rw [Prod.mk.injEq] at e <;> exact e.2.symm

/-- C65: after any sequence of calls the history is sorted and contains each gradient norm seen so far
exactly as often as it occurred. -/
theorem autoclip_history_sorted (p : ℚ) (gs : List (List (Option (List ℝ)))) :
    (autoclipHistory p [] gs).Pairwise (· ≤ ·) ∧
    (autoclipHistory p [] gs).Perm (gs.map gradNorm) := by
  suffices ∀ h : List ℝ, h.Pairwise (· ≤ ·) → (autoclipHistory p h gs).Pairwise (· ≤ ·) ∧
      (autoclipHistory p h gs).Perm (gs.map gradNorm ++ h) by
    simpa using this [] List.Pairwise.nil
  induction gs with
  | nil => exact fun h hs => ⟨hs, by simp [autoclipHistory]⟩
  | cons g t ih =>
    intro h hs
    unfold autoclipHistory
    rw [autoclipCall_history]
    obtain ⟨h1, h2⟩ := ih _ (insort_sorted (gradNorm g) h hs)
    refine ⟨h1, h2.trans ?_⟩
    rw [List.map_cons, List.cons_append]
    exact ((insort_perm _ _).append_left _).trans List.perm_middle

theorem autoclip_index (p : ℚ) (h0 : 0 ≤ p) (h100 : p ≤ 100) (n : ℕ) (hn : 0 < n) :
    (if pyInt (p / 100 * n) = n then pyInt (p / 100 * n) - 1 else pyInt (p / 100 * n)) =
      ((min ⌊p * n / 100⌋₊ (n - 1) : ℕ) : ℤ) := by
  have hnn : (0 : ℚ) ≤ p / 100 * n := by positivity
  have e : p / 100 * n = p * n / 100 := by ring
  have hfl : pyInt (p / 100 * n) = (⌊p * n / 100⌋₊ : ℤ) := by
    unfold pyInt
    rw [if_pos hnn, e, Int.natCast_floor_eq_floor (e ▸ hnn)]
  have hle : ⌊p * n / 100⌋₊ ≤ n := by
    have hq : p * n / 100 ≤ n := by
      rw [div_le_iff₀ (by norm_num), mul_comm]
      have : (0 : ℚ) ≤ n := by positivity
      nlinarith
    exact_mod_cast (Nat.floor_le (e ▸ hnn)).trans hq
  rw [hfl]
  split_ifs with h
  · have : ⌊p * n / 100⌋₊ = n := by exact_mod_cast h
    rw [this]
    omega
  · have : ⌊p * n / 100⌋₊ ≠ n := fun h' => h (by exact_mod_cast h')
    omega

/-- C65: for a percentile between 0 and 100 every call returns, whatever the history, and the threshold
is the element of the sorted history (with the new norm included) at position `floor(p n / 100)`, the
last one if that is `n`. -/
theorem autoclip_threshold (p : ℚ) (h0 : 0 ≤ p) (h100 : p ≤ 100)
    (gs : List (List (Option (List ℝ)))) (g : List (Option (List ℝ))) :
    ∃ (sorted : List ℝ) (thr : ℝ), sorted.Pairwise (· ≤ ·) ∧ sorted.Perm ((gs ++ [g]).map gradNorm) ∧
      (autoclipCall p (autoclipHistory p [] gs) g).1 = .ok (gradNorm g, thr) ∧
      sorted[min ⌊p * (gs.length + 1 : ℕ) / 100⌋₊ gs.length]? = some thr := by
  obtain ⟨hs, hp⟩ := autoclip_history_sorted p gs
  generalize autoclipHistory p [] gs = h at hs hp
  have hp' : (insort (gradNorm g) h).Perm ((gs ++ [g]).map gradNorm) := by
    refine (insort_perm _ _).trans ?_
    rw [List.map_append]
    exact (hp.cons _).trans (List.perm_append_singleton _ _).symm
  have hlen : (insort (gradNorm g) h).length = gs.length + 1 := by
    rw [hp'.length_eq]; simp
  have hlt : min ⌊p * (gs.length + 1 : ℕ) / 100⌋₊ gs.length < (insort (gradNorm g) h).length := by
    rw [hlen]; omega
  refine ⟨insort (gradNorm g) h, (insort (gradNorm g) h)[min ⌊p * (gs.length + 1 : ℕ) / 100⌋₊ gs.length],
    insort_sorted _ _ hs, hp', ?_, List.getElem?_eq_getElem hlt⟩
  have hidx := autoclip_index p h0 h100 (gs.length + 1) (by omega)
  rw [Nat.add_sub_cancel] at hidx
  unfold autoclipCall autoclipThreshold
  dsimp only
  rw [hlen]
  have : pyIndex (insort (gradNorm g) h) (if pyInt (p / 100 * ((gs.length + 1 : ℕ) : ℚ)) =
      ((gs.length + 1 : ℕ) : ℤ) then pyInt (p / 100 * ((gs.length + 1 : ℕ) : ℚ)) - 1
      else pyInt (p / 100 * ((gs.length + 1 : ℕ) : ℚ))) =
      .ok ((insort (gradNorm g) h)[min ⌊p * (gs.length + 1 : ℕ) / 100⌋₊ gs.length]) := by
    rw [hidx]
    unfold pyIndex
    rw [if_pos (by omega), Int.toNat_natCast, List.getElem?_eq_getElem hlt]
  rw [this]

/-- C65: what the threshold means: more than `floor(p n / 100)` of the norms (all of them for `p = 100`) do
not exceed it, and at most `floor(p n / 100)` are smaller. -/
theorem autoclip_percentile (sorted : List ℝ) (hs : sorted.Pairwise (· ≤ ·)) (k : ℕ) (thr : ℝ)
    (hk : sorted[k]? = some thr) :
    k + 1 ≤ sorted.countP (· ≤ thr) ∧ sorted.countP (· < thr) ≤ k := by
  obtain ⟨hlt, he⟩ := List.getElem?_eq_some_iff.1 hk
  have hsplit : sorted = sorted.take (k + 1) ++ sorted.drop (k + 1) := (List.take_append_drop _ _).symm
  have hsplit2 : sorted = sorted.take k ++ sorted.drop k := (List.take_append_drop _ _).symm
  have hget : ∀ i j (hi : i < sorted.length) (hj : j < sorted.length), i ≤ j → sorted[i] ≤ sorted[j] := by
    intro i j hi hj hij
    rcases hij.eq_or_lt with rfl | hij
    · exact le_rfl
    · exact List.pairwise_iff_getElem.1 hs i j hi hj hij
  constructor
  · rw [hsplit, List.countP_append]
    have : (sorted.take (k + 1)).countP (· ≤ thr) = k + 1 := by
      rw [List.countP_eq_length.2, List.length_take]
      · omega
      · intro a ha
        obtain ⟨i, hi, rfl⟩ := List.getElem_of_mem ha
        rw [List.length_take] at hi
        rw [List.getElem_take, ← he]
        simpa using hget i k (by omega) hlt (by omega)
    omega
  · rw [hsplit2, List.countP_append]
    have : (sorted.drop k).countP (· < thr) = 0 := by
      rw [List.countP_eq_zero]
      intro a ha
      obtain ⟨i, hi, rfl⟩ := List.getElem_of_mem ha
      rw [List.length_drop] at hi
      rw [List.getElem_drop, ← he]
      simpa using hget k (k + i) hlt (by omega) (by omega)
    have h2 : (sorted.take k).countP (· < thr) ≤ k :=
      List.countP_le_length.trans (by rw [List.length_take]; omega)
    omega

/-- Norms 1, 2, 2, 5 and the entry of rank 2: three norms do not exceed it and one is smaller. -/
example : ([1, 2, 2, 5] : List ℝ).Pairwise (· ≤ ·) ∧ ([1, 2, 2, 5] : List ℝ)[2]? = some 2 ∧
    ([1, 2, 2, 5] : List ℝ).countP (· ≤ 2) = 3 ∧ ([1, 2, 2, 5] : List ℝ).countP (· < 2) = 1 := by
  refine ⟨by norm_num, rfl, ?_, ?_⟩ <;> norm_num [List.countP_cons]

/-- The gradient norm is the Euclidean norm of all gradients together; missing gradients count as
zero. -/
theorem gradNorm_eq (grads : List (Option (List ℝ))) :
    gradNorm grads = Real.sqrt (((grads.map fun g => g.getD []).flatten.map (· ^ 2)).sum) := by
  unfold gradNorm
  congr 1
  have hsq : ∀ g : List ℝ, Real.sqrt ((g.map (· ^ 2)).sum) ^ 2 = (g.map (· ^ 2)).sum := fun g =>
    Real.sq_sqrt (List.sum_nonneg (by
      intro x hx
      obtain ⟨y, -, rfl⟩ := List.mem_map.1 hx
      positivity))
  simp only [hsq]
  induction grads with
  | nil => rfl
  | cons g t ih =>
    cases g with
    | none => simpa using ih
    | some v => simp only [List.filterMap_cons, id, List.map_cons, List.sum_cons, List.flatten_cons,
        List.map_append, List.sum_append, Option.getD_some]; exact congrArg _ ih

/-- C65: after the call, the norm of the gradient does not exceed the threshold, and every gradient is
the old one multiplied by `min(1, threshold / (norm + 1e-6))`: it is unchanged if the norm is well below the
threshold, and keeps its direction otherwise.  The norm reported is that of the gradient before clipping. -/
theorem autoclip_clips (p : ℚ) (h : List ℝ) (grads : List (Option (List ℝ))) (g c : ℝ)
    (hc : (autoclipCall p h grads).1 = .ok (g, c)) (hc0 : 0 ≤ c) :
    g = gradNorm grads ∧ gradNorm (autoclipCall p h grads).2.2 ≤ c ∧
    (autoclipCall p h grads).2.2 =
      grads.map fun v => v.map fun v => v.map fun x => x * min 1 (c / (g + 1e-6)) := by
  have hg : g = gradNorm grads := by
    unfold autoclipCall at hc
    dsimp only at hc
    rcases e : autoclipThreshold p h (gradNorm grads) with ⟨r, h'⟩
    rw [e] at hc
    cases r with
    | error _ => cases hc
    | ok c' => exact (congrArg Prod.fst (Except.ok.inj hc)).symm
  have e : (autoclipCall p h grads).2.2 = clipGradNorm c grads := by
    unfold autoclipCall at hc ⊢
    dsimp only at hc ⊢
    rcases e : autoclipThreshold p h (gradNorm grads) with ⟨r, h'⟩
    rw [e] at hc
    cases r with
    | error _ => cases hc
    | ok c' =>
      dsimp only at hc ⊢
      have := Except.ok.inj hc
      rw [Prod.mk.injEq] at this
      rw [this.2]
  rw [e]
  unfold clipGradNorm
  dsimp only
  set G := gradNorm grads with hG
  have hG0 : 0 ≤ G := by rw [hG]; exact Real.sqrt_nonneg _
  set k := min 1 (c / (G + 1e-6)) with hk
  have hk0 : 0 ≤ k := le_min zero_le_one (by positivity)
  have hk1 : k ≤ 1 := min_le_left _ _
  refine ⟨hg, ?_, by rw [hg]⟩
  have hscale : gradNorm (grads.map fun g => g.map fun v => v.map fun x => x * k) = G * k := by
    rw [hG, gradNorm_eq, gradNorm_eq]
    have : (((grads.map fun g => g.map fun v => v.map fun x => x * k).map fun g => g.getD []).flatten.map
        (· ^ 2)).sum = ((grads.map fun g => g.getD []).flatten.map (· ^ 2)).sum * k ^ 2 := by
      clear_value k G
      clear hG e hc hk
      induction grads with
      | nil => simp
      | cons g t ih =>
        simp only [List.map_cons, List.flatten_cons, List.map_append, List.sum_append, add_mul]
        rw [ih]
        congr 1
        cases g with
        | none => simp
        | some v =>
          simp only [Option.map_some, Option.getD_some, List.map_map]
          rw [← List.sum_map_mul_right]
          congr 1
          refine List.map_congr_left fun x _ => ?_
          simp [mul_pow]
    rw [this, Real.sqrt_mul' _ (by positivity), Real.sqrt_sq hk0]
  rw [hscale]
  have hd : (0 : ℝ) < G + 1e-6 := by positivity
  calc G * k ≤ G * (c / (G + 1e-6)) := by gcongr; exact min_le_right _ _
    _ = c * (G / (G + 1e-6)) := by ring
    _ ≤ c * 1 := by
      gcongr
      rw [div_le_one hd]
      norm_num
    _ = c := mul_one c

example : ∃ (sorted : List ℝ) (thr : ℝ), sorted.Pairwise (· ≤ ·) ∧ sorted.Perm [gradNorm [some [3, 4]], gradNorm [none]] ∧
    (autoclipCall 50 (autoclipHistory 50 [] [[some [3, 4]]]) [none]).1 = .ok (gradNorm [none], thr) ∧
    sorted[min ⌊(50 : ℚ) * (1 + 1 : ℕ) / 100⌋₊ 1]? = some thr :=
  autoclip_threshold 50 (by norm_num) (by norm_num) [[some [3, 4]]] [none]

/-! ## C66 -/

variable {B : Type}

/-- Round robin: first batches of all loaders, second batches of all loaders, ..., skipping loaders that
are exhausted. -/
def Spec.roundRobin (loaders : List (List B)) : List B :=
  (List.range (loaders.map List.length).sum).flatMap fun r => loaders.filterMap (·[r]?)

theorem nextBatch_rot (s l : List (List B)) : nextBatch ([[]] ++ s) l = nextBatch s (l ++ [[]]) := by
  induction l generalizing s with
  | nil => rfl
  | cons a r ih =>
    cases a with
    | nil => exact ih (s ++ [[]])
    | cons b t => simp [nextBatch]

theorem interleavedCalls_rot (fresh l : List (List B)) (n : ℕ) :
    interleavedCalls fresh (n + 1) ([] :: l) = interleavedCalls fresh (n + 1) (l ++ [[]]) := by
  have : interleavedNext fresh ([] :: l) = interleavedNext fresh (l ++ [[]]) := by
    unfold interleavedNext
    have h := nextBatch_rot [] l
    rw [← h]
    rfl
  unfold interleavedCalls
  rw [this]

theorem interleaved_round (fresh rest done : List (List B)) (n : ℕ) :
    interleavedCalls fresh ((rest.filterMap List.head?).length + (n + 1)) (rest ++ done) =
      ((rest.filterMap List.head?).map some ++
        (interleavedCalls fresh (n + 1) (done ++ rest.map List.tail)).1,
        (interleavedCalls fresh (n + 1) (done ++ rest.map List.tail)).2) := by
  induction rest generalizing done with
  | nil => simp
  | cons a r ih =>
    cases a with
    | nil =>
      have h := ih (done ++ [[]])
      simp only [List.filterMap_cons, List.head?_nil, List.cons_append, List.map_cons, List.tail_nil]
      rw [← add_assoc, interleavedCalls_rot, add_assoc, List.append_assoc, h]
      simp
    | cons b t =>
      have h := ih (done ++ [t])
      simp only [List.filterMap_cons, List.head?_cons, List.cons_append, List.map_cons,
        List.tail_cons, List.length_cons]
      rw [show (List.filterMap List.head? r).length + 1 + (n + 1) =
        ((List.filterMap List.head? r).length + (n + 1)) + 1 by omega]
      conv_lhs => unfold interleavedCalls
      have e : interleavedNext fresh ((b :: t) :: (r ++ done)) = (some b, r ++ (done ++ [t])) := by
        simp [interleavedNext, nextBatch]
      rw [e]
      dsimp only
      rw [h]
      simp

theorem nextBatch_empty (s l : List (List B)) (h : ∀ a ∈ l, a = []) : nextBatch s l = none := by
  induction l generalizing s with
  | nil => rfl
  | cons a r ih =>
    obtain rfl := h a (by simp)
    exact ih _ fun b hb => h b (List.mem_cons_of_mem _ hb)

theorem roundRobin_step (n : ℕ) (ls : List (List B)) :
    ((List.range (n + 1)).flatMap fun r => ls.filterMap (·[r]?)) =
      ls.filterMap List.head? ++
        (List.range n).flatMap fun r => (ls.map List.tail).filterMap (·[r]?) := by
  rw [List.range_succ_eq_map, List.flatMap_cons, List.flatMap_map]
  congr 1
  · congr 1
    funext l
    exact List.head?_eq_getElem?.symm
  · congr 1
    funext r
    rw [List.filterMap_map]
    congr 1
    funext l
    cases l <;> simp

theorem total_step (ls : List (List B)) : (ls.map List.length).sum =
    (ls.filterMap List.head?).length + ((ls.map List.tail).map List.length).sum := by
  induction ls with
  | nil => rfl
  | cons a r ih =>
    cases a with
    | nil => simpa [List.filterMap_cons] using ih
    | cons b t =>
      simp only [List.map_cons, List.sum_cons, List.length_cons, List.filterMap_cons, List.head?_cons,
        List.tail_cons]
      omega

theorem interleaved_aux (fresh : List (List B)) (n : ℕ) (ls : List (List B)) (h : ∀ l ∈ ls, l.length ≤ n) :
    interleavedCalls fresh ((ls.map List.length).sum + 1) ls =
      (((List.range n).flatMap fun r => ls.filterMap (·[r]?)).map some ++ [none], fresh) := by
  induction n generalizing ls with
  | zero =>
    have he : ∀ a ∈ ls, a = [] := fun a ha => List.length_eq_zero_iff.1 (Nat.le_zero.1 (h a ha))
    have hs : (ls.map List.length).sum = 0 := by
      rw [List.sum_eq_zero]
      intro x hx
      obtain ⟨a, ha, rfl⟩ := List.mem_map.1 hx
      rw [he a ha]
      rfl
    rw [hs]
    simp [interleavedCalls, interleavedNext, nextBatch_empty [] ls he]
  | succ n ih =>
    have h' : ∀ l ∈ ls.map List.tail, l.length ≤ n := by
      intro l hl
      obtain ⟨a, ha, rfl⟩ := List.mem_map.1 hl
      have := h a ha
      rw [List.length_tail]
      omega
    have hr := interleaved_round fresh ls [] (((ls.map List.tail).map List.length).sum)
    rw [List.append_nil, List.nil_append, ih _ h', ← add_assoc, ← total_step] at hr
    rw [hr, roundRobin_step, List.map_append, List.append_assoc]

/-- C66: starting from fresh iterators, the first `len()` calls of `next` return the batches of all
loaders in round-robin order, the following one raises `StopIteration`, and then the object is back at
fresh iterators, ready for another epoch (whose order may differ: `fresh` is arbitrary). -/
theorem interleaved_epoch (fresh loaders : List (List B)) :
    interleavedCalls fresh (interleavedLen loaders + 1) loaders =
      ((Spec.roundRobin loaders).map some ++ [none], fresh) :=
  interleaved_aux fresh _ loaders fun _ hl => List.le_sum_of_mem (List.mem_map_of_mem hl)

/-- C66: every batch of every loader occurs exactly once. -/
theorem roundRobin_perm (loaders : List (List B)) :
    (Spec.roundRobin loaders).Perm loaders.flatten := by
  suffices ∀ (n : ℕ) (ls : List (List B)), (∀ l ∈ ls, l.length ≤ n) →
      ((List.range n).flatMap fun r => ls.filterMap (·[r]?)).Perm ls.flatten from
    this _ loaders fun _ hl => List.le_sum_of_mem (List.mem_map_of_mem hl)
  intro n
  induction n with
  | zero =>
    intro ls h
    have : ls.flatten = [] := List.flatten_eq_nil_iff.2 fun a ha =>
      List.length_eq_zero_iff.1 (Nat.le_zero.1 (h a ha))
    rw [this]
    simp
  | succ n ih =>
    intro ls h
    rw [roundRobin_step]
    have h' : ∀ l ∈ ls.map List.tail, l.length ≤ n := by
      intro l hl
      obtain ⟨a, ha, rfl⟩ := List.mem_map.1 hl
      have := h a ha
      rw [List.length_tail]
      omega
    refine ((ih _ h').append_left _).trans ?_
    clear ih h h'
    induction ls with
    | nil => simp
    | cons a r ih =>
      cases a with
      | nil => simpa [List.filterMap_cons] using ih
      | cons b t =>
        simp only [List.filterMap_cons, List.head?_cons, List.map_cons, List.tail_cons,
          List.flatten_cons, List.cons_append]
        refine List.Perm.cons b ?_
        refine List.Perm.trans ?_ (ih.append_left t)
        rw [← List.append_assoc, ← List.append_assoc]
        exact List.perm_append_comm.append_right _

/-- C66: the batches of each loader come in that loader's order. -/
theorem roundRobin_sublist (loaders : List (List B)) (l : List B) (hl : l ∈ loaders) :
    l.Sublist (Spec.roundRobin loaders) := by
  suffices ∀ (n : ℕ) (ls : List (List B)), (∀ l ∈ ls, l.length ≤ n) → ∀ l ∈ ls,
      l.Sublist ((List.range n).flatMap fun r => ls.filterMap (·[r]?)) from
    this _ loaders (fun _ hl => List.le_sum_of_mem (List.mem_map_of_mem hl)) l hl
  intro n
  induction n with
  | zero =>
    intro ls h l hl
    rw [List.length_eq_zero_iff.1 (Nat.le_zero.1 (h l hl))]
    exact List.nil_sublist _
  | succ n ih =>
    intro ls h l hl
    rw [roundRobin_step]
    have h' : ∀ l ∈ ls.map List.tail, l.length ≤ n := by
      intro l hl
      obtain ⟨a, ha, rfl⟩ := List.mem_map.1 hl
      have := h a ha
      rw [List.length_tail]
      omega
    cases l with
    | nil => exact List.nil_sublist _
    | cons b t =>
      have h1 : [b].Sublist (ls.filterMap List.head?) :=
        List.singleton_sublist.2 (List.mem_filterMap.2 ⟨_, hl, rfl⟩)
      have h2 := ih _ h' t (List.mem_map.2 ⟨_, hl, rfl⟩)
      exact h1.append h2

example : Spec.roundRobin [[1, 2, 3], [10], [20, 21]] = [1, 10, 20, 2, 21, 3] := by decide
example : (interleavedCalls [] (interleavedLen [[1, 2, 3], [10], [20, 21]] + 1) [[1, 2, 3], [10], [20, 21]]).1 =
    [some 1, some 10, some 20, some 2, some 21, some 3, none] := by rw [interleaved_epoch]; decide

/-! ## C67 -/

/-- A signal placed at an offset in `total` zeros. -/
def Spec.placed (total o : ℕ) (d : List ℝ) : List ℝ :=
  List.ofFn fun i : Fin total => if o ≤ i.1 then d[i.1 - o]?.getD 0 else 0

theorem assignSlice_ok (total o : ℕ) (d : List ℝ) (h : o + d.length ≤ total) :
    assignSlice (List.replicate total 0) o d = .ok (Spec.placed total o d) := by
  unfold assignSlice
  rw [List.length_replicate, if_pos h]
  congr 1
  refine List.ext_getElem? fun i => ?_
  unfold Spec.placed
  rw [List.getElem?_ofFn, List.append_assoc, List.getElem?_append, List.take_replicate, List.length_replicate,
    List.getElem?_append, List.getElem?_replicate, List.drop_replicate, List.getElem?_replicate]
  by_cases hi : i < total
  · rw [dif_pos hi]
    dsimp only
    by_cases h1 : o ≤ i
    · rw [if_neg (by omega), if_pos h1]
      have e : i - min o total = i - o := by omega
      rw [e]
      by_cases h2 : i - o < d.length
      · rw [if_pos h2, List.getElem?_eq_getElem h2]
        rfl
      · rw [if_neg h2, List.getElem?_eq_none (by omega), if_pos (by omega)]
        rfl
    · rw [if_pos (by omega), if_pos (by omega), if_neg h1]
  · rw [dif_neg hi, if_neg (by omega), if_neg (by omega), if_neg (by omega)]

theorem mapM_ok {α β : Type} (f : α → Except Err β) (g : α → β) (l : List α) (h : ∀ x ∈ l, f x = .ok (g x)) :
    l.mapM f = .ok (l.map g) := by
  induction l with
  | nil => rfl
  | cons a t ih =>
    rw [List.mapM_cons, h a (by simp), ih fun x hx => h x (List.mem_cons_of_mem _ hx)]
    rfl

/-- C67: for every non-empty batch whose items have the same numbers of channels and whose references are
as long as their mixtures, `collator` returns, and each mixture and its reference appear unchanged, at
the same offset, in the middle of zeros up to the longest length. -/
theorem collate_spec (batch : List Item) (first : Item) (hf : batch.head? = some first)
    (hmix : ∀ s ∈ batch, s.mix.length = first.mix.length ∧ ∀ c ∈ s.mix, c.length = s.mixLen)
    (href : ∀ s ∈ batch, s.ref.length = first.ref.length ∧ ∀ c ∈ s.ref, c.length = s.mixLen) :
    ∃ maxLen, (∀ s ∈ batch, s.mixLen ≤ maxLen) ∧ (∃ s ∈ batch, s.mixLen = maxLen) ∧
      collate batch = .ok
        (batch.map fun s => s.mix.map (Spec.placed maxLen ((maxLen - s.mixLen) / 2)),
         batch.map fun s => s.ref.map (Spec.placed maxLen ((maxLen - s.mixLen) / 2))) := by
  have hne : batch.map (·.mixLen) ≠ [] := by
    intro h
    rw [List.map_eq_nil_iff.1 h] at hf
    cases hf
  obtain ⟨maxLen, hm⟩ := Option.ne_none_iff_exists'.1 (mt List.max?_eq_none_iff.1 hne)
  have hm' := List.max?_eq_some_iff.1 hm
  have hle : ∀ s ∈ batch, s.mixLen ≤ maxLen := fun s hs => hm'.2 _ (List.mem_map_of_mem hs)
  obtain ⟨s0, hs0, he0⟩ := List.mem_map.1 hm'.1
  refine ⟨maxLen, hle, ⟨s0, hs0, he0⟩, ?_⟩
  have key : ∀ (proj : Item → List (List ℝ)), (∀ s ∈ batch, (proj s).length = (proj first).length ∧
      ∀ c ∈ proj s, c.length = s.mixLen) →
      (batch.mapM fun s => assignItem (proj first).length maxLen ((maxLen - s.mixLen) / 2) (proj s)) =
      .ok (batch.map fun s => (proj s).map (Spec.placed maxLen ((maxLen - s.mixLen) / 2))) := by
    intro proj hp
    refine mapM_ok _ _ _ fun s hs => ?_
    unfold assignItem
    rw [if_pos (hp s hs).1]
    refine mapM_ok _ _ _ fun c hc => assignSlice_ok _ _ _ ?_
    have := hle s hs
    rw [(hp s hs).2 c hc]
    omega
  unfold collate
  rw [hm, hf]
  dsimp only
  rw [key (·.mix) hmix, key (·.ref) href]
  rfl

/-- C67: the left and right padding differ by at most one sample. -/
theorem collate_centred (maxLen len : ℕ) (h : len ≤ maxLen) :
    let o := (maxLen - len) / 2
    o ≤ maxLen - len - o ∧ maxLen - len - o ≤ o + 1 := by
  dsimp only
  omega

/-- A signal of 3 samples in a batch of length 8: two zeros before, three after. -/
example : (3 : ℕ) ≤ 8 ∧ (8 - 3) / 2 = 2 ∧ 8 - 3 - (8 - 3) / 2 = 3 := by norm_num

/-- C67: what "placed" means sample by sample. -/
theorem placed_spec (total o : ℕ) (d : List ℝ) (i : ℕ) (hi : i < total) :
    (Spec.placed total o d)[i]? = some (if o ≤ i then d[i - o]?.getD 0 else 0) ∧
    (Spec.placed total o d).length = total := by
  refine ⟨?_, by simp [Spec.placed]⟩
  unfold Spec.placed
  rw [List.getElem?_ofFn, dif_pos hi]

/-- Two samples placed at offset 1 among four. -/
example : (Spec.placed 4 1 [5, 6])[2]? = some 6 ∧ (Spec.placed 4 1 [5, 6])[3]? = some 0 := by
  constructor
  · rw [(placed_spec 4 1 [5, 6] 2 (by norm_num)).1]; norm_num
  · rw [(placed_spec 4 1 [5, 6] 3 (by norm_num)).1]; norm_num

/-- C67, boundary: an item with a different number of channels raises `RuntimeError`. -/
theorem collate_channel_mismatch (chans maxLen o : ℕ) (d : List (List ℝ)) (h : d.length ≠ chans) :
    assignItem chans maxLen o d = .error .runtimeError := by
  unfold assignItem
  rw [if_neg h]

example : ∃ r, collate [⟨[[1, 2, 3]], [[4, 5, 6]], 3, 3⟩, ⟨[[7]], [[8]], 1, 1⟩] = .ok r := by
  obtain ⟨m, -, -, h⟩ := collate_spec [⟨[[1, 2, 3]], [[4, 5, 6]], 3, 3⟩, ⟨[[7]], [[8]], 1, 1⟩] _ rfl
    (by simp) (by simp)
  exact ⟨_, h⟩

/-! ## C68, C81 -/

theorem computeInterval_cases (nT nM : ℤ) (srcs : List (ℤ × ℤ)) (hs : srcs ≠ []) (hT : 0 ≤ nT) :
    ∃ left right, (∃ s ∈ srcs, s.1 = left) ∧ (∀ s ∈ srcs, s.1 ≤ left) ∧
      (∃ s ∈ srcs, s.1 + s.2 = right) ∧ (∀ s ∈ srcs, right ≤ s.1 + s.2) ∧
      computeInterval nT nM srcs = .ok (if nT ≥ nM then (0, nM) else
        if left + right - 2 * (nT / 2) < 0 then (0, nT)
        else if left + right - 2 * (nT / 2) + 2 * nT ≥ 2 * nM then (nM - nT, nM)
        else ((left + right - 2 * (nT / 2)) / 2, (left + right - 2 * (nT / 2) + 2 * nT) / 2)) := by
  obtain ⟨left, hl⟩ := Option.ne_none_iff_exists'.1
    (mt List.max?_eq_none_iff.1 (mt List.map_eq_nil_iff.1 hs : srcs.map Prod.fst ≠ []))
  obtain ⟨right, hr⟩ := Option.ne_none_iff_exists'.1
    (mt List.min?_eq_none_iff.1 (mt List.map_eq_nil_iff.1 hs : (srcs.map fun s => s.1 + s.2) ≠ []))
  have hl' := List.max?_eq_some_iff.1 hl
  have hr' := List.min?_eq_some_iff.1 hr
  refine ⟨left, right, List.mem_map.1 hl'.1, fun s hs => hl'.2 _ (List.mem_map_of_mem hs),
    List.mem_map.1 hr'.1, fun s hs => hr'.2 _ (List.mem_map.2 ⟨s, hs, rfl⟩), ?_⟩
  unfold computeInterval
  rw [hl, hr]
  dsimp only
  by_cases h1 : nT ≥ nM
  · rw [if_pos h1, if_pos h1]
  rw [if_neg h1, if_neg h1]
  by_cases h2 : left + right - 2 * (nT / 2) < 0
  · rw [if_pos h2, if_pos h2]
  rw [if_neg h2, if_neg h2]
  by_cases h3 : left + right - 2 * (nT / 2) + 2 * nT ≥ 2 * nM
  · rw [if_pos h3, if_pos h3]
  rw [if_neg h3, if_neg h3]
  rw [Int.tdiv_eq_ediv_of_nonneg (by omega), Int.tdiv_eq_ediv_of_nonneg (by omega)]

/-- C68: for every non-empty list of sources, the interval lies inside the mixture and has
`min n_target n_mix` samples. -/
theorem compute_interval_inside (nT nM : ℤ) (hT : 0 ≤ nT) (hM : 0 ≤ nM) (srcs : List (ℤ × ℤ))
    (hs : srcs ≠ []) :
    ∃ s e, computeInterval nT nM srcs = .ok (s, e) ∧ 0 ≤ s ∧ e ≤ nM ∧ e - s = min nT nM := by
  obtain ⟨left, right, -, -, -, -, h⟩ := computeInterval_cases nT nM srcs hs hT
  split_ifs at h <;> exact ⟨_, _, h, by omega, by omega, by omega⟩

/-- C68, boundary: without sources the call raises, unless the whole mixture is taken. -/
theorem compute_interval_no_sources (nT nM : ℤ) :
    computeInterval nT nM [] = if nT ≥ nM then .ok (0, nM) else .error .valueError := rfl

/-- C81: call a sample fully active if every source is active there.  Either the interval contains every
fully active sample, or every sample of the interval is fully active. -/
theorem compute_interval_overlap (nT nM : ℤ) (hT : 0 ≤ nT) (srcs : List (ℤ × ℤ))
    (hs : srcs ≠ []) (hin : ∀ s ∈ srcs, 0 ≤ s.1 ∧ s.1 + s.2 ≤ nM) :
    ∃ s e, computeInterval nT nM srcs = .ok (s, e) ∧
      ((∀ t, (∀ c ∈ srcs, c.1 ≤ t ∧ t < c.1 + c.2) → s ≤ t ∧ t < e) ∨
       (∀ t, s ≤ t ∧ t < e → ∀ c ∈ srcs, c.1 ≤ t ∧ t < c.1 + c.2)) := by
  obtain ⟨left, right, ⟨sl, hsl, hsl'⟩, hl, ⟨sr, hsr, hsr'⟩, hr, h⟩ := computeInterval_cases nT nM srcs hs hT
  have h1 := hin sl hsl
  have h2 := hin sr hsr
  by_cases hc : right - left ≤ nT
  · split_ifs at h <;> refine ⟨_, _, h, Or.inl fun t ht => ?_⟩ <;>
    · have h3 := ht sl hsl
      have h4 := ht sr hsr
      omega
  · split_ifs at h <;> refine ⟨_, _, h, Or.inr fun t ht c hcm => ?_⟩ <;>
    · have h3 := hl c hcm
      have h4 := hr c hcm
      omega

example : computeInterval 5 20 [(2, 10), (7, 8)] = .ok (7, 12) := by decide
example : ∃ s e, computeInterval 5 20 [(2, 10), (7, 8)] = .ok (s, e) ∧ 0 ≤ s ∧ e ≤ 20 ∧ e - s = min 5 20 :=
  compute_interval_inside 5 20 (by norm_num) (by norm_num) _ (by simp)

/-! ## C82 -/

/-- C82: for every non-empty list of epochs whose checkpoints exist, each entry of the ensemble is the
average of that entry over the epochs. -/
theorem ensemble_average {K : Type} (load : ℕ → Except Err (K → ℝ)) (st : ℕ → K → ℝ) (e : ℕ) (es : List ℕ)
    (h : ∀ x ∈ e :: es, load x = .ok (st x)) :
    ∃ r, ensembleState load (e :: es) = .ok r ∧
      ∀ k, r k = ((e :: es).map fun x => st x k).sum / ((e :: es).length : ℝ) := by
  have hfold : ∀ (l : List ℕ) (acc : K → ℝ), (∀ x ∈ l, load x = .ok (st x)) →
      (l.foldlM (fun acc e' => do
        let s' ← load e'
        pure fun k => acc k + s' k) acc : Except Err (K → ℝ)) =
      .ok fun k => acc k + (l.map fun x => st x k).sum := by
    intro l
    induction l with
    | nil => intro acc _; simp [List.foldlM, pure, Except.pure]
    | cons a t ih =>
      intro acc ha
      rw [List.foldlM_cons, ha a (by simp)]
      refine (ih _ fun x hx => ha x (List.mem_cons_of_mem _ hx)).trans ?_
      congr 1
      funext k
      simp [add_assoc]
  unfold ensembleState
  dsimp only
  rw [h e (by simp)]
  refine ⟨fun k => (st e k + (es.map fun x => st x k).sum) / ((e :: es).length : ℝ), ?_, fun k => by simp⟩
  refine (congrArg (fun z => z >>= fun s => Except.ok fun k => s k / ((e :: es).length : ℝ))
    (hfold es (st e) fun x hx => h x (List.mem_cons_of_mem _ hx)))

/-- C82: no epochs, or a missing first checkpoint, is an error. -/
theorem ensemble_empty {K : Type} (load : ℕ → Except Err (K → ℝ)) :
    ensembleState load [] = .error .unboundLocalError := rfl

example : ∃ r, ensembleState (K := Unit) (fun n => .ok fun _ => n) [1, 3] = .ok r ∧ r () = 2 := by
  obtain ⟨r, h1, h2⟩ := ensemble_average (K := Unit) (fun n => .ok fun _ => n) (fun n _ => n) 1 [3]
    (fun _ _ => rfl)
  refine ⟨r, h1, ?_⟩
  rw [h2]
  norm_num

end Torchiva.Props
