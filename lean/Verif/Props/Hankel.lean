import Verif.Model.Hankel
import Mathlib.Data.List.GetD

/-!
# Properties C08, C09: Hankel view and delayed taps
-/

namespace Torchiva.Props

open Torchiva

variable {α : Type}

/-- The view does not read outside its storage: it is empty or its largest address is inside. -/
def WellFormed (v : View α) : Prop :=
  v.size.length = v.stride.length ∧
    ∀ idx, List.Forall₂ (· < ·) idx v.size → v.addr idx < v.storage.length

private lemma zip_sum_append {f : ℕ → ℕ → ℕ} (a b c d : List ℕ) (h : a.length = b.length) :
    (List.zipWith f (a ++ c) (b ++ d)).sum = (List.zipWith f a b).sum + (List.zipWith f c d).sum := by
  rw [List.zipWith_append h, List.sum_append]

private lemma zip_pred (size stride : List ℕ) :
    (List.zipWith (fun n s => (n - 1) * s) size stride).sum
      = (List.zipWith (· * ·) (size.map (· - 1)) stride).sum := by
  rw [List.zipWith_map_left]

/-- **C08.** For every well-formed strided view whose last dimension has length `len`, and every
`0 ≤ n_rows ≤ len + 1`, `hankel_view` succeeds, yields shape `(..., n_rows, len - n_rows + 1)`, never reads
outside the storage, and its entry `(..., i, j)` is entry `(..., i + j)` of the input. -/
theorem hankel_view_correct (v : View α) (batch : List ℕ) (len : ℕ) (hs : v.size = batch ++ [len])
    (hv : WellFormed v) (nRows : ℕ) (hr : nRows ≤ len + 1) :
    ∃ h, hankelView v nRows = .ok h ∧ h.size = batch ++ [nRows, len + 1 - nRows] ∧
      WellFormed h ∧
      ∀ bidx i j, List.Forall₂ (· < ·) bidx batch → i < nRows →
        j < len + 1 - nRows → h.get (bidx ++ [i, j]) = v.get (bidx ++ [i + j]) ∧
          (h.get (bidx ++ [i, j])).isSome := by
  obtain ⟨hlen, hin⟩ := hv
  -- decompose the strides
  have hne : v.stride ≠ [] := by
    intro h; rw [h, hs] at hlen; simp at hlen
  obtain ⟨bs, st, hst⟩ : ∃ bs st, v.stride = bs ++ [st] :=
    ⟨v.stride.dropLast, v.stride.getLast hne, (List.dropLast_append_getLast hne).symm⟩
  have hbl : batch.length = bs.length := by
    rw [hs, hst] at hlen; simpa using hlen
  set nCols : ℕ := len + 1 - nRows with hnc
  have hnc' : (len : ℤ) - nRows + 1 = (nCols : ℤ) := by
    omega
  have hnc0 : nCols + nRows = len + 1 := by omega
  have haddr : ∀ (bidx : List ℕ) (i j : ℕ), bidx.length = batch.length →
      (⟨v.storage, v.offset, batch ++ [nRows, nCols], v.stride ++ [st]⟩ : View α).addr (bidx ++ [i, j])
        = v.addr (bidx ++ [i + j]) := by
    intro bidx i j hb
    simp only [View.addr, hst, List.append_assoc]
    rw [zip_sum_append _ _ _ _ (by omega), zip_sum_append _ _ _ _ (by omega)]
    simp [Nat.add_mul]
  have hwf : WellFormed (⟨v.storage, v.offset, batch ++ [nRows, nCols], v.stride ++ [st]⟩ : View α) := by
    refine ⟨by simp [hst, hbl], ?_⟩
    intro idx hidx
    simp only at hidx
    have hb := List.forall₂_take_append _ _ _ hidx
    have hrest := List.forall₂_drop_append _ _ _ hidx
    rw [← List.take_append_drop batch.length idx]
    generalize List.take batch.length idx = bidx at hb ⊢
    generalize List.drop batch.length idx = rest at hrest ⊢
    obtain ⟨i, l, hi, hl, rfl⟩ := List.forall₂_cons_right_iff.1 hrest
    obtain ⟨j, l', hj, hl', rfl⟩ := List.forall₂_cons_right_iff.1 hl
    obtain rfl := List.forall₂_nil_right_iff.1 hl'
    rw [haddr bidx i j hb.length_eq]
    apply hin
    rw [hs]
    exact List.rel_append hb (List.Forall₂.cons (by omega) List.Forall₂.nil)
  refine ⟨⟨v.storage, v.offset, batch ++ [nRows, nCols], v.stride ++ [st]⟩, ?_, rfl, hwf, ?_⟩
  · unfold hankelView
    rw [hs, hst]
    simp only [List.getLast?_append, List.getLast?_singleton, Option.some_or, List.dropLast_concat]
    rw [hnc']
    unfold asStrided
    have hany : (List.map (fun n : ℕ => (n : ℤ)) batch ++ [(nRows : ℤ), (nCols : ℤ)]).any (· < 0) = false := by
      simp
    rw [if_neg (by simp [hany])]
    have hsz : (List.map (fun n : ℕ => (n : ℤ)) batch ++ [(nRows : ℤ), (nCols : ℤ)]).map Int.toNat
        = batch ++ [nRows, nCols] := by
      simp [Function.comp_def]
    simp only [hsz]
    rw [if_neg]
    rintro ⟨hpos, hbig⟩
    have hpos' : ∀ n ∈ batch ++ [nRows, nCols], 0 < n := by
      intro n hn
      simpa using List.all_eq_true.1 hpos n hn
    have hlast := hwf.2 ((batch ++ [nRows, nCols]).map (· - 1)) (by
      simp only
      rw [List.forall₂_map_left_iff, List.forall₂_same]
      intro n hn
      have := hpos' n hn
      omega)
    unfold View.extent at hbig
    simp only [View.addr, hst] at hlast
    rw [zip_pred] at hbig
    omega
  · intro bidx i j hb hi hj
    have hij : i + j < len := by omega
    have he := haddr bidx i j hb.length_eq
    refine ⟨by simp only [View.get]; rw [he], ?_⟩
    simp only [View.get]
    rw [he]
    have := hin (bidx ++ [i + j]) (by
      rw [hs]
      exact List.rel_append hb (List.Forall₂.cons hij List.Forall₂.nil))
    simp [this]

/-- **C08.** More rows than `len + 1` (or a negative number of rows) is rejected. -/
theorem hankel_view_rejects (v : View α) (batch : List ℕ) (len : ℕ) (hs : v.size = batch ++ [len])
    (nRows : ℤ) (hr : nRows < 0 ∨ (len : ℤ) + 1 < nRows) (hst : v.stride ≠ []) :
    hankelView v nRows = .error .runtimeError := by
  unfold hankelView
  rw [hs]
  obtain ⟨st, hst'⟩ : ∃ st, v.stride.getLast? = some st :=
    ⟨v.stride.getLast hst, List.getLast?_eq_some_getLast hst⟩
  rw [hst']
  simp only [List.getLast?_append, List.getLast?_singleton, Option.some_or, List.dropLast_concat]
  unfold asStrided
  rw [if_pos]
  simp only [List.any_append, List.any_cons, List.any_nil, Bool.or_false, Bool.or_eq_true,
    decide_eq_true_eq]
  right
  rcases hr with h | h
  · left; exact h
  · right; omega

/-- Seven rows of a signal of five samples, and minus one row. -/
example : hankelView ⟨[1, 2, 3, 4, 5], 0, [5], [1]⟩ 7 = .error .runtimeError ∧
    hankelView ⟨[1, 2, 3, 4, 5], 0, [5], [1]⟩ (-1) = .error .runtimeError :=
  ⟨hankel_view_rejects _ [] 5 rfl _ (by norm_num) (by simp), hankel_view_rejects _ [] 5 rfl _ (by norm_num) (by simp)⟩

/-- **C08 (no access outside the storage).**  Whatever view and number of rows it is given, well formed or not, a view returned by
`hankel_view` reads inside the storage only. -/
theorem hankel_view_in_bounds (v : View α) (hlen : v.size.length = v.stride.length) (nRows : ℤ) (h : View α)
    (hh : hankelView v nRows = .ok h) : WellFormed h := by
  unfold hankelView at hh
  split at hh
  · rename_i len st h1 h2
    have hne : v.size ≠ [] := by rintro h0; simp [h0] at h1
    unfold asStrided at hh
    simp only at hh
    split at hh
    · cases hh
    · split at hh
      · cases hh
      · rename_i hb
        cases hh
        refine ⟨by
          have := List.length_pos_of_ne_nil hne
          simp
          omega, fun idx hidx => ?_⟩
        simp only at hidx
        generalize hsz : List.map Int.toNat (List.map (fun n : ℕ => (n : ℤ)) v.size.dropLast ++ [nRows, (len : ℤ) - nRows + 1]) = sz at *
        have hall : sz.all (0 < ·) = true := by
          rw [List.all_eq_true]
          intro n hn
          obtain ⟨i, hi⟩ := List.get_of_mem hn
          have := (List.forall₂_iff_get.1 hidx).2 i (by rw [(List.forall₂_iff_get.1 hidx).1]; exact i.2) i.2
          simp only [decide_eq_true_eq]
          rw [← hi]
          exact lt_of_le_of_lt (Nat.zero_le _) this
        have hb' : View.extent v.offset sz (v.stride ++ [st]) ≤ v.storage.length := by
          by_contra hc
          exact hb ⟨hall, by omega⟩
        have hmono : ∀ (idx sz str : List ℕ), List.Forall₂ (· < ·) idx sz →
            (List.zipWith (· * ·) idx str).sum ≤ (List.zipWith (fun n s => (n - 1) * s) sz str).sum := by
          intro idx sz str hf
          induction hf generalizing str with
          | nil => simp
          | cons h1 _ ih =>
            cases str with
            | nil => simp
            | cons s str =>
              simp only [List.zipWith_cons_cons, List.sum_cons]
              exact Nat.add_le_add (Nat.mul_le_mul_right _ (by omega)) (ih str)
        have := hmono idx sz (v.stride ++ [st]) hidx
        unfold View.extent at hb'
        simp only [View.addr]
        omega
  · cases hh

/-- A view that is not inside its storage (it claims four entries of three) is rejected. -/
example : hankelView (⟨[0, 1, 2], 0, [4], [1]⟩ : View ℕ) 2 = .error .runtimeError := by
  simp [hankelView, asStrided, View.extent]

/-- One that is inside its storage is accepted. -/
example (h : View ℕ) (hh : hankelView (⟨[0, 1, 2], 0, [3], [1]⟩ : View ℕ) 2 = .ok h) : WellFormed h :=
  hankel_view_in_bounds _ rfl 2 h hh

/-- Non-vacuity of `hankel_view_correct` (C08): a transposed (non-contiguous) 2x3 view with offset 1. -/
example : WellFormed (⟨[0, 1, 2, 3, 4, 5, 6], 1, [2, 3], [1, 2]⟩ : View ℕ) := by
  refine ⟨rfl, fun idx h => ?_⟩
  simp only at h
  obtain ⟨i, l, hi, hl, rfl⟩ := List.forall₂_cons_right_iff.1 h
  obtain ⟨j, l', hj, hl', rfl⟩ := List.forall₂_cons_right_iff.1 hl
  obtain rfl := List.forall₂_nil_right_iff.1 hl'
  simp [View.addr]
  omega

private lemma wf_contiguous (x : List α) : WellFormed (contiguous x) := by
  refine ⟨rfl, fun idx h => ?_⟩
  simp only [contiguous] at h
  obtain ⟨i, l, hi, hl, rfl⟩ := List.forall₂_cons_right_iff.1 h
  obtain rfl := List.forall₂_nil_right_iff.1 hl
  simpa [View.addr, contiguous] using hi

/-- **C09.** The delayed-tap tensor exists for every signal and all `n_taps`, `n_delay`; it has
exactly `n_taps` rows and as many columns as the signal has frames; its entry `(t, n)` is the signal at
frame `n - (n_delay + n_taps - t)` (a delay between `n_delay + 1` and `n_delay + n_taps`), or zero if that
frame is before the start. -/
theorem delayed_taps_correct [Zero α] (x : List α) (nTaps nDelay : ℕ) :
    ∃ v, delayedView x nTaps nDelay = .ok v ∧ v.size = [nTaps, x.length] ∧
      ∀ t n, t < nTaps → ∀ hn : n < x.length, v.get [t, n] =
        some (if h : nDelay + nTaps - t ≤ n then x[n - (nDelay + nTaps - t)]'(by omega) else 0) := by
  set y := List.replicate (nTaps + nDelay) 0 ++ x with hy
  have hyl : y.length = nTaps + nDelay + x.length := by simp [hy]
  obtain ⟨h, hh, hsz, -, hget⟩ := hankel_view_correct (contiguous y) [] y.length rfl (wf_contiguous y)
    (nTaps + nDelay + 1) (by omega)
  have hcols : y.length + 1 - (nTaps + nDelay + 1) = x.length := by omega
  rw [hcols] at hsz
  have hstop : pySliceStop (nTaps + nDelay + 1) (-(nDelay : ℤ) - 1) = nTaps := by
    unfold pySliceStop; rw [if_pos (by omega)]; omega
  refine ⟨{ h with size := [nTaps, x.length] }, ?_, rfl, ?_⟩
  · unfold delayedView
    simp only [← hy]
    rw [hh]
    change sliceRows h _ = _
    unfold sliceRows
    rw [hsz]
    simp only [List.nil_append]
    rw [hstop]
  · intro t n ht hn
    have := (hget [] t n List.Forall₂.nil (by omega) (by omega)).1
    simp only [List.nil_append] at this
    change h.get [t, n] = _
    rw [this]
    simp only [View.get, View.addr, contiguous]
    simp only [List.zipWith_cons_cons, List.zipWith_nil_left, List.sum_cons, List.sum_nil, mul_one,
      add_zero, zero_add]
    rw [hy]
    split_ifs with hd
    · rw [List.getElem?_append_right (by simp; omega)]
      rw [List.getElem?_eq_getElem (by simp; omega)]
      congr 2
      simp; omega
    · rw [List.getElem?_append_left (by simp; omega)]
      rw [List.getElem?_replicate, if_pos (by omega)]

/-- **C09** in the form used by the algorithm models. -/
theorem xbarRow_eq [Zero α] {N : ℕ} (x : Fin N → α) (nTaps nDelay : ℕ) (t : Fin nTaps) (n : Fin N) :
    xbarRow x nTaps nDelay t n = if h : nDelay + nTaps - t ≤ n then
      x ⟨n - (nDelay + nTaps - t), by omega⟩ else 0 := by
  obtain ⟨v, hv, -, hg⟩ := delayed_taps_correct (List.ofFn x) nTaps nDelay
  unfold xbarRow
  rw [hv]
  simp only
  rw [hg t n t.2 (by simp)]
  simp only [Option.getD_some]
  split_ifs
  · simp
  · rfl

/-- Concrete instance: two taps, delay one, four frames. -/
example : (fun t n => xbarRow (![1, 2, 3, 4] : Fin 4 → ℕ) 2 1 t n) =
    ![![0, 0, 0, 1], ![0, 0, 1, 2]] := by
  funext t n
  rw [xbarRow_eq]
  fin_cases t <;> fin_cases n <;> simp <;> rfl

end Torchiva.Props
