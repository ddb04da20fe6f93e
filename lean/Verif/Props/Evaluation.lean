import Verif.Props.Training
import Mathlib.Data.List.Infix
import Mathlib.Data.String.Basic
import Mathlib.Order.Fin.Basic

/-! # C110- : evaluation and sample scripts -/

namespace Torchiva.Props

open Torchiva _root_.Spec

/-! ## C110 the evaluation loop -/

private lemma bind_iff {α β : Type} (x : Except Err α) (f : α → Except Err β) (b : β) :
    (x >>= f) = .ok b ↔ ∃ a, x = .ok a ∧ f a = .ok b := by
  cases x with
  | error e => exact ⟨fun h => (by cases h), fun ⟨a, h, _⟩ => (by cases h)⟩
  | ok a => exact ⟨fun h => ⟨a, rfl, h⟩, fun ⟨a', h, h'⟩ => by cases h; exact h'⟩

/-- How many of `k` items the option `--limit` lets through, counting from index `idx`. -/
private def cnt (limit : Option ℤ) (idx k : ℕ) : ℕ :=
  match limit with
  | none => k
  | some l => if (idx : ℤ) ≤ l then min (l.toNat - idx + 1) k else k

private lemma evalLoop_spec (limit : Option ℤ) (items : List (ℝ × ℝ)) (idx : ℕ) (t : EvalTotals) :
    evalLoop limit idx items t = (⟨t.sdr + ((items.take (cnt limit idx items.length)).map Prod.fst).sum,
      t.mixSdr + ((items.take (cnt limit idx items.length)).map Prod.snd).sum⟩,
      (List.range (cnt limit idx items.length)).map (idx + ·)) := by
  induction items generalizing idx t with
  | nil =>
    have : cnt limit idx 0 = 0 := by
      unfold cnt
      cases limit with
      | none => rfl
      | some l => simp only; split_ifs <;> simp
    simp [evalLoop, this]
  | cons item rest ih =>
    unfold evalLoop
    dsimp only
    by_cases h : limit = some (idx : ℤ)
    · rw [if_pos h]
      have : cnt limit idx (rest.length + 1) = 1 := by
        unfold cnt
        rw [h]
        simp only [le_refl, if_true, Int.toNat_natCast]
        omega
      rw [List.length_cons, this]
      simp
    · rw [if_neg h, ih]
      have hc : cnt limit idx (rest.length + 1) = cnt limit (idx + 1) rest.length + 1 := by
        unfold cnt
        cases limit with
        | none => rfl
        | some l =>
          simp only
          have hl : l ≠ (idx : ℤ) := fun e => h (by rw [e])
          split_ifs <;> omega
      rw [List.length_cons, hc, List.range_succ_eq_map]
      simp only [List.take_succ_cons, List.map_cons, List.sum_cons, List.map_map]
      refine Prod.ext ?_ ?_
      · simp only [EvalTotals.mk.injEq]
        constructor <;> ring
      · simp only [List.cons.injEq, Nat.add_zero, true_and]
        refine List.map_congr_left fun i _ => ?_
        simp only [Function.comp]
        omega

/-- **C110.** The items that the evaluation processes: without `--limit`, or with a negative one, all of them; with `--limit n` the items
0 to `n`.  The summary is the average over exactly those items; an empty data set raises `NameError`. -/
theorem eval_summary (limit : Option ℤ) (items : List (ℝ × ℝ)) (k : ℕ)
    (hk : k = match limit with | none => items.length | some l => if 0 ≤ l then min (l.toNat + 1) items.length else items.length) :
    (evalLoop limit 0 items ⟨0, 0⟩).2 = List.range k ∧
    (items ≠ [] → evalSummary limit items = .ok ⟨average ((items.take k).map Prod.fst), average ((items.take k).map Prod.snd)⟩) ∧
    (items = [] → evalSummary limit items = .error .nameError) := by
  have hk' : cnt limit 0 items.length = k := by
    rw [hk]
    unfold cnt
    cases limit with
    | none => rfl
    | some l => simp only [Nat.cast_zero, Nat.sub_zero]
  have hspec := evalLoop_spec limit items 0 ⟨0, 0⟩
  rw [hk'] at hspec
  refine ⟨by rw [hspec]; simp, fun hne => ?_, fun he => by subst he; rfl⟩
  have hpos : 0 < k := by
    have := List.length_pos_iff.2 hne
    rw [hk]
    cases limit with
    | none => exact this
    | some l => simp only; split_ifs <;> omega
  have hlen : k ≤ items.length := by
    rw [hk]
    cases limit with
    | none => exact le_refl _
    | some l => simp only; split_ifs <;> omega
  obtain ⟨j, rfl⟩ : ∃ j, k = j + 1 := ⟨k - 1, by omega⟩
  unfold evalSummary
  rw [hspec]
  simp only [List.range_succ, List.map_append, List.map_cons, List.map_nil, List.getLast?_append, List.getLast?_singleton, Option.some_or, zero_add]
  unfold average
  simp only [List.length_map, List.length_take, min_eq_left hlen]
  push_cast
  rfl

/-- Three items, all of them, and the first two with `--limit 1`. -/
example : evalSummary none [(1, 0), (2, 0), (6, 3)] = .ok ⟨3, 1⟩ ∧ evalSummary (some 1) [(1, 0), (2, 0), (6, 3)] = .ok ⟨3 / 2, 0⟩ := by
  constructor
  · rw [(eval_summary none _ 3 rfl).2.1 (by simp)]
    norm_num [average]
  · rw [(eval_summary (some 1) _ 2 rfl).2.1 (by simp)]
    norm_num [average]

/-- **C110 is violated** by `--limit`, the maximum number of samples to process: with `n` less than the number of items, `n + 1` are
processed (even for `--limit 0`). -/
theorem eval_limit_violated (n : ℕ) (items : List (ℝ × ℝ)) (h : n < items.length) :
    (evalLoop (some n) 0 items ⟨0, 0⟩).2.length = n + 1 := by
  rw [(eval_summary (some n) items (n + 1) (by simp; omega)).1, List.length_range]

example : (evalLoop (some (0 : ℕ)) 0 [(1, 0), (2, 0), (6, 3)] ⟨0, 0⟩).2.length = 1 := eval_limit_violated 0 _ (by simp)

/-- **C110.** The channels used for `--n_chan`: accepted from two to six, that many different channels of the six, in increasing order, the first
one (the reference of the mixture's score) always included; otherwise the script raises `NameError`. -/
theorem eval_channels (nChan : ℤ) :
    (2 ≤ nChan ∧ nChan ≤ 6 → ∃ l, evalChannels nChan = .ok l ∧ (l.length : ℤ) = nChan ∧ l.Pairwise (· < ·) ∧ l.head? = some 0 ∧ ∀ c ∈ l, c < 6) ∧
    (¬ (2 ≤ nChan ∧ nChan ≤ 6) → evalChannels nChan = .error .nameError) := by
  constructor
  · rintro ⟨h1, h2⟩
    obtain rfl | rfl | rfl | rfl | rfl : nChan = 2 ∨ nChan = 3 ∨ nChan = 4 ∨ nChan = 5 ∨ nChan = 6 := by omega
    all_goals exact ⟨_, rfl, by decide, by decide, rfl, by decide⟩
  · intro h
    unfold evalChannels
    rw [if_neg (by omega), if_neg (by omega), if_neg (by omega), if_neg (by omega), if_neg (by omega)]

/-! ## C111 the rows of the results -/

/-- **C111.** Row `k` of the results of an item, and the file saved as channel `k`, are about reference `k`: the number is the SDR of the saved
signal with respect to that reference minus the SDR of the mixture at the reference microphone, and the saved signals are the separated
signals, each once. -/
theorem eval_rows {Sg : Type} (sdr : Sg → Sg → ℝ) (eval) (hc : BssEvalContract sdr eval) {K : ℕ} (ref y : Fin K → Sg) (mixRef : Sg) :
    (evalRows eval ref y mixRef).length = K ∧
    (∀ k : Fin K, ∃ row, (evalRows eval ref y mixRef)[k.1]? = some row ∧ row.src = k ∧
      row.sdr = sdr (ref k) row.saved - sdr (ref k) mixRef) ∧
    ((evalRows eval ref y mixRef).map (·.saved)).Perm (List.ofFn y) := by
  unfold evalRows
  refine ⟨by simp, fun k => ⟨_, by simp; rfl, rfl, ?_⟩, ?_⟩
  · dsimp only
    rw [hc, hc]
  · rw [List.map_ofFn]
    exact Equiv.Perm.ofFn_comp_perm (eval K ref y).2 y

/-- Two sources whose outputs are exchanged: with the assignment that exchanges them both rows improve by one. -/
example : ∃ eval, BssEvalContract (fun a b : ℕ => if a = b then 1 else 0) eval ∧
    ((evalRows eval ![3, 4] ![4, 3] 7).map fun r => (r.src, r.saved)) = [(0, 3), (1, 4)] := by
  refine ⟨fun K ref est => (fun k => if ref k = est (Fin.revPerm k) then 1 else 0, Fin.revPerm), fun K ref est k => rfl, ?_⟩
  simp [evalRows]

/-- **C111.** The three tables (transcripts, sound files, speakers) list the same utterances in the same order, sorted, each as often as it
occurred; the speaker of every utterance is that of the first one. -/
theorem eval_tables (rows : List (String × String × String × String)) (a b c) (h : evalTables rows = .ok (a, b, c)) :
    a.map Prod.fst = b.map Prod.fst ∧ b.map Prod.fst = c.map Prod.fst ∧ (a.map Prod.fst).Pairwise (· ≤ ·) ∧
    a.Perm (rows.map fun r => (r.1, r.2.1)) ∧ b.Perm (rows.map fun r => (r.1, r.2.2.1)) ∧
    ∀ first, rows.head? = some first → c.Perm (rows.map fun r => (r.1, first.2.2.2)) := by
  have hkey : ∀ (t : List (String × String)), ((sortedTable t).map Prod.fst).Pairwise (· ≤ ·) ∧ (sortedTable t).Perm t := by
    intro t
    refine ⟨?_, List.mergeSort_perm _ _⟩
    have := List.pairwise_mergeSort (le := fun a b : String × String => decide (a.1 ≤ b.1))
      (fun a b c hab hbc => by simpa using le_trans (by simpa using hab) (by simpa using hbc))
      (fun a b => by simpa using le_total a.1 b.1) t
    rw [List.pairwise_map]
    exact this.imp fun h => by simpa using h
  cases rows with
  | nil => cases h
  | cons first rest =>
    unfold evalTables at h
    dsimp only at h
    have h' := Except.ok.inj h
    obtain ⟨rfl, h''⟩ := Prod.mk.inj h'
    obtain ⟨rfl, rfl⟩ := Prod.mk.inj h''
    have e : ∀ (f g : String × String × String × String → String),
        (sortedTable ((first :: rest).map fun r => (r.1, f r))).map Prod.fst = (sortedTable ((first :: rest).map fun r => (r.1, g r))).map Prod.fst := by
      intro f g
      refine List.Perm.eq_of_pairwise (fun a b _ _ h1 h2 => le_antisymm h1 h2) (hkey _).1 (hkey _).1 ?_
      refine ((hkey _).2.map _).trans (List.Perm.trans ?_ ((hkey _).2.map _).symm)
      simp only [List.map_map, Function.comp_def]
      exact List.Perm.refl _
    refine ⟨e _ _, e _ _, (hkey _).1, (hkey _).2, (hkey _).2, fun f hf => ?_⟩
    obtain rfl := Option.some.inj hf
    exact (hkey _).2

example : ∃ a b c, evalTables [("u2", "hello", "f2", "s2"), ("u1", "world", "f1", "s1")] = .ok (a, b, c) ∧ c = [("u1", "s2"), ("u2", "s2")] := by
  refine ⟨_, _, _, rfl, ?_⟩
  simp [sortedTable, List.mergeSort, List.merge, List.MergeSort.Internal.splitInTwo]

/-! ## C112 the folders of the results -/

private lemma dash_inj : ∀ (p p' s s' : List Char), '-' ∉ p → '-' ∉ p' → p ++ '-' :: s = p' ++ '-' :: s' → p = p' ∧ s = s'
  | [], [], _, _, _, _, h => ⟨rfl, (List.cons.inj h).2⟩
  | [], c :: _, _, _, _, h2, h => by
    obtain ⟨rfl, -⟩ := List.cons.inj h
    simp at h2
  | c :: _, [], _, _, h1, _, h => by
    obtain ⟨rfl, -⟩ := List.cons.inj h
    simp at h1
  | c :: p, c' :: p', s, s', h1, h2, h => by
    obtain ⟨rfl, hh⟩ := List.cons.inj h
    obtain ⟨rfl, rfl⟩ := dash_inj p p' s s' (fun h => h1 (List.mem_cons_of_mem _ h)) (fun h => h2 (List.mem_cons_of_mem _ h)) hh
    exact ⟨rfl, rfl⟩

/-- **C112 (partial: what distinguishes the folders).**  Different data sets or splits have different folders, and so have two runs with the
same kind of model, Gauss or NMF, and different algorithms, and two runs with trained models whose algorithms (without a dash in the name) or
whose source models have different names. -/
theorem result_folder_partial (d d' t t' : String) (m m' : EvalModel) (a a' : String)
    (h : outputDir d t (algoModel m a) = outputDir d' t' (algoModel m' a')) :
    d = d' ∧ t = t' ∧ (m = .gauss ∨ m = .ilrma → m' = .gauss ∨ m' = .ilrma → a = a') ∧
    ∀ p s p' s' : String, '-' ∉ p.toList → '-' ∉ p'.toList → m = .nn p s → m' = .nn p' s' → p = p' ∧ s = s' := by
  unfold outputDir at h
  simp only [List.cons.injEq, and_true] at h
  refine ⟨h.1, h.2.1, ?_, ?_⟩
  · rintro (rfl | rfl) (rfl | rfl) <;> exact h.2.2
  · rintro p s p' s' hp hp' rfl rfl
    have e := congrArg String.toList h.2.2
    simp only [algoModel, String.toList_append] at e
    have := dash_inj p.toList p'.toList s.toList s'.toList hp hp' (by simpa using e)
    exact ⟨String.toList_inj.1 this.1, String.toList_inj.1 this.2⟩

example : outputDir "wsj1_2_mix_m2" "dev93" (algoModel .gauss "tiss") ≠ outputDir "wsj1_2_mix_m2" "dev93" (algoModel .gauss "ip2") :=
  fun h => absurd ((result_folder_partial _ _ _ _ _ _ _ _ h).2.2.1 (Or.inl rfl) (Or.inl rfl)) (by decide)

example : outputDir "wsj1_2_mix_m2" "dev93" (algoModel (.nn "tiss" "glu") "ip2") ≠ outputDir "wsj1_2_mix_m2" "dev93" (algoModel (.nn "tiss" "blstm") "ip2") :=
  fun h => absurd ((result_folder_partial _ _ _ _ _ _ _ _ h).2.2.2 _ _ _ _ (by decide) (by decide) rfl rfl).2 (by decide)

/-- **C112 is violated**: the results of ILRMA (NMF) and of the Gauss model with the same algorithm go to the same folder and overwrite
each other, so do the results of the Laplace model with any two algorithms, and those of
two trained models when a dash moves from the name of the algorithm to that of the source model. -/
theorem result_folder_violated (d t a a' : String) :
    outputDir d t (algoModel .ilrma a) = outputDir d t (algoModel .gauss a) ∧
    outputDir d t (algoModel .laplace a) = outputDir d t (algoModel .laplace a') ∧
    ∀ p q s : String, outputDir d t (algoModel (.nn (p ++ "-" ++ q) s) a) = outputDir d t (algoModel (.nn p (q ++ "-" ++ s)) a) :=
  ⟨rfl, rfl, fun p q s => by simp only [algoModel, String.append_assoc]⟩

/-! ## C113 the checkpoint of an epoch -/

private lemma infix_cut (p dir name : List Char) (hp : '/' ∉ p) (hd : ¬ p <:+: dir) (h : p <:+: dir ++ '/' :: name) : p <:+: name := by
  obtain ⟨s, t, h⟩ := h
  rw [List.append_assoc, List.append_eq_append_iff] at h
  rcases h with ⟨u, hu, h⟩ | ⟨u, hu, h⟩
  · -- the pattern starts inside the folder
    rw [List.append_eq_append_iff] at h
    rcases h with ⟨v, hv, h⟩ | ⟨v, hv, h⟩
    · exact (hd ⟨s, v, by rw [hu, hv, List.append_assoc]⟩).elim
    · cases v with
      | nil => exact (hd ⟨s, [], by rw [hu, hv]; simp⟩).elim
      | cons x v =>
        rw [List.cons_append, List.cons.injEq] at h
        exact (hp (by rw [hv, ← h.1]; simp)).elim
  · cases u with
    | nil =>
      rw [List.nil_append] at h
      cases p with
      | nil => exact List.nil_infix
      | cons x p =>
        rw [List.cons_append, List.cons.injEq] at h
        exact (hp (by rw [h.1]; simp)).elim
    | cons x u =>
      rw [List.cons_append, List.cons.injEq] at h
      exact ⟨u, t, by rw [h.2]; simp⟩

private lemma epoch_infix (E N tail : List Char) (hE : '-' ∉ E) (hN : '-' ∉ N) (hNh : 'h' ∉ N) (ht : 'h' ∉ tail) :
    ("epoch=".toList ++ E ++ "-".toList) <:+: ("epoch=".toList ++ N ++ '-' :: tail) ↔ E = N := by
  constructor
  · rintro ⟨s, t, h⟩
    have hstr : "epoch=".toList = ['e', 'p', 'o', 'c', 'h', '='] := rfl
    have hdash : "-".toList = ['-'] := rfl
    rw [hstr, hdash] at h
    have hrest : 'h' ∉ '=' :: (N ++ '-' :: tail) := by
      simp [hNh, ht]
    have hs : s = [] := by
      match s, h with
      | [], _ => rfl
      | [_], h => simp at h
      | [_, _], h => simp at h
      | [_, _, _], h => simp at h
      | [_, _, _, _], h => simp at h
      | _ :: _ :: _ :: _ :: _ :: s, h =>
        simp only [List.cons_append, List.append_assoc, List.nil_append, List.cons.injEq] at h
        exact (hrest (h.2.2.2.2.2 ▸ by simp)).elim
    subst hs
    simp only [List.cons_append, List.append_assoc, List.nil_append, List.cons.injEq, true_and] at h
    -- `E ++ '-' :: t = N ++ '-' :: tail`
    clear hrest hstr hdash hNh
    induction E generalizing N with
    | nil =>
      cases N with
      | nil => rfl
      | cons b N =>
        simp only [List.nil_append, List.cons_append, List.cons.injEq] at h
        exact (hN (by rw [← h.1]; simp)).elim
    | cons a E ih =>
      cases N with
      | nil =>
        simp only [List.nil_append, List.cons_append, List.cons.injEq] at h
        exact (hE (by simp [h.1])).elim
      | cons b N =>
        simp only [List.cons_append, List.cons.injEq] at h
        rw [h.1, ih N (fun h' => hE (by simp [h'])) (fun h' => hN (by simp [h'])) h.2]
  · rintro rfl
    exact ⟨[], tail, by simp⟩

/-- **C113.** The checkpoints are saved as `epoch=N-step=M.ckpt`.  Whatever the order in which the folder is listed, loading an epoch takes a
checkpoint of that epoch - not of another epoch whose number begins or ends with the same digits - if there is one, and raises otherwise,
provided that the path of the folder does not itself contain `epoch=N-`. -/
theorem checkpoint_of_epoch (dir : List Char) (ckpts : List (List Char × List Char)) (E : List Char) (hE : '-' ∉ E ∧ '/' ∉ E)
    (hN : ∀ c ∈ ckpts, '-' ∉ c.1 ∧ 'h' ∉ c.1 ∧ 'h' ∉ c.2) (hdir : ¬ ("epoch=".toList ++ E ++ "-".toList) <:+: dir) :
    (∀ f, findCheckpoint (ckpts.map fun c => dir ++ '/' :: ("epoch=".toList ++ c.1 ++ '-' :: c.2)) E = .ok f →
      ∃ tail, (E, tail) ∈ ckpts ∧ f = dir ++ '/' :: ("epoch=".toList ++ E ++ '-' :: tail)) ∧
    (findCheckpoint (ckpts.map fun c => dir ++ '/' :: ("epoch=".toList ++ c.1 ++ '-' :: c.2)) E = .error .unboundLocalError ↔
      ∀ tail, (E, tail) ∉ ckpts) ∧
    ∃ r, findCheckpoint (ckpts.map fun c => dir ++ '/' :: ("epoch=".toList ++ c.1 ++ '-' :: c.2)) E = r ∧ (r = .error .unboundLocalError ∨ ∃ f, r = .ok f) := by
  have hp : '/' ∉ "epoch=".toList ++ E ++ "-".toList := by
    intro h
    rw [show "epoch=".toList = ['e', 'p', 'o', 'c', 'h', '='] from rfl, show "-".toList = ['-'] from rfl] at h
    simp at h
    exact hE.2 h
  have hiff : ∀ c ∈ ckpts, (("epoch=".toList ++ E ++ "-".toList) <:+: dir ++ '/' :: ("epoch=".toList ++ c.1 ++ '-' :: c.2)) ↔ E = c.1 := by
    intro c hc
    obtain ⟨h1, h2, h3⟩ := hN c hc
    rw [← epoch_infix E c.1 c.2 hE.1 h1 h2 h3]
    exact ⟨infix_cut _ _ _ hp hdir, fun h => h.trans ⟨dir ++ ['/'], [], by simp⟩⟩
  unfold findCheckpoint
  cases hf : (ckpts.map fun c => dir ++ '/' :: ("epoch=".toList ++ c.1 ++ '-' :: c.2)).find?
      fun f => decide (("epoch=".toList ++ E ++ "-".toList) <:+: f) with
  | none =>
    refine ⟨fun f h => (by cases h), ⟨fun _ tail ht => ?_, fun _ => rfl⟩, _, rfl, Or.inl rfl⟩
    rw [List.find?_eq_none] at hf
    have := hf _ (List.mem_map.2 ⟨_, ht, rfl⟩)
    rw [decide_eq_true_eq] at this
    exact this ((hiff _ ht).2 rfl)
  | some f =>
    have h1 := List.find?_some hf
    rw [decide_eq_true_eq] at h1
    obtain ⟨c, hc, rfl⟩ := List.mem_map.1 (List.mem_of_find?_eq_some hf)
    have he := (hiff c hc).1 h1
    have hc' : (E, c.2) ∈ ckpts := by rw [he]; exact hc
    refine ⟨fun f h => ⟨c.2, hc', by cases h; rw [he]⟩, ⟨fun h => (by cases h), fun h => (h _ hc').elim⟩, _, rfl, Or.inr ⟨_, rfl⟩⟩

/-- Epochs 11, 1 and 21 in a folder: loading epoch 1 takes the second file, loading epoch 2 raises. -/
example : (findCheckpoint (["/c/epoch=11-step=9.ckpt", "/c/epoch=1-step=4.ckpt", "/c/epoch=21-step=1.ckpt"].map String.toList) "1".toList
    = .ok "/c/epoch=1-step=4.ckpt".toList) ∧ ¬ ("epoch=".toList ++ "1".toList ++ "-".toList) <:+: "/c".toList := by
  constructor
  · decide
  · decide

/-! ## C114 sound files -/

private lemma toInt16_spec (x : ℝ) (h : |x| < 2 ^ 15) : |(toInt16 x : ℝ) - x| < 1 ∧ |(toInt16 x : ℝ)| ≤ |x| ∧ (|x| - 1 < |(toInt16 x : ℝ)|) := by
  have hx := abs_lt.1 h
  unfold toInt16
  dsimp only
  by_cases h0 : 0 ≤ x
  · rw [if_pos h0]
    have h1 : 0 ≤ ⌊x⌋ := Int.floor_nonneg.2 h0
    have h2 : ⌊x⌋ < 2 ^ 15 := by
      have : (⌊x⌋ : ℝ) < 2 ^ 15 := (Int.floor_le x).trans_lt hx.2
      exact_mod_cast this
    have e : (⌊x⌋ + 2 ^ 15) % 2 ^ 16 - 2 ^ 15 = ⌊x⌋ := by omega
    rw [e]
    have h3 := Int.floor_le x
    have h4 := Int.lt_floor_add_one x
    have h5 : (0 : ℝ) ≤ ⌊x⌋ := by exact_mod_cast h1
    rw [abs_of_nonneg h5, abs_of_nonneg h0, abs_lt]
    exact ⟨⟨by linarith, by linarith⟩, h3, by linarith⟩
  · rw [if_neg h0]
    push Not at h0
    have h1 : ⌈x⌉ ≤ 0 := Int.ceil_le.2 (by simpa using h0.le)
    have h2 : -2 ^ 15 < ⌈x⌉ := by
      have : (-2 ^ 15 : ℝ) < ⌈x⌉ := hx.1.trans_le (Int.le_ceil x)
      exact_mod_cast this
    have e : (⌈x⌉ + 2 ^ 15) % 2 ^ 16 - 2 ^ 15 = ⌈x⌉ := by omega
    rw [e]
    have h3 := Int.le_ceil x
    have h4 := Int.ceil_lt_add_one x
    have h5 : (⌈x⌉ : ℝ) ≤ 0 := by exact_mod_cast h1
    rw [abs_of_nonpos h5, abs_of_neg h0, abs_lt]
    exact ⟨⟨by linarith, by linarith⟩, by linarith, by linarith⟩

private lemma maxAbsList_spec (l : List ℝ) (hl : l ≠ []) : ∃ m, maxAbsList l = .ok m ∧ (∀ x ∈ l, |x| ≤ m) ∧ ∃ x ∈ l, |x| = m := by
  have hne : l.map (fun x => |x|) ≠ [] := by simpa using hl
  obtain ⟨m, hm⟩ := Option.ne_none_iff_exists'.1 (mt List.max?_eq_none_iff.1 hne)
  have hm' := List.max?_eq_some_iff.1 hm
  obtain ⟨x, hx, he⟩ := List.mem_map.1 hm'.1
  refine ⟨m, by unfold maxAbsList; rw [hm], fun y hy => hm'.2 _ (List.mem_map_of_mem hy), x, hx, he⟩

/-- Scaling to a peak of 0.95 and rounding. -/
private lemma peak_scale (x m : ℝ) (hm : 0 < m) (hx : |x| ≤ m) :
    |(toInt16 (0.95 * x / m * 2 ^ 15) : ℝ) - 31129.6 / m * x| < 1 ∧ |toInt16 (0.95 * x / m * 2 ^ 15)| ≤ 31129 ∧
    (|x| = m → |toInt16 (0.95 * x / m * 2 ^ 15)| = 31129) := by
  have he : 0.95 * x / m * 2 ^ 15 = 31129.6 / m * x := by ring
  rw [he]
  have hab : |31129.6 / m * x| = 31129.6 * (|x| / m) := by
    rw [abs_mul, abs_of_pos (by positivity)]; ring
  have hle : |31129.6 / m * x| ≤ 31129.6 := by
    rw [hab]
    have : |x| / m ≤ 1 := (div_le_one hm).2 hx
    linarith
  obtain ⟨h1, h2, h3⟩ := toInt16_spec (31129.6 / m * x) (lt_of_le_of_lt hle (by norm_num))
  have h4 : |toInt16 (31129.6 / m * x)| ≤ 31129 := by
    have : (|toInt16 (31129.6 / m * x)| : ℝ) < 31130 := by linarith [h2.trans hle]
    have : |toInt16 (31129.6 / m * x)| < 31130 := by exact_mod_cast this
    omega
  refine ⟨h1, h4, fun hxm => ?_⟩
  rw [hab, hxm, div_self hm.ne', mul_one] at h3
  have : (31128 : ℝ) < |toInt16 (31129.6 / m * x)| := by
    push_cast
    linarith
  have : (31128 : ℤ) < |toInt16 (31129.6 / m * x)| := by exact_mod_cast this
  omega

/-- **C114.** The sound file written for a signal that is not silent: as many samples, each of them within one unit of the signal times a common
positive factor, none of them out of the range of 16 bits (at most 31129 in size), and the largest ones of exactly that size.  A silent
signal divides zero by zero, an empty one raises.  The name that is used is that of the global variable. -/
theorem write_wav (name global : String) (data : List ℝ) :
    ((∃ x ∈ data, x ≠ 0) → ∃ (samples : List ℤ) (g : ℝ), writeWav name global data = .ok (global, samples) ∧ 0 < g ∧
      samples.length = data.length ∧
      (∀ i, |((samples.getD i 0 : ℤ) : ℝ) - g * data.getD i 0| < 1 ∧ |samples.getD i 0| ≤ 31129) ∧
      ∃ i, |samples.getD i 0| = 31129 ∧ ∀ j, |data.getD j 0| ≤ |data.getD i 0|) ∧
    (data ≠ [] → (∀ x ∈ data, x = 0) → writeWav name global data = .error .nonFinite) ∧
    (data = [] → writeWav name global data = .error .valueError) := by
  refine ⟨?_, ?_, ?_⟩
  · rintro ⟨x0, hx0, hne0⟩
    obtain ⟨m, hm, hle, x1, hx1, he1⟩ := maxAbsList_spec data (List.ne_nil_of_mem hx0)
    have hpos : 0 < m := (abs_pos.2 hne0).trans_le (hle _ hx0)
    have hle' : ∀ j, |data.getD j 0| ≤ m := by
      intro j
      rw [List.getD_eq_getElem?_getD]
      by_cases hj : j < data.length
      · rw [List.getElem?_eq_getElem hj, Option.getD_some]
        exact hle _ (List.getElem_mem hj)
      · rw [List.getElem?_eq_none (by omega), Option.getD_none, abs_zero]
        exact hpos.le
    have hget : ∀ i, (data.map fun x => toInt16 (0.95 * x / m * 2 ^ 15)).getD i 0 = toInt16 (0.95 * data.getD i 0 / m * 2 ^ 15) := by
      intro i
      rw [List.getD_eq_getElem?_getD, List.getD_eq_getElem?_getD, List.getElem?_map]
      by_cases hi : i < data.length
      · rw [List.getElem?_eq_getElem hi]; rfl
      · rw [List.getElem?_eq_none (by omega)]
        simp [toInt16]
    refine ⟨data.map fun x => toInt16 (0.95 * x / m * 2 ^ 15), 31129.6 / m, ?_, by positivity, by simp, fun i => ?_, ?_⟩
    · unfold writeWav
      rw [hm]
      simp only [bind, Except.bind]
      rw [if_neg hpos.ne']
    · rw [hget]
      exact ⟨(peak_scale _ m hpos (hle' i)).1, (peak_scale _ m hpos (hle' i)).2.1⟩
    · obtain ⟨i, hi, rfl⟩ := List.mem_iff_getElem.1 hx1
      have hgi : data.getD i 0 = data[i] := by
        rw [List.getD_eq_getElem?_getD, List.getElem?_eq_getElem hi]; rfl
      refine ⟨i, ?_, fun j => ?_⟩
      · rw [hget, hgi]
        exact (peak_scale _ m hpos (hle _ hx1)).2.2 he1
      · rw [hgi, he1]
        exact hle' j
  · intro hne hz
    obtain ⟨m, hm, -, x1, hx1, he1⟩ := maxAbsList_spec data hne
    have : m = 0 := by rw [← he1, hz _ hx1, abs_zero]
    unfold writeWav
    rw [hm]
    simp only [bind, Except.bind]
    rw [if_pos this]
  · rintro rfl
    rfl

example : ∃ samples, writeWav "a.wav" "a.wav" [1, -2, 0] = .ok ("a.wav", samples) ∧ samples.length = 3 := by
  obtain ⟨s, g, h1, -, h2, -⟩ := (write_wav "a.wav" "a.wav" [1, -2, 0]).1 ⟨1, by simp, one_ne_zero⟩
  exact ⟨s, h1, h2⟩

/-- **C114 is violated** as far as the name is concerned: the file is written under the name in the global variable `wav_filename`, whatever
name is passed. -/
theorem write_wav_violated (name global : String) (data : List ℝ) (file : String) (samples : List ℤ)
    (h : writeWav name global data = .ok (file, samples)) : file = global ∧ ∀ other, writeWav other global data = .ok (file, samples) := by
  refine ⟨?_, fun other => h⟩
  unfold writeWav at h
  obtain ⟨m, -, h⟩ := (bind_iff _ _ _).1 h
  by_cases hm : m = 0
  · rw [if_pos hm] at h; cases h
  · rw [if_neg hm] at h
    exact (Prod.mk.inj (Except.ok.inj h)).1.symm

/-- Two different names, the same file. -/
example : ∃ samples, writeWav "a.wav" "g.wav" [1, -2, 0] = .ok ("g.wav", samples) ∧ writeWav "b.wav" "g.wav" [1, -2, 0] = .ok ("g.wav", samples) := by
  obtain ⟨s, g, h1, -⟩ := (write_wav "a.wav" "g.wav" [1, -2, 0]).1 ⟨1, by simp, one_ne_zero⟩
  exact ⟨s, h1, (write_wav_violated _ _ _ _ _ h1).2 _⟩

/-! ## C115 the mixtures of the examples -/

private lemma getD_none {α : Type} (l : List α) (i : ℕ) (d : α) (h : l.length ≤ i) : l.getD i d = d := by
  rw [List.getD_eq_getElem?_getD, List.getElem?_eq_none h]; rfl

private lemma getD_some {α : Type} (l : List α) (i : ℕ) (d : α) (h : i < l.length) : l.getD i d = l[i] := by
  rw [List.getD_eq_getElem?_getD, List.getElem?_eq_getElem h]; rfl

private lemma getD_map {α β : Type} (f : α → β) (l : List α) (i : ℕ) (a : α) (b : β) (h : f a = b) : (l.map f).getD i b = f (l.getD i a) := by
  by_cases hi : i < l.length
  · rw [getD_some _ _ _ (by simpa using hi), getD_some _ _ _ hi, List.getElem_map]
  · rw [getD_none _ _ _ (by simpa using hi), getD_none _ _ _ (by omega), h]

private lemma getD_padEnd (m : ℕ) (x : List ℝ) (t : ℕ) : (padEnd m x).getD t 0 = x.getD t 0 := by
  unfold padEnd
  simp only [List.getD_eq_getElem?_getD, List.getElem?_append, List.getElem?_replicate]
  by_cases h : t < x.length
  · rw [if_pos h]
  · rw [if_neg h, List.getElem?_eq_none (by omega)]
    split_ifs <;> rfl

private lemma getD2_map {β : Type} [Zero β] (F : ℝ → β) (hF : F 0 = 0) (G : List ℝ → List β) (hG : ∀ x t, (G x).getD t 0 = F (x.getD t 0)) (s : Chans) (c t : ℕ) :
    ((s.map G).getD c []).getD t 0 = F ((s.getD c []).getD t 0) := by
  by_cases hc : c < s.length
  · rw [getD_some _ c _ (by simpa using hc), getD_some s c _ hc, List.getElem_map, hG]
  · rw [getD_none (s.map G) c _ (by simpa using hc), getD_none s c _ (by omega)]
    simp [hF]

private lemma getD_le (l : List ℝ) (m : ℝ) (hm : 0 ≤ m) (h : ∀ v ∈ l, |v| ≤ m) (t : ℕ) : |l.getD t 0| ≤ m := by
  by_cases ht : t < l.length
  · rw [getD_some _ _ _ ht]; exact h _ (List.getElem_mem ht)
  · rw [getD_none _ _ _ (by omega), abs_zero]; exact hm

private lemma getD2_le (s : Chans) (m : ℝ) (hm : 0 ≤ m) (h : ∀ v ∈ s.flatten, |v| ≤ m) (c t : ℕ) : |(s.getD c []).getD t 0| ≤ m := by
  refine getD_le _ m hm (fun v hv => ?_) t
  by_cases hc : c < s.length
  · rw [getD_some _ _ _ hc] at hv
    exact h v (List.mem_flatten.2 ⟨_, List.getElem_mem hc, hv⟩)
  · rw [getD_none _ _ _ (by omega)] at hv
    cases hv

private lemma getD3_le (l : List Chans) (m : ℝ) (hm : 0 ≤ m) (h : ∀ v ∈ l.flatten.flatten, |v| ≤ m) (s c t : ℕ) :
    |((l.getD s []).getD c []).getD t 0| ≤ m := by
  refine getD2_le _ m hm (fun v hv => ?_) c t
  by_cases hc : s < l.length
  · rw [getD_some _ _ _ hc] at hv
    obtain ⟨x, hx, hv⟩ := List.mem_flatten.1 hv
    exact h v (List.mem_flatten.2 ⟨x, List.mem_flatten.2 ⟨_, List.getElem_mem hc, hx⟩, hv⟩)
  · rw [getD_none _ _ _ (by omega)] at hv
    cases hv

private lemma sum_sources_getD (chans len : ℕ) (wet : List Chans) (hw : ∀ s ∈ wet, s.length = chans ∧ ∀ x ∈ s, x.length = len) (c t : ℕ) :
    ((sumSources chans len wet).getD c []).getD t 0 = (wet.map fun s => (s.getD c []).getD t 0).sum := by
  unfold sumSources
  by_cases hc : c < chans
  · rw [getD_some _ c _ (by simpa using hc), List.getElem_ofFn]
    by_cases ht : t < len
    · rw [getD_some _ t _ (by simpa using ht), List.getElem_ofFn]
    · rw [getD_none _ t _ (by simpa using ht)]
      symm
      refine List.sum_eq_zero fun v hv => ?_
      obtain ⟨s, hs, rfl⟩ := List.mem_map.1 hv
      have hcs : c < s.length := by rw [(hw s hs).1]; exact hc
      rw [getD_some _ c _ hcs]
      exact getD_none _ _ _ (by rw [(hw s hs).2 _ (List.getElem_mem hcs)]; omega)
  · rw [getD_none _ c _ (by simpa using hc)]
    symm
    refine List.sum_eq_zero fun v hv => ?_
    obtain ⟨s, hs, rfl⟩ := List.mem_map.1 hv
    rw [getD_none _ c _ (by rw [(hw s hs).1]; omega)]
    rfl

private lemma sum_error {α : Type} (l : List α) (a b : α → ℝ) (h : ∀ x ∈ l, |a x - b x| < 1) :
    |(l.map a).sum - (l.map b).sum| ≤ l.length := by
  induction l with
  | nil => simp
  | cons x l ih =>
    have h1 := h x (by simp)
    have h2 := ih fun y hy => h y (by simp [hy])
    simp only [List.map_cons, List.sum_cons, List.length_cons, Nat.cast_add, Nat.cast_one]
    rw [show a x + (l.map a).sum - (b x + (l.map b).sum) = (a x - b x) + ((l.map a).sum - (l.map b).sum) by ring]
    linarith [abs_add_le (a x - b x) ((l.map a).sum - (l.map b).sum)]

/-- **C115.** The files of an example mixture, whatever the images of the sources (not all silent): the anechoic references, the reverberant
references and the mixture have the same length, that of the longest; one common positive factor scales them all, so that every saved
sample is within one unit of the scaled signal; no sample is out of the range of 16 bits; and the mixture is, sample by sample, the
sum of the reverberant references up to less than one unit per file. -/
theorem make_mix_files (chans lenDry lenWet : ℕ) (dry wet : List Chans)
    (hd : ∀ s ∈ dry, s.length = chans ∧ ∀ x ∈ s, x.length = lenDry) (hw : ∀ s ∈ wet, s.length = chans ∧ ∀ x ∈ s, x.length = lenWet)
    (hne : ∃ s ∈ dry ++ wet, ∃ x ∈ s, ∃ v ∈ x, v ≠ 0) :
    ∃ (files : MixFiles) (g : ℝ), makeMix chans lenDry lenWet dry wet = .ok files ∧ 0 < g ∧
      files.dry.length = dry.length ∧ files.wet.length = wet.length ∧ files.mix.length = chans ∧
      (∀ s ∈ files.dry ++ files.wet, s.length = chans ∧ ∀ x ∈ s, x.length = max lenDry lenWet) ∧
      (∀ x ∈ files.mix, x.length = max lenDry lenWet) ∧
      (∀ s c t, |((((files.dry.getD s []).getD c []).getD t 0 : ℤ) : ℝ) - g * ((dry.getD s []).getD c []).getD t 0| < 1 ∧
        |(((files.dry.getD s []).getD c []).getD t 0 : ℤ)| ≤ 31129) ∧
      (∀ s c t, |((((files.wet.getD s []).getD c []).getD t 0 : ℤ) : ℝ) - g * ((wet.getD s []).getD c []).getD t 0| < 1 ∧
        |(((files.wet.getD s []).getD c []).getD t 0 : ℤ)| ≤ 31129) ∧
      (∀ c t, |(((files.mix.getD c []).getD t 0 : ℤ) : ℝ) - g * (wet.map fun s => (s.getD c []).getD t 0).sum| < 1 ∧
        |((files.mix.getD c []).getD t 0 : ℤ)| ≤ 31129) ∧
      (∀ c t, |((files.mix.getD c []).getD t 0 : ℤ) - (files.wet.map fun s => (s.getD c []).getD t 0).sum| ≤ wet.length) := by
  -- the peak
  obtain ⟨s0, hs0, x0, hx0, v0, hv0, hv0ne⟩ := hne
  let m := max lenDry (max lenWet lenWet)
  have hmm : m = max lenDry lenWet := by simp [m]
  let all : List ℝ := ((sumSources chans lenWet wet).map (padEnd m)).flatten ++ (dry.map fun s => s.map (padEnd m)).flatten.flatten ++
    (wet.map fun s => s.map (padEnd m)).flatten.flatten
  have hmem : ∀ l : List Chans, s0 ∈ l → v0 ∈ (l.map fun s => s.map (padEnd m)).flatten.flatten := by
    intro l hl
    refine List.mem_flatten.2 ⟨padEnd m x0, List.mem_flatten.2 ⟨s0.map (padEnd m), List.mem_map_of_mem (f := fun s : Chans => s.map (padEnd m)) hl, List.mem_map_of_mem hx0⟩, ?_⟩
    unfold padEnd
    exact List.mem_append_left _ hv0
  have hv0all : v0 ∈ all := by
    rcases List.mem_append.1 hs0 with h | h
    · exact List.mem_append_left _ (List.mem_append_right _ (hmem _ h))
    · exact List.mem_append_right _ (hmem _ h)
  obtain ⟨peak, hpk, hle, -⟩ := maxAbsList_spec all (List.ne_nil_of_mem hv0all)
  have hpos : 0 < peak := (abs_pos.2 hv0ne).trans_le (hle _ hv0all)
  -- what happens to one sample
  let F : ℝ → ℤ := fun v => toInt16 (0.95 * v / peak * 2 ^ 15)
  have hF0 : F 0 = 0 := by simp [F, toInt16]
  let G : List ℝ → List ℤ := fun x => saveSamples ((padEnd m x).map fun v => v * (0.95 / peak))
  have hG : ∀ x t, (G x).getD t 0 = F (x.getD t 0) := by
    intro x t
    simp only [G, saveSamples, List.map_map]
    rw [getD_map _ _ _ 0 0 (by simp [toInt16]), getD_padEnd]
    simp only [Function.comp, F]
    congr 1
    ring
  have hGlen : ∀ x, x.length ≤ m → (G x).length = m := by
    intro x hx
    simp only [G, saveSamples, padEnd, List.length_map, List.length_append, List.length_replicate]
    omega
  have hFs : ∀ v, |v| ≤ peak → |(F v : ℝ) - 31129.6 / peak * v| < 1 ∧ |F v| ≤ 31129 := fun v hv =>
    ⟨(peak_scale v peak hpos hv).1, (peak_scale v peak hpos hv).2.1⟩
  have hb3 : ∀ l : List Chans, (∀ v ∈ (l.map fun s => s.map (padEnd m)).flatten.flatten, |v| ≤ peak) → ∀ s c t,
      |((l.getD s []).getD c []).getD t 0| ≤ peak := by
    intro l hl s c t
    have := getD3_le _ peak hpos.le hl s c t
    rw [getD_map _ _ _ [] [] (by rfl), getD2_map (fun v => v) rfl _ (getD_padEnd m)] at this
    exact this
  have hbd := hb3 dry fun v hv => hle v (List.mem_append_left _ (List.mem_append_right _ hv))
  have hbw := hb3 wet fun v hv => hle v (List.mem_append_right _ hv)
  have hbm : ∀ c t, |(wet.map fun s => (s.getD c []).getD t 0).sum| ≤ peak := by
    intro c t
    have := getD2_le _ peak hpos.le (fun v hv => hle v (List.mem_append_left _ (List.mem_append_left _ hv))) c t
    rw [getD2_map (fun v => v) rfl _ (getD_padEnd m), sum_sources_getD chans lenWet wet hw] at this
    exact this
  have hget3 : ∀ (l : List Chans) (s c t : ℕ), (((l.map fun s => s.map G).getD s []).getD c []).getD t 0 = F (((l.getD s []).getD c []).getD t 0) := by
    intro l s c t
    rw [getD_map _ _ _ [] [] (by rfl), getD2_map F hF0 G hG]
  have hgetm : ∀ c t, (((sumSources chans lenWet wet).map G).getD c []).getD t 0 = F (wet.map fun s => (s.getD c []).getD t 0).sum := by
    intro c t
    rw [getD2_map F hF0 G hG, sum_sources_getD chans lenWet wet hw]
  refine ⟨⟨dry.map fun s => s.map G, wet.map fun s => s.map G, (sumSources chans lenWet wet).map G⟩, 31129.6 / peak, ?_, by positivity,
    by simp, by simp, by simp [sumSources], ?_, ?_, ?_, ?_, ?_, ?_⟩
  · unfold makeMix
    refine (bind_iff _ _ _).2 ⟨peak, hpk, ?_⟩
    rw [if_neg hpos.ne']
    simp only [List.map_map, Function.comp_def, G, m]
  · intro s hs
    rw [← hmm]
    rcases List.mem_append.1 hs with h | h
    · obtain ⟨s', hs', rfl⟩ := List.mem_map.1 h
      refine ⟨by simpa using (hd s' hs').1, fun x hx => ?_⟩
      obtain ⟨x', hx', rfl⟩ := List.mem_map.1 hx
      exact hGlen _ (by rw [(hd s' hs').2 x' hx']; exact le_max_left _ _)
    · obtain ⟨s', hs', rfl⟩ := List.mem_map.1 h
      refine ⟨by simpa using (hw s' hs').1, fun x hx => ?_⟩
      obtain ⟨x', hx', rfl⟩ := List.mem_map.1 hx
      exact hGlen _ (by rw [(hw s' hs').2 x' hx', hmm]; exact le_max_right _ _)
  · intro x hx
    obtain ⟨x', hx', rfl⟩ := List.mem_map.1 hx
    rw [← hmm]
    refine hGlen _ ?_
    unfold sumSources at hx'
    obtain ⟨c, rfl⟩ := (List.mem_ofFn' _ _).1 hx'
    rw [List.length_ofFn, hmm]
    exact le_max_right _ _
  · intro s c t
    dsimp only
    rw [hget3]
    exact hFs _ (hbd s c t)
  · intro s c t
    dsimp only
    rw [hget3]
    exact hFs _ (hbw s c t)
  · intro c t
    dsimp only
    rw [hgetm]
    exact hFs _ (hbm c t)
  · intro c t
    dsimp only
    rw [hgetm, List.map_map]
    have e : ((fun s : List (List ℤ) => (s.getD c []).getD t 0) ∘ fun s : Chans => s.map G) = fun s => F ((s.getD c []).getD t 0) := by
      funext s
      simp only [Function.comp]
      rw [getD2_map F hF0 G hG]
    rw [e]
    have h1 := (hFs _ (hbm c t)).1
    have hbw' : ∀ s ∈ wet, |(s.getD c []).getD t 0| ≤ peak := by
      intro s hs
      obtain ⟨i, hi, rfl⟩ := List.mem_iff_getElem.1 hs
      have := hbw i c t
      rwa [getD_some _ i _ hi] at this
    have h2 := sum_error wet (fun s => (F ((s.getD c []).getD t 0) : ℝ)) (fun s => 31129.6 / peak * (s.getD c []).getD t 0)
      fun s hs => (hFs _ (hbw' s hs)).1
    rw [List.sum_map_mul_left] at h2
    -- an integer less than `length + 1` away
    have hcast : (((wet.map fun s => F ((s.getD c []).getD t 0)).sum : ℤ) : ℝ) = (wet.map fun s => (F ((s.getD c []).getD t 0) : ℝ)).sum := by
      rw [Int.cast_list_sum, List.map_map]
      rfl
    have h3 : |((F (wet.map fun s => (s.getD c []).getD t 0).sum - (wet.map fun s => F ((s.getD c []).getD t 0)).sum : ℤ) : ℝ)| < wet.length + 1 := by
      push_cast [hcast]
      have h1' := abs_lt.1 h1
      have h2' := abs_le.1 h2
      rw [abs_lt]
      constructor <;> linarith [h1'.1, h1'.2, h2'.1, h2'.2]
    have h4 : |F (wet.map fun s => (s.getD c []).getD t 0).sum - (wet.map fun s => F ((s.getD c []).getD t 0)).sum| < (wet.length : ℤ) + 1 := by
      exact_mod_cast h3
    omega

/-- One microphone, two sources of different level; the anechoic images are longer. -/
example : ∃ files g, makeMix 1 3 2 [[[1, 0, 1]], [[0, 1, 0]]] [[[1, 2]], [[-3, 1]]] = .ok files ∧ (0 : ℝ) < g ∧ ∀ x ∈ files.mix, x.length = 3 := by
  obtain ⟨f, g, h1, h2, -, -, -, -, h3, -⟩ := make_mix_files 1 3 2 [[[1, 0, 1]], [[0, 1, 0]]] [[[1, 2]], [[-3, 1]]] (by simp) (by simp)
    ⟨[[1, 0, 1]], by simp, [1, 0, 1], by simp, 1, by simp, one_ne_zero⟩
  exact ⟨f, g, h1, h2, h3⟩

/-! ## C116 batches of recordings -/

/-- **C116.** `make_batch_array` on recordings with the same number of channels: with `"max"` every recording starts at the beginning of its
item and is followed by zeros up to the length of the longest; with `"min"` every recording is cut to the length of the shortest; any other
word raises. -/
theorem make_batch (chans : ℕ) (hchans : 0 < chans) (len : Chans → ℕ) (lst : List Chans) (hne : lst ≠ [])
    (hl : ∀ s ∈ lst, s.length = chans ∧ ∀ x ∈ s, x.length = len s) :
    (∃ M, (∀ s ∈ lst, len s ≤ M) ∧ (∃ s ∈ lst, len s = M) ∧ makeBatchArray lst "max" = .ok (lst.map fun s => s.map (Spec.placed M 0))) ∧
    (∃ M, (∀ s ∈ lst, M ≤ len s) ∧ (∃ s ∈ lst, len s = M) ∧ makeBatchArray lst "min" = .ok (lst.map fun s => s.map (List.take M))) ∧
    ∀ w, w ≠ "max" → w ≠ "min" → makeBatchArray lst w = .error .notImplementedError := by
  have hns : ∀ s ∈ lst, nSamples s = len s := by
    intro s hs
    obtain ⟨h1, h2⟩ := hl s hs
    cases s with
    | nil => simp at h1; omega
    | cons x s => exact h2 x (by simp)
  have hhead : (lst.headD []).length = chans := by
    cases lst with
    | nil => exact (hne rfl).elim
    | cons x l => exact (hl x (by simp)).1
  refine ⟨?_, ?_, ?_⟩
  · obtain ⟨M, hM⟩ := Option.ne_none_iff_exists'.1 (mt List.max?_eq_none_iff.1 (show lst.map nSamples ≠ [] by simpa using hne))
    have hM' := List.max?_eq_some_iff.1 hM
    obtain ⟨s, hs, he⟩ := List.mem_map.1 hM'.1
    have hle : ∀ s ∈ lst, len s ≤ M := fun s hs => by rw [← hns s hs]; exact hM'.2 _ (List.mem_map_of_mem hs)
    refine ⟨M, hle, ⟨s, hs, by rw [← hns s hs, he]⟩, ?_⟩
    unfold makeBatchArray
    rw [if_pos rfl, hM]
    dsimp only
    refine mapM_ok _ _ _ fun s hs => ?_
    unfold assignItem
    rw [hhead, if_pos (hl s hs).1]
    refine mapM_ok _ _ _ fun x hx => assignSlice_ok _ _ _ ?_
    rw [(hl s hs).2 x hx]
    have := hle s hs
    omega
  · obtain ⟨M, hM⟩ := Option.ne_none_iff_exists'.1 (mt List.min?_eq_none_iff.1 (show lst.map nSamples ≠ [] by simpa using hne))
    have hM' := List.min?_eq_some_iff.1 hM
    obtain ⟨s, hs, he⟩ := List.mem_map.1 hM'.1
    refine ⟨M, fun s hs => by rw [← hns s hs]; exact hM'.2 _ (List.mem_map_of_mem hs), ⟨s, hs, by rw [← hns s hs, he]⟩, ?_⟩
    unfold makeBatchArray
    rw [if_neg (by decide), if_pos rfl, hM]
    dsimp only
    rw [if_pos]
    rw [List.all_eq_true]
    intro s hs
    rw [decide_eq_true_eq, hhead]
    exact (hl s hs).1
  · intro w h1 h2
    unfold makeBatchArray
    rw [if_neg h1, if_neg h2]

/-- Two recordings of two and three samples. -/
example : makeBatchArray [[[1, 2], [3, 4]], [[5, 6, 7], [8, 9, 0]]] "min" = .ok [[[1, 2], [3, 4]], [[5, 6], [8, 9]]] := by
  obtain ⟨M, hle, ⟨s, hs, he⟩, h⟩ := (make_batch 2 (by norm_num) nSamples [[[1, 2], [3, 4]], [[5, 6, 7], [8, 9, 0]]] (by simp) (by simp [nSamples])).2.1
  have hM : M = 2 := by
    have h2 : M ≤ 2 := hle [[1, 2], [3, 4]] (by simp)
    simp only [List.mem_cons, List.not_mem_nil, or_false] at hs
    rcases hs with rfl | rfl
    · exact he.symm
    · have : (3 : ℕ) = M := he
      omega
  rw [h, hM]
  rfl

private lemma mapM_inv {α β : Type} (f : α → Except Err β) (l : List α) (r : List β) (h : l.mapM f = .ok r) :
    List.Forall₂ (fun a b => f a = .ok b) l r := by
  induction l generalizing r with
  | nil => rw [List.mapM_nil] at h; cases h; exact .nil
  | cons a l ih =>
    rw [List.mapM_cons] at h
    obtain ⟨b, hb, h⟩ := (bind_iff _ _ _).1 h
    obtain ⟨bs, hbs, h⟩ := (bind_iff _ _ _).1 h
    cases h
    exact .cons hb (ih _ hbs)

/-- **C116.** `read_audio` with a reference microphone and an expected sampling frequency returns the reference channels of the files, in their
order, exactly when all the files have that frequency and that channel and the channels have one length (and there is a file). -/
theorem read_audio (files : List (Chans × ℕ)) (refMic fs : ℕ) (rows : Chans) :
    readAudio files refMic (some fs) = .ok rows ↔ files ≠ [] ∧ (∀ f ∈ files, f.2 = fs ∧ refMic < f.1.length) ∧
      (∃ n, ∀ f ∈ files, (f.1.getD refMic []).length = n) ∧ rows = files.map fun f => f.1.getD refMic [] := by
  have hpy : ∀ (l : Chans) (x : List ℝ), pyIndex l (refMic : ℤ) = .ok x ↔ refMic < l.length ∧ x = l.getD refMic [] := by
    intro l x
    unfold pyIndex
    rw [if_pos (by omega), Int.toNat_natCast]
    by_cases h : refMic < l.length
    · rw [List.getElem?_eq_getElem h]
      dsimp only
      rw [getD_some _ _ _ h]
      exact ⟨fun e => ⟨h, (Except.ok.inj e).symm⟩, fun e => by rw [e.2]⟩
    · rw [List.getElem?_eq_none (by omega)]
      exact ⟨fun e => (by cases e), fun e => (h e.1).elim⟩
  have hrow : ∀ (f : Chans × ℕ) (x : List ℝ), (if ∀ fs' ∈ some fs, fs' = f.2 then pyIndex f.1 (refMic : ℤ) else .error .assertionError) = .ok x ↔
      (f.2 = fs ∧ refMic < f.1.length) ∧ x = f.1.getD refMic [] := by
    intro f x
    by_cases h : fs = f.2
    · rw [if_pos (by simpa using h), hpy]
      simp [h]
    · rw [if_neg (by simpa using h)]
      exact ⟨fun e => (by cases e), fun e => (h e.1.1.symm).elim⟩
  unfold readAudio
  rw [bind_iff]
  constructor
  · rintro ⟨r, hr, h⟩
    have hf := mapM_inv _ _ _ hr
    have hall : ∀ (l : List (Chans × ℕ)) (r : List (List ℝ)), List.Forall₂ (fun f x => (if ∀ fs' ∈ some fs, fs' = f.2 then pyIndex f.1 (refMic : ℤ)
        else .error .assertionError) = .ok x) l r → (∀ f ∈ l, f.2 = fs ∧ refMic < f.1.length) ∧ r = l.map fun f => f.1.getD refMic [] := by
      intro l r h
      induction h with
      | nil => exact ⟨by simp, rfl⟩
      | cons h1 _ ih =>
        have := (hrow _ _).1 h1
        refine ⟨?_, by rw [ih.2, this.2]; rfl⟩
        intro f hf
        rcases List.mem_cons.1 hf with rfl | hf
        · exact this.1
        · exact ih.1 f hf
    obtain ⟨h1, h2⟩ := hall _ _ hf
    cases r with
    | nil => cases h
    | cons x r =>
      dsimp only at h
      by_cases hl : ((x :: r).all fun y => decide (y.length = x.length)) = true
      · rw [if_pos hl] at h
        obtain rfl := Except.ok.inj h
        refine ⟨?_, h1, ⟨x.length, fun f hf => ?_⟩, h2⟩
        · rintro rfl
          cases h2
        · have := List.all_eq_true.1 hl (f.1.getD refMic []) (by rw [h2]; exact List.mem_map_of_mem (f := fun f : Chans × ℕ => f.1.getD refMic []) hf)
          simpa using this
      · rw [if_neg hl] at h
        cases h
  · rintro ⟨hne, hall, ⟨n, hn⟩, rfl⟩
    refine ⟨files.map fun f => f.1.getD refMic [], mapM_ok _ _ _ fun f hf => (hrow f _).2 ⟨hall f hf, rfl⟩, ?_⟩
    cases files with
    | nil => exact (hne rfl).elim
    | cons f files =>
      rw [List.map_cons]
      dsimp only
      rw [if_pos]
      rw [List.all_eq_true]
      intro y hy
      rw [← List.map_cons (f := fun f : Chans × ℕ => f.1.getD refMic [])] at hy
      obtain ⟨f', hf', rfl⟩ := List.mem_map.1 hy
      rw [decide_eq_true_eq, hn f' hf', hn f (by simp)]

example : readAudio [([[1, 2], [3, 4]], 16000), ([[5, 6], [7, 8]], 16000)] (1 : ℕ) (some 16000) = .ok [[3, 4], [7, 8]] :=
  (read_audio _ 1 16000 _).2 ⟨by simp, by simp, ⟨2, by simp⟩, rfl⟩

end Torchiva.Props
