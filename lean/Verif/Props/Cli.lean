import Verif.Model.Cli
import Mathlib.Tactic.Linarith

/-! # C62-C64 the command line -/

namespace Torchiva.Props

open Torchiva

/-! ## C62 -/

/-- C62: the command line is accepted exactly when the number of sources does not exceed the number of
microphones, IP2 is used with two microphones and at most two sources, and beamformers are used with
a neural model. -/
theorem cli_accepts_iff (a : CliArgs) :
    (∃ r, cliSetup a = .ok r) ↔
      a.src ≤ a.mic ∧ (a.algo = some .auxivaIp2 → a.mic = 2 ∧ a.src ≤ 2) ∧
      (a.modelType ≠ .nn → a.algo ≠ some .mvdr ∧ a.algo ≠ some .mwf ∧ a.algo ≠ some .gev) := by
  unfold cliSetup
  by_cases h1 : a.src ≤ a.mic
  swap
  · rw [if_pos h1]
    simp [h1]
  rw [if_neg (not_not.2 h1)]
  by_cases h2 : ¬ (a.algo = some .five ∧ a.src > 1) ∧ a.algo = some .auxivaIp2 ∧
      ¬ (a.mic = 2 ∧ a.src ≤ 2)
  · rw [if_pos h2]
    simp only [reduceCtorEq, exists_false, false_iff]
    tauto
  rw [if_neg h2]
  have h2' : a.algo = some .auxivaIp2 → a.mic = 2 ∧ a.src ≤ 2 := fun h => by
    by_contra hc
    exact h2 ⟨by rw [h]; simp, h, hc⟩
  by_cases h3 : a.modelType = .nn
  · rw [if_pos h3]
    simp only [Except.ok.injEq, exists_eq', true_iff]
    exact ⟨h1, h2', fun h => absurd h3 h⟩
  rw [if_neg h3]
  by_cases h4 : a.algo = some .mvdr ∨ a.algo = some .mwf ∨ a.algo = some .gev
  · rw [if_pos h4]
    simp only [reduceCtorEq, exists_false, false_iff]
    tauto
  · rw [if_neg h4]
    simp only [Except.ok.injEq, exists_eq', true_iff]
    push Not at h4
    exact ⟨h1, h2', fun _ => h4⟩

/-- C62: which exception is raised. -/
theorem cli_rejects (a : CliArgs) :
    (a.mic < a.src → cliSetup a = .error .assertionError) ∧
    (a.src ≤ a.mic → a.algo = some .auxivaIp2 → ¬ (a.mic = 2 ∧ a.src ≤ 2) →
      cliSetup a = .error .valueError) ∧
    (a.src ≤ a.mic → a.modelType ≠ .nn → (a.algo = some .mvdr ∨ a.algo = some .mwf ∨ a.algo = some .gev) →
      cliSetup a = .error .valueError) := by
  refine ⟨fun h => ?_, fun h h1 h2 => ?_, fun h h1 h2 => ?_⟩
  · unfold cliSetup; rw [if_pos (by omega)]
  · unfold cliSetup
    rw [if_neg (by omega)]
    rw [if_pos ⟨by rw [h1]; simp, h1, h2⟩]
  · unfold cliSetup
    rw [if_neg (by omega)]
    rw [if_neg, if_neg h1, if_pos h2]
    rcases h2 with h2 | h2 | h2 <;> simp [h2]

/-- The number of sources the command asks for, as the user sees it: one for FIVE. -/
def requestedSrc (a : CliArgs) : ℤ := if a.algo = some .five then min a.src 1 else a.src

/-- C62, what holds: with the neural model, the number of iterations, sources, the reference channel, the
algorithm and the model path are honoured. -/
theorem cli_options_nn_partial (a : CliArgs) (hm : a.modelType = .nn) (r) (h : cliSetup a = .ok r) :
    r = (.loaded a.modelPath a.nIter (requestedSrc a) a.ref false a.algo, requestedSrc a) := by
  unfold cliSetup at h
  split_ifs at h with h1 h2
  have : cliSrc a = requestedSrc a := by
    unfold requestedSrc cliSrc
    by_cases h5 : a.algo = some .five <;> simp only [h5, true_and, false_and, if_true, if_false]
    split_ifs <;> omega
  rw [this] at h
  exact (Except.ok.inj h).symm

example : ∃ r, cliSetup { modelPath := "m", mic := 3, src := 2, nIter := 7 } = .ok r ∧
    r = (.loaded "m" 7 2 0 false none, 2) :=
  ⟨_, rfl, cli_options_nn_partial { modelPath := "m", mic := 3, src := 2, nIter := 7 } rfl _ rfl⟩

/-- C62, what holds: without a neural model, the STFT options, taps, delay, number of sources, algorithm
(T-ISS by default), source model and its options, reference channel and eps are honoured, in those
places. -/
theorem cli_options_classic_partial (a : CliArgs) (hm : a.modelType ≠ .nn) (r) (h : cliSetup a = .ok r) :
    ∃ m : CliModel, (a.modelType = .laplace → m = .laplace a.modelEps) ∧
      (a.modelType = .gauss → m = .gauss a.modelEps) ∧
      (a.modelType = .nmf → m = .nmf a.nBasis a.modelEps) ∧
      r = (.built a.nfft a.hop a.win a.taps a.delay (requestedSrc a) (a.algo.getD .tIss) m a.ref false
        a.eps none, requestedSrc a) := by
  unfold cliSetup at h
  have : cliSrc a = requestedSrc a := by
    unfold requestedSrc cliSrc
    by_cases h5 : a.algo = some .five <;> simp only [h5, true_and, false_and, if_true, if_false]
    split_ifs <;> omega
  rw [this] at h
  split_ifs at h with h1 h2 h4
  refine ⟨_, ?_, ?_, ?_, (Except.ok.inj h).symm⟩
  · intro e; simp [e]
  · intro e; simp [e]
  · intro e; simp [e]

example : ∃ r, cliSetup { modelPath := "m", mic := 3, src := 2, modelType := .gauss, taps := 5, modelEps := some (1 / 2) } = .ok r :=
  ⟨_, rfl⟩

/-- C62, false clause: without a neural model `--n_iter` has no effect at all, the separator always runs
20 iterations. -/
theorem cli_n_iter_violated (a : CliArgs) (hm : a.modelType ≠ .nn) (n : ℤ) :
    cliSetup { a with nIter := n } = cliSetup a ∧
    ∀ r, cliSetup a = .ok r → r.1.effectiveNIter = 20 := by
  refine ⟨?_, fun r h => ?_⟩
  · unfold cliSetup
    simp only [hm, if_false]
    rfl
  obtain ⟨m, -, -, -, rfl⟩ := cli_options_classic_partial a hm r h
  rfl

example : cliSetup { modelPath := "m", modelType := .laplace, nIter := 100 }
    = cliSetup { modelPath := "m", modelType := .laplace, nIter := 1 } :=
  (cli_n_iter_violated { modelPath := "m", modelType := .laplace, nIter := 1 } (by decide) 100).1

/-- C62, false clause: with a neural model the STFT options, taps, delay, eps, number of basis functions
and model eps are ignored. -/
theorem cli_nn_ignores_violated (a : CliArgs) (hm : a.modelType = .nn) (nfft taps dly nb : ℤ)
    (hop : Option ℤ) (win : Option String) (eps meps : Option ℚ) :
    cliSetup { a with
      nfft := nfft, taps := taps, delay := dly, nBasis := nb, hop := hop,
      win := win, eps := eps, modelEps := meps } = cliSetup a := by
  unfold cliSetup
  simp only [hm, if_true]
  rfl

example : cliSetup { modelPath := "m", nfft := 512, taps := 10, delay := 3, nBasis := 4, hop := some 128, win := some "hamming", eps := some 1, modelEps := some 1 } = cliSetup { modelPath := "m" } :=
  cli_nn_ignores_violated { modelPath := "m" } rfl 512 10 3 4 (some 128) (some "hamming") (some 1) (some 1)

/-- With the neural model `--n_iter` is honoured. -/
theorem cli_n_iter_nn (a : CliArgs) (hm : a.modelType = .nn) (r) (h : cliSetup a = .ok r) :
    r.1.effectiveNIter = a.nIter := by
  rw [cli_options_nn_partial a hm r h]
  rfl

example : ∃ r, cliSetup { modelPath := "m", nIter := 7 } = .ok r ∧ r.1.effectiveNIter = 7 :=
  ⟨_, rfl, cli_n_iter_nn { modelPath := "m", nIter := 7 } rfl _ rfl⟩

/-- C62: FIVE never extracts more than one source. -/
theorem cli_five_one_source (a : CliArgs) (h5 : a.algo = some .five) (r) (h : cliSetup a = .ok r) :
    r.2 ≤ 1 := by
  have e : r.2 = requestedSrc a := by
    by_cases hm : a.modelType = .nn
    · rw [cli_options_nn_partial a hm r h]
    · obtain ⟨m, -, -, -, rfl⟩ := cli_options_classic_partial a hm r h
      rfl
  rw [e]
  unfold requestedSrc
  rw [if_pos h5]
  exact min_le_right _ _

example : cliSetup { modelPath := "m", algo := some .five, mic := 3, src := 3, modelType := .nmf } =
    .ok (.built 2048 none none 0 0 1 .five (.nmf 2 none) 0 false none none, 1) := by rfl

example : (cliSetup { modelPath := "m", algo := some .auxivaIp2, mic := 3, src := 2 }) =
    .error .valueError := by rfl

/-! ## C64 -/

/-- Everything about one file: the separator sees the first `min src mic` channels that exist; a
result with more than `src` signals raises `NameError`; otherwise the saved signals are those of the
separator, each cut or zero-padded to the length of the input. -/
theorem separate_one_spec (sep : List (List ℝ) → Except Err (List (List ℝ))) (nSrc nChan n : ℕ)
    (mix : List (List ℝ)) :
    separateOne sep nSrc nChan n mix =
      match sep (mix.take (min nSrc nChan)) with
      | .error e => .error e
      | .ok y => if nSrc < y.length then .error .nameError else .ok (y.map (padTo n)) := by
  unfold separateOne
  have hp : ∀ m k : ℕ, pyTake m (k : ℤ) = min k m := by
    intro m k
    unfold pyTake
    rw [if_neg (by omega)]
    simp
  have key : (if (mix.length : ℤ) > nChan then mix.take (pyTake mix.length nChan) else mix) =
      mix.take nChan := by
    rw [hp]
    split_ifs with h
    · rw [List.take_eq_take_iff]; omega
    · exact (List.take_of_length_le (by omega)).symm
  dsimp only
  rw [key, hp]
  have e2 : (mix.take nChan).take (min nSrc (mix.take nChan).length) = mix.take (min nSrc nChan) := by
    rw [List.take_take, List.take_eq_take_iff, List.length_take]
    omega
  rw [e2]
  cases sep (mix.take (min nSrc nChan)) with
  | error e => rfl
  | ok y =>
    simp only [bind, Except.bind, gt_iff_lt, Nat.cast_lt]

/-- The saved signals all have the length of the input, keep the leading samples and end in zeros. -/
theorem padTo_spec (n : ℕ) (y : List ℝ) :
    (padTo n y).length = n ∧ ∀ i < n, (padTo n y)[i]? = some (y[i]?.getD 0) := by
  unfold padTo
  split_ifs with h
  · refine ⟨by rw [List.length_append, List.length_replicate]; omega, fun i hi => ?_⟩
    rw [List.getElem?_append]
    split_ifs with h1
    · rw [List.getElem?_eq_getElem h1]; rfl
    · rw [List.getElem?_replicate, if_pos (by omega), List.getElem?_eq_none (by omega)]
      rfl
  · refine ⟨by rw [List.length_take]; omega, fun i hi => ?_⟩
    rw [List.getElem?_take, if_pos hi, List.getElem?_eq_getElem (by omega)]
    rfl

/-- C64, false: for every file with more channels than sources, and more than `src` requested, the
separator gets only `src` of them. -/
theorem cli_channels_violated (nSrc nChan : ℕ) (h : nSrc < nChan) (mix : List (List ℝ))
    (hm : nSrc < mix.length) (n : ℕ) :
    ∃ fed, (∀ sep, separateOne sep nSrc nChan n mix = match sep fed with
      | .error e => .error e
      | .ok y => if nSrc < y.length then .error .nameError else .ok (y.map (padTo n))) ∧
      fed.length < (mix.take nChan).length := by
  refine ⟨mix.take (min nSrc nChan), fun sep => separate_one_spec sep nSrc nChan n mix, ?_⟩
  simp only [List.length_take]
  omega

/-- One source out of three microphones: the file has three channels, one reaches the separator. -/
example : ∃ fed : List (List ℝ), (∀ sep, separateOne sep (1 : ℕ) (3 : ℕ) 2 [[1, 2], [3, 4], [5, 6]] = match sep fed with
      | .error e => .error e
      | .ok y => if 1 < y.length then .error .nameError else .ok (y.map (padTo 2))) ∧ fed.length < 3 :=
  cli_channels_violated 1 3 (by norm_num) [[1, 2], [3, 4], [5, 6]] (by norm_num) 2

/-- C64, FIVE: whatever `--mic` is, FIVE gets a single channel, so there is nothing to extract from. -/
theorem cli_five_single_channel (a : CliArgs) (h5 : a.algo = some .five) (hs : 1 ≤ a.src)
    (r) (h : cliSetup a = .ok r) (nChan n : ℕ) (hc : (nChan : ℤ) = a.mic) (c : List ℝ) (cs : List (List ℝ))
    (sep : List (List ℝ) → Except Err (List (List ℝ))) :
    separateOne sep r.2 nChan n (c :: cs) = separateOne sep r.2 nChan n [c] := by
  have hr : r.2 = ((1 : ℕ) : ℤ) := by
    have h1 := cli_five_one_source a h5 r h
    have e : r.2 = requestedSrc a := by
      by_cases hm : a.modelType = .nn
      · rw [cli_options_nn_partial a hm r h]
      · obtain ⟨m, -, -, -, rfl⟩ := cli_options_classic_partial a hm r h
        rfl
    rw [e]
    unfold requestedSrc
    rw [if_pos h5]
    simp [hs]
  have hle := ((cli_accepts_iff a).1 ⟨r, h⟩).1
  rw [hr, separate_one_spec, separate_one_spec]
  have : min 1 nChan = 1 := by omega
  rw [this]
  rfl

example (sep) : separateOne sep 1 (3 : ℕ) 2 [[1, 2], [3, 4], [5, 6]] = separateOne sep 1 (3 : ℕ) 2 [[1, 2]] :=
  cli_five_single_channel { modelPath := "m", algo := some .five, mic := 3, src := 3, modelType := .nmf } rfl (by norm_num) _ rfl 3 2
    rfl [1, 2] [[3, 4], [5, 6]] sep

/-- C64, what holds: when as many sources as microphones are requested, the separator gets the first
`mic` channels, or all of them if there are fewer. -/
theorem cli_channels_partial (sep : List (List ℝ) → Except Err (List (List ℝ))) (k n : ℕ)
    (mix : List (List ℝ)) (y) (h : separateOne sep k k n mix = .ok y) :
    ∃ z, sep (mix.take k) = .ok z ∧ y = z.map (padTo n) ∧ z.length ≤ k := by
  rw [separate_one_spec, min_self] at h
  cases hz : sep (mix.take k) with
  | error e => rw [hz] at h; cases h
  | ok z =>
    rw [hz] at h
    dsimp only at h
    split_ifs at h with h1
    exact ⟨z, rfl, (Except.ok.inj h).symm, by omega⟩

example : ∃ y, separateOne (fun x => .ok x) (2 : ℕ) (2 : ℕ) 2 [[1, 2], [3, 4], [5, 6]] = .ok y ∧ y.length = 2 := by
  refine ⟨[[1, 2], [3, 4]], ?_, rfl⟩
  rw [separate_one_spec]
  simp [padTo]

/-- C62/C64: a separator that returns more signals than `--src` always ends in a `NameError`. -/
theorem cli_too_many_outputs_violated (sep : List (List ℝ) → Except Err (List (List ℝ))) (k m n : ℕ)
    (mix : List (List ℝ)) (z) (hz : sep (mix.take (min k m)) = .ok z) (h : k < z.length) :
    separateOne sep k m n mix = .error .nameError := by
  rw [separate_one_spec, hz]
  simp [h]

example : separateOne (fun x => .ok x) 2 2 3 [[1, 2, 3], [4, 5], [6]] = .ok [[1, 2, 3], [4, 5, 0]] := by
  rw [show ((2 : ℤ)) = ((2 : ℕ) : ℤ) from rfl, separate_one_spec]
  simp [padTo]

/-! ## C63 -/

variable {C : Type}

theorem processAll_ok (proc : C → Except Err C) (output : FPath) (l : List FPath) (fs : Files C)
    (res : FPath → C) (src : FPath → C)
    (hin : ∀ p ∈ l, fs p = .file (src p)) (hproc : ∀ p ∈ l, proc (src p) = .ok (res p))
    (hname : (l.map fname).Nodup)
    (hout : ∀ p ∈ l, ∀ q ∈ l, p ≠ output ++ [fname q])
    (hdir : ∀ p ∈ l, ∀ hd : FNode C, fs (output ++ [fname p]) = hd → hd ≠ .dir) :
    ∃ fs', processAll proc output l fs = (.ok (), fs') ∧
      (∀ p ∈ l, fs' (output ++ [fname p]) = .file (res p)) ∧
      ∀ q, (∀ p ∈ l, q ≠ output ++ [fname p]) → fs' q = fs q := by
  induction l generalizing fs with
  | nil => exact ⟨fs, rfl, by simp, fun _ _ => rfl⟩
  | cons p ps ih =>
    rw [List.map_cons, List.nodup_cons] at hname
    have hstep : processFile proc fs p (output ++ [fname p]) =
        (.ok (), fun q => if q = output ++ [fname p] then .file (res p) else fs q) := by
      unfold processFile
      rw [hin p (by simp)]
      dsimp only
      rw [hproc p (by simp)]
      dsimp only
      have := hdir p (by simp) _ rfl
      cases e : fs (output ++ [fname p]) with
      | dir => exact absurd e this
      | absent => rfl
      | file c => rfl
    have hne : ∀ q ∈ ps, output ++ [fname q] ≠ output ++ [fname p] := by
      intro q hq he
      have : fname q = fname p := by simpa using he
      exact hname.1 (this ▸ List.mem_map_of_mem hq)
    obtain ⟨fs', h1, h2, h3⟩ := ih (fun q => if q = output ++ [fname p] then .file (res p) else fs q)
      (fun q hq => by
        rw [if_neg (hout q (List.mem_cons_of_mem _ hq) p (by simp))]
        exact hin q (List.mem_cons_of_mem _ hq))
      (fun q hq => hproc q (List.mem_cons_of_mem _ hq)) hname.2
      (fun q hq r hr => hout q (List.mem_cons_of_mem _ hq) r (List.mem_cons_of_mem _ hr))
      (fun q hq hd he => by
        rw [if_neg (hne q hq)] at he
        exact hdir q (List.mem_cons_of_mem _ hq) hd he)
    refine ⟨fs', ?_, ?_, ?_⟩
    · unfold processAll
      rw [hstep]
      exact h1
    · intro q hq
      rcases List.mem_cons.1 hq with rfl | hq
      · rw [h3 _ fun r hr => (hne r hr).symm]
        simp
      · exact h2 q hq
    · intro q hq
      rw [h3 q fun r hr => hq r (List.mem_cons_of_mem _ hr), if_neg (hq p (by simp))]

/-- C63, what holds: if the sound files found have different names, none of them lies directly in the
output folder, and each can be separated, then the run succeeds, every input file has its own output
file with its own result, and nothing else changes - in particular no input file. -/
theorem folder_outputs_partial (proc : C → Except Err C) (found : List FPath) (input output : FPath)
    (fs : Files C) (res src : FPath → C) (hd : fs input = .dir) (ho : fs output = .dir)
    (hne : output ≠ input)
    (hin : ∀ p ∈ found, fs p = .file (src p)) (hproc : ∀ p ∈ found, proc (src p) = .ok (res p))
    (hname : (found.map fname).Nodup)
    (hout : ∀ p ∈ found, p.dropLast ≠ output)
    (hdir : ∀ p ∈ found, fs (output ++ [fname p]) ≠ .dir) :
    ∃ fs', cliFiles proc found input output fs = (.ok (), fs') ∧
      (∀ p ∈ found, fs' (output ++ [fname p]) = .file (res p)) ∧
      (∀ p ∈ found, fs' p = fs p) ∧
      ∀ q, q.dropLast ≠ output → fs' q = fs q := by
  have hne' : ∀ p ∈ found, ∀ q ∈ found, p ≠ output ++ [fname q] := by
    intro p hp q _ he
    exact hout p hp (by rw [he]; simp)
  obtain ⟨fs', h1, h2, h3⟩ := processAll_ok proc output found fs res src hin hproc hname hne'
    (fun p hp hd he => he ▸ hdir p hp)
  refine ⟨fs', ?_, h2, fun p hp => h3 p fun q hq => hne' p hp q hq, fun q hq => h3 q fun p _ he => hq ?_⟩
  · unfold cliFiles
    simp only [hd, ho, if_neg hne]
    exact h1
  · rw [he]; simp

/-- C63: a missing output folder is created and behaves the same. -/
theorem folder_outputs_new_partial (proc : C → Except Err C) (found : List FPath) (input output : FPath)
    (fs : Files C) (res src : FPath → C) (hd : fs input = .dir) (ho : fs output = .absent)
    (hempty : ∀ s, fs (output ++ [s]) = .absent)
    (hin : ∀ p ∈ found, fs p = .file (src p)) (hproc : ∀ p ∈ found, proc (src p) = .ok (res p))
    (hname : (found.map fname).Nodup) (hne : ∀ p ∈ found, p ≠ []) :
    ∃ fs', cliFiles proc found input output fs = (.ok (), fs') ∧ fs' output = .dir ∧
      (∀ p ∈ found, fs' (output ++ [fname p]) = .file (res p)) ∧
      (∀ p ∈ found, fs' p = fs p) := by
  have hnd : ∀ s : String, output ++ [s] ≠ output := fun s h => by
    have := congrArg List.length h
    simp at this
  have hpo : ∀ p ∈ found, p ≠ output := fun p hp e => by
    have := hin p hp
    rw [e, ho] at this
    cases this
  have hne' : ∀ p ∈ found, ∀ q ∈ found, p ≠ output ++ [fname q] := by
    intro p hp q _ he
    have := hin p hp
    rw [he, hempty] at this
    cases this
  obtain ⟨fs', h1, h2, h3⟩ := processAll_ok proc output found
    (fun q => if q = output then .dir else fs q) res src
    (fun p hp => by rw [if_neg (hpo p hp)]; exact hin p hp) hproc hname hne'
    (fun p hp hd he => by
      rw [if_neg (hnd _), hempty] at he
      rw [← he]; simp)
  refine ⟨fs', ?_, ?_, h2, fun p hp => ?_⟩
  · unfold cliFiles
    simp only [hd, ho]
    exact h1
  · rw [h3 output fun p _ h => hnd _ h.symm]; simp
  · rw [h3 p fun q hq => hne' p hp q hq, if_neg (hpo p hp)]

/-- Two files in different folders, and an output folder that does not exist yet. -/
example : ∃ fs', cliFiles (C := ℕ) (fun c => .ok (c + 1)) [["in", "a", "x.wav"], ["in", "y.wav"]] ["in"] ["out"]
    (fun p => if p = ["in"] then .dir else if p = ["in", "a", "x.wav"] then .file 5
      else if p = ["in", "y.wav"] then .file 6 else .absent) = (.ok (), fs') := by
  refine (folder_outputs_new_partial (fun c => .ok (c + 1)) _ _ _ _
    (fun p => if p = ["in", "y.wav"] then 7 else 6) (fun p => if p = ["in", "y.wav"] then 6 else 5)
    (by simp) (by simp) (by simp) ?_ ?_ (by decide) ?_).imp fun _ h => h.1
  all_goals
    intro p hp
    simp only [List.mem_cons, List.not_mem_nil, or_false] at hp
    rcases hp with rfl | rfl <;> simp

/-- C63, false: two sound files of the same name in different subfolders are written to the same output
file; only the result of the later one survives, although the run succeeds. -/
theorem folder_collision_violated (proc : C → Except Err C) (input output d1 d2 : FPath) (name : String)
    (fs : Files C) (c1 c2 r1 r2 : C) (hd : fs input = .dir) (ho : fs output = .dir) (hne : output ≠ input)
    (h1 : fs (input ++ d1 ++ [name]) = .file c1) (h2 : fs (input ++ d2 ++ [name]) = .file c2)
    (hout : input ++ d2 ≠ output)
    (hnd : fs (output ++ [name]) ≠ .dir)
    (hr1 : proc c1 = .ok r1) (hr2 : proc c2 = .ok r2) :
    ∃ fs', cliFiles proc [input ++ d1 ++ [name], input ++ d2 ++ [name]] input output fs = (.ok (), fs') ∧
      fs' (output ++ [name]) = .file r2 ∧ ∀ q, q ≠ output ++ [name] → fs' q = fs q := by
  have n1 : fname (input ++ d1 ++ [name]) = name := by simp [fname]
  have n2 : fname (input ++ d2 ++ [name]) = name := by simp [fname]
  have hne2 : input ++ d2 ++ [name] ≠ output ++ [name] := fun h => hout (List.append_cancel_right h)
  refine ⟨fun q => if q = output ++ [name] then .file r2 else fs q, ?_, by simp, fun q hq => by simp [hq]⟩
  have e1 : processFile proc fs (input ++ d1 ++ [name]) (output ++ [name]) =
      (.ok (), fun q => if q = output ++ [name] then .file r1 else fs q) := by
    unfold processFile
    rw [h1]
    dsimp only
    rw [hr1]
    dsimp only
    cases e : fs (output ++ [name]) with
    | dir => exact absurd e hnd
    | absent => rfl
    | file c => rfl
  have e2 : processFile proc (fun q => if q = output ++ [name] then .file r1 else fs q)
      (input ++ d2 ++ [name]) (output ++ [name]) =
      (.ok (), fun q => if q = output ++ [name] then .file r2 else fs q) := by
    unfold processFile
    simp only [if_neg hne2, h2, hr2]
    refine Prod.ext rfl ?_
    funext q
    simp only [if_true]
    split_ifs <;> rfl
  unfold cliFiles
  simp only [hd, ho, if_neg hne, processAll, n1, n2, e1, e2]

example : ∃ fs', cliFiles (C := ℕ) (fun c => .ok (c + 1)) [["in", "a", "x.wav"], ["in", "b", "x.wav"]] ["in"] ["out"]
      (fun p => if p = ["in"] ∨ p = ["out"] then .dir else if p = ["in", "a", "x.wav"] then .file 5
        else if p = ["in", "b", "x.wav"] then .file 6 else .absent) = (.ok (), fs') ∧ fs' ["out", "x.wav"] = .file 7 :=
  (folder_collision_violated (C := ℕ) (fun c => .ok (c + 1)) ["in"] ["out"] ["a"] ["b"] "x.wav" _ 5 6 6 7 (by simp) (by simp)
    (by decide) (by simp) (by simp) (by decide) (by simp) rfl rfl).imp fun _ h => ⟨h.1, h.2.1⟩

/-- C63, false: with `output` the folder that contains the input file, the check that input and output
differ passes and the input file is replaced by its separation. -/
theorem input_overwritten_violated (proc : C → Except Err C) (d : FPath) (name : String) (fs : Files C)
    (c r : C) (hd : fs d = .dir) (hc : fs (d ++ [name]) = .file c) (hw : isWav (d ++ [name]) = true)
    (hr : proc c = .ok r) :
    ∃ fs', cliFiles proc [] (d ++ [name]) d fs = (.ok (), fs') ∧ fs' (d ++ [name]) = .file r := by
  have hn : fname (d ++ [name]) = name := by simp [fname]
  have hne : d ≠ d ++ [name] := fun h => by
    have := congrArg List.length h
    simp at this
  refine ⟨fun q => if q = d ++ [name] then .file r else fs q, ?_, by simp⟩
  unfold cliFiles
  simp only [hc, hd, hw, hn, not_true, if_false, if_neg hne]
  unfold processFile
  simp only [hc, hr]

example : ∃ fs', cliFiles (C := ℕ) (fun c => .ok (c + 1)) [] ["d", "x.wav"] ["d"]
      (fun p => if p = ["d"] then .dir else if p = ["d", "x.wav"] then .file 5 else .absent) = (.ok (), fs') ∧
    fs' ["d", "x.wav"] = .file 6 :=
  input_overwritten_violated (C := ℕ) (fun c => .ok (c + 1)) ["d"] "x.wav" _ 5 6 (by simp) (by simp) (by decide) rfl

/-- C63: a single sound file is separated into the given file, or under its own name into the given
folder; other files are unchanged. -/
theorem single_file_output (proc : C → Except Err C) (input output : FPath) (fs : Files C) (c r : C)
    (hc : fs input = .file c) (hw : isWav input = true) (hr : proc c = .ok r) (hne : output ≠ input) :
    (fs output ≠ .dir → ∃ fs', cliFiles proc [] input output fs = (.ok (), fs') ∧
      fs' output = .file r ∧ ∀ q, q ≠ output → fs' q = fs q) ∧
    (fs output = .dir → fs (output ++ [fname input]) ≠ .dir →
      ∃ fs', cliFiles proc [] input output fs = (.ok (), fs') ∧
      fs' (output ++ [fname input]) = .file r ∧ ∀ q, q ≠ output ++ [fname input] → fs' q = fs q) := by
  constructor
  · intro ho
    refine ⟨fun q => if q = output then .file r else fs q, ?_, by simp, fun q hq => by simp [hq]⟩
    unfold cliFiles
    simp only [hc, hw, not_true, if_false, if_neg hne]
    unfold processFile
    cases e : fs output with
    | dir => exact absurd e ho
    | absent => simp [hc, hr, e]
    | file c => simp [hc, hr, e]
  · intro ho hd
    refine ⟨fun q => if q = output ++ [fname input] then .file r else fs q, ?_, by simp,
      fun q hq => by simp [hq]⟩
    unfold cliFiles
    simp only [hc, ho, hw, not_true, if_false, if_neg hne]
    unfold processFile
    cases e : fs (output ++ [fname input]) with
    | dir => exact absurd e hd
    | absent => simp [hc, hr]
    | file c => simp [hc, hr]

example : ∃ fs', cliFiles (C := ℕ) (fun c => .ok (c + 1)) [] ["d", "x.wav"] ["e"]
      (fun p => if p = ["d"] ∨ p = ["e"] then .dir else if p = ["d", "x.wav"] then .file 5 else .absent) = (.ok (), fs') ∧
    fs' ["e", "x.wav"] = .file 6 :=
  ((single_file_output (C := ℕ) (fun c => .ok (c + 1)) ["d", "x.wav"] ["e"] _ 5 6 (by simp) (by decide) rfl (by decide)).2
    (by simp) (by simp [fname])).imp fun _ h => ⟨h.1, h.2.1⟩

/-- C62/C63: inputs that are rejected, with no file changed: a file that is not a wav file, equal input
and output. -/
theorem cli_path_rejects (proc : C → Except Err C) (found : List FPath) (input output : FPath)
    (fs : Files C) :
    (fs input ≠ .dir → isWav input = false → cliFiles proc found input output fs = (.error .valueError, fs)) ∧
    (fs input = .dir → output = input → cliFiles proc found input output fs = (.error .valueError, fs)) ∧
    (isWav input = true → fs input ≠ .dir → output = input →
      cliFiles proc found input output fs = (.error .valueError, fs)) := by
  refine ⟨fun h hw => ?_, fun h he => ?_, fun hw h he => ?_⟩
  · unfold cliFiles
    cases e : fs input with
    | dir => exact absurd e h
    | absent => simp [hw]
    | file c => simp [hw]
  · subst he
    unfold cliFiles
    simp [h]
  · subst he
    unfold cliFiles
    cases e : fs output with
    | dir => exact absurd e h
    | absent => simp [hw]
    | file c => simp [hw]

/-- The files the command accepts: those whose name is a nonempty stem followed by `.wav`. -/
theorem isWav_iff (p : FPath) :
    isWav p = true ↔ ∃ stem : List Char, stem ≠ [] ∧ (fname p).toList = stem ++ ".wav".toList := by
  unfold isWav
  rw [decide_eq_true_eq]
  have hlen : (fname p).length = (fname p).toList.length := String.length_toList.symm
  constructor
  · rintro ⟨h1, h2⟩
    obtain ⟨stem, hs⟩ := List.isSuffixOf_iff_suffix.1 h1
    refine ⟨stem, ?_, hs.symm⟩
    rintro rfl
    rw [hlen, ← hs] at h2
    exact absurd h2 (by decide)
  · rintro ⟨stem, h0, hs⟩
    refine ⟨List.isSuffixOf_iff_suffix.2 ⟨stem, hs.symm⟩, ?_⟩
    rw [hlen, hs]
    have := List.length_pos_of_ne_nil h0
    simp
    omega

example : isWav ["d", "x.wav"] = true ∧ isWav ["d", ".wav"] = false ∧ isWav ["d", "x.WAV"] = false := by decide

/-- A concrete tree that meets the hypotheses of `folder_outputs_partial`. -/
example : ∃ fs', cliFiles (C := ℕ) (fun c => .ok (c + 1)) [["in", "a", "x.wav"], ["in", "y.wav"]] ["in"] ["out"]
    (fun p => if p = ["in"] ∨ p = ["out"] then .dir else if p = ["in", "a", "x.wav"] then .file 5
      else if p = ["in", "y.wav"] then .file 6 else .absent) = (.ok (), fs') := by
  refine (folder_outputs_partial (fun c => .ok (c + 1)) _ _ _ _
    (fun p => if p = ["in", "y.wav"] then 7 else 6) (fun p => if p = ["in", "y.wav"] then 6 else 5)
    (by simp) (by simp) (by decide) ?_ ?_ (by decide) ?_ ?_).imp fun _ h => h.1
  all_goals
    intro p hp
    simp only [List.mem_cons, List.not_mem_nil, or_false] at hp
    rcases hp with rfl | rfl <;> simp [fname]

end Torchiva.Props
