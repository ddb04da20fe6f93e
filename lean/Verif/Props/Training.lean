import Verif.Model.Training
import Verif.Spec.Training
import Verif.Proofs.TIss
import Verif.Props.Utils
import Verif.Props.Examples

/-! # C106- : training and evaluation scripts -/

namespace Torchiva.Props

open Torchiva _root_.Spec

variable {B C S n n' : ℕ}

/-! ## C106 the training loss -/

lemma bestAssignment_reindex {X : Type} {K : ℕ} (loss : X → X → ℝ) (est ref : Fin K → X) (π τ : Equiv.Perm (Fin K)) :
    bestAssignment loss (fun k => est (π k)) (fun k => ref (τ k)) = bestAssignment loss est ref := by
  unfold bestAssignment
  refine le_antisymm ?_ ?_
  · refine Finset.le_inf' _ _ fun σ _ => ?_
    refine (Finset.inf'_le _ (Finset.mem_univ ((τ.trans σ).trans π.symm))).trans (le_of_eq ?_)
    rw [← Equiv.sum_comp τ fun k => loss (est (σ k)) (ref k)]
    simp
  · refine Finset.le_inf' _ _ fun σ _ => ?_
    refine (Finset.inf'_le _ (Finset.mem_univ ((τ.symm.trans σ).trans π))).trans (le_of_eq ?_)
    rw [← Equiv.sum_comp τ]
    simp

private lemma pit_sum {loss pit} (hp : PitContract loss pit) {m K : ℕ} (est ref : Fin K → Fin m → ℂ) :
    ∃ l : List ℝ, pit m (List.ofFn est) (List.ofFn ref) = .ok l ∧ l.length = K ∧ l.sum = bestAssignment (loss m) est ref := by
  obtain ⟨σ, h, hmin⟩ := hp m K est ref
  refine ⟨_, h, List.length_ofFn, ?_⟩
  rw [List.sum_ofFn]
  exact le_antisymm (Finset.le_inf' _ _ fun τ _ => hmin τ) (Finset.inf'_le _ (Finset.mem_univ σ))

private lemma select_range {N : ℕ} [NeZero N] (argsort : (Fin C → ℝ) → Equiv.Perm (Fin C)) (hsort : ArgsortDescContract C argsort)
    (x : Fin C → Fin N → ℂ) (e : Fin S ↪ Fin C) (he : ∀ c, c ∉ Set.range e → ∀ k, energyOf (x c) < energyOf (x (e k))) :
    ∃ π : Equiv.Perm (Fin S), selectMostEnergetic argsort x S = List.ofFn fun k => x (e (π k)) := by
  obtain ⟨idx, hx, hl, hnd, -, hbest⟩ := select_most_energetic argsort hsort x S
  have hSC : S ≤ C := by simpa using Fintype.card_le_of_embedding e
  rw [min_eq_left hSC] at hl
  have hsub : ∀ c ∈ idx, c ∈ Set.range e := by
    intro c hc
    by_contra hne
    have : ∃ k, e k ∉ idx := by
      by_contra hall
      push Not at hall
      have h1 : Finset.univ.map e ⊆ idx.toFinset.erase c := by
        intro d hd
        obtain ⟨k, -, rfl⟩ := Finset.mem_map.1 hd
        refine Finset.mem_erase.2 ⟨fun h => hne ⟨k, h⟩, List.mem_toFinset.2 (hall k)⟩
      have h2 := Finset.card_le_card h1
      rw [Finset.card_map, Finset.card_univ, Fintype.card_fin, Finset.card_erase_of_mem (List.mem_toFinset.2 hc),
        List.toFinset_card_of_nodup hnd, hl] at h2
      have : 0 < idx.length := List.length_pos_of_mem hc
      omega
    obtain ⟨k, hk⟩ := this
    exact absurd (hbest c hc (e k) hk) (not_le.2 (he c hne k))
  subst hl
  choose g hg using fun k : Fin idx.length => hsub (idx.get k) (List.get_mem _ _)
  have hinj : Function.Injective g := by
    intro i j hij
    have : idx.get i = idx.get j := by rw [← hg i, ← hg j, hij]
    exact hnd.injective_get this
  refine ⟨Equiv.ofBijective g (Finite.injective_iff_bijective.1 hinj), ?_⟩
  rw [hx]
  conv_lhs => rw [← List.ofFn_get idx, List.map_ofFn]
  congr 1
  funext k
  show x (idx.get k) = x (e (g k))
  rw [hg k]

/-- **C106.** The training loss is the average, over the items and the sources, of the losses of the pairs in the best assignment of
separated signals to references, over their common length: for as many separated signals as references all of them, otherwise the
strongest ones (chosen by `e`, every other signal being weaker).  The order in which `select_most_energetic` sorts does not matter. -/
theorem training_loss (loss pit) (hp : PitContract loss pit) (argsort : (Fin C → ℝ) → Equiv.Perm (Fin C))
    (hsort : ArgsortDescContract C argsort) (hn : 0 < n) (hn' : 0 < n') (hB : 0 < B) (hS : 0 < S)
    (yhat : Fin B → Fin C → Fin n → ℂ) (y : Fin B → Fin S → Fin n' → ℂ) (e : Fin B → Fin S ↪ Fin C)
    (he : ∀ b c, c ∉ Set.range (e b) → ∀ k, energyOf (firstSamples (min_le_left n n') (yhat b c))
      < energyOf (firstSamples (min_le_left n n') (yhat b (e b k)))) :
    computeMetrics argsort pit S yhat y = .ok
      ((∑ b, bestAssignment (loss (min n n')) (fun k => firstSamples (min_le_left n n') (yhat b (e b k)))
        (fun k => firstSamples (min_le_right n n') (y b k))) / (B * S)) := by
  haveI : NeZero (min n n') := ⟨by omega⟩
  have key : ∀ b, ∃ l : List ℝ, pit (min n n')
      (selectMostEnergetic argsort (fun c (t : Fin (min n n')) => yhat b c ⟨t, by omega⟩) S)
      (List.ofFn fun c (t : Fin (min n n')) => y b c ⟨t, by omega⟩) = .ok l ∧ l.length = S ∧
      l.sum = bestAssignment (loss (min n n')) (fun k => firstSamples (min_le_left n n') (yhat b (e b k)))
        (fun k => firstSamples (min_le_right n n') (y b k)) := by
    intro b
    obtain ⟨π, h⟩ := select_range argsort hsort (fun c (t : Fin (min n n')) => yhat b c ⟨t, by omega⟩) (e b) (he b)
    rw [h]
    obtain ⟨l, h1, h2, h3⟩ := pit_sum hp (fun k (t : Fin (min n n')) => yhat b (e b (π k)) ⟨t, by omega⟩)
      fun c (t : Fin (min n n')) => y b c ⟨t, by omega⟩
    refine ⟨l, h1, h2, h3.trans ?_⟩
    exact bestAssignment_reindex (loss (min n n')) (fun k => firstSamples (min_le_left n n') (yhat b (e b k)))
      (fun k => firstSamples (min_le_right n n') (y b k)) π 1
  choose l h1 h2 h3 using key
  unfold computeMetrics
  dsimp only
  rw [seqAll_ok_iff.2 h1]
  have hlen : (List.ofFn l).flatten.length = B * S := by
    rw [List.length_flatten, List.map_ofFn, List.sum_ofFn]
    simp [h2]
  have hsum : (List.ofFn l).flatten.sum = ∑ b, (l b).sum := by
    rw [List.sum_flatten, List.map_ofFn, List.sum_ofFn]
    rfl
  have hne : (List.ofFn l).flatten ≠ [] := by
    intro h
    rw [h, List.length_nil] at hlen
    have := Nat.mul_pos hB hS
    omega
  simp only [bind, Except.bind, tensorMean, if_neg hne, hlen, hsum, h3]
  push_cast
  rfl

/-- **C106.** The loss does not depend on the order of the separated signals nor on that of the references, in any item of the
batch (as many signals as references). -/
theorem training_loss_order (loss pit) (hp : PitContract loss pit) (argsort : (Fin S → ℝ) → Equiv.Perm (Fin S))
    (hsort : ArgsortDescContract S argsort) (hn : 0 < n) (hn' : 0 < n') (hB : 0 < B) (hS : 0 < S)
    (yhat : Fin B → Fin S → Fin n → ℂ) (y : Fin B → Fin S → Fin n' → ℂ) (π τ : Fin B → Equiv.Perm (Fin S)) :
    computeMetrics argsort pit S (fun b k => yhat b (π b k)) (fun b k => y b (τ b k)) = computeMetrics argsort pit S yhat y := by
  have hr : ∀ (c : Fin S), c ∉ Set.range (Function.Embedding.refl (Fin S)) → False := fun c h => h ⟨c, rfl⟩
  rw [training_loss loss pit hp argsort hsort hn hn' hB hS _ _ (fun _ => Function.Embedding.refl _) fun b c hc => (hr c hc).elim,
    training_loss loss pit hp argsort hsort hn hn' hB hS _ _ (fun _ => Function.Embedding.refl _) fun b c hc => (hr c hc).elim]
  refine congrArg (fun v : ℝ => (Except.ok v : Except Err ℝ)) (congrArg (· / ((B : ℝ) * S)) (Finset.sum_congr rfl fun b _ => ?_))
  exact bestAssignment_reindex (loss (min n n')) (fun k => firstSamples (min_le_left n n') (yhat b k))
    (fun k => firstSamples (min_le_right n n') (y b k)) (π b) (τ b)

/-- Exchanging the two signals of the first item. -/
example (argsort pit) (hp : PitContract (fun m a b => ∑ t : Fin m, ‖a t - b t‖ ^ 2) pit) (hsort : ArgsortDescContract 2 argsort)
    (yhat y : Fin 3 → Fin 2 → Fin 4 → ℂ) :
    computeMetrics argsort pit 2 (fun b k => yhat b (if b = 0 then Equiv.swap 0 1 k else k)) y =
      computeMetrics argsort pit 2 yhat y := by
  have := training_loss_order _ pit hp argsort hsort (by norm_num) (by norm_num) (by norm_num) (by norm_num) yhat y
    (fun b => if b = 0 then Equiv.swap 0 1 else 1) fun _ => 1
  simp only [Equiv.Perm.one_apply] at this
  refine Eq.trans ?_ this
  congr 1
  funext b k
  split_ifs <;> rfl

/-- **C106.** A training or validation step only uses the first `n_chan` channels of the mixtures. -/
theorem training_step_channels (argsort pit) (nSrc : ℤ) (nChan : ℕ) (separator : (Fin B → List (List ℝ)) → Except Err (SepBatch B))
    (x x' : Fin B → List (List ℝ)) (y : Fin B → Fin S → Fin n' → ℂ) (h : ∀ b, (x b).take nChan = (x' b).take nChan) :
    trainingStep argsort pit nSrc nChan separator x y = trainingStep argsort pit nSrc nChan separator x' y ∧
    trainingStep argsort pit nSrc nChan separator x y = (separator fun b => (x b).take nChan).bind fun out =>
      computeMetrics (argsort out.chans) pit nSrc out.val y := by
  have hx : ∀ z : List (List ℝ), z.take (sliceBound z.length nChan) = z.take nChan := by
    intro z
    unfold sliceBound
    rw [if_neg (by omega), Int.toNat_natCast]
    simp
  have key : ∀ z : Fin B → List (List ℝ), trainingStep argsort pit nSrc nChan separator z y
      = (separator fun b => (z b).take nChan).bind fun out => computeMetrics (argsort out.chans) pit nSrc out.val y := by
    intro z
    unfold trainingStep
    simp only [hx]
    rfl
  refine ⟨?_, key x⟩
  rw [key, key]
  simp only [h]

/-- A third channel of the mixtures is not used with `n_chan = 2`. -/
example (argsort pit) (separator : (Fin 1 → List (List ℝ)) → Except Err (SepBatch 1)) (y : Fin 1 → Fin 2 → Fin 3 → ℂ) :
    trainingStep argsort pit 2 2 separator (fun _ => [[1, 2, 3], [4, 5, 6], [7, 8, 9]]) y =
      trainingStep argsort pit 2 2 separator (fun _ => [[1, 2, 3], [4, 5, 6]]) y :=
  (training_step_channels argsort pit 2 2 separator _ _ y (by simp)).1

/-- Every loss has an implementation that meets the contract. -/
lemma pit_exists (loss : ∀ m, (Fin m → ℂ) → (Fin m → ℂ) → ℝ) : ∃ pit, PitContract loss pit := by
  classical
  have hex : ∀ (m K : ℕ) (est ref : Fin K → Fin m → ℂ), ∃ σ : Equiv.Perm (Fin K), ∀ τ : Equiv.Perm (Fin K),
      ∑ k, loss m (est (σ k)) (ref k) ≤ ∑ k, loss m (est (τ k)) (ref k) := fun m K est ref =>
    (Finite.exists_min fun σ : Equiv.Perm (Fin K) => ∑ k, loss m (est (σ k)) (ref k))
  choose σ hσ using hex
  refine ⟨fun m est ref => if h : ref.length = est.length then
      .ok (List.ofFn fun k : Fin est.length =>
        loss m (est.get (σ m est.length est.get (fun k => ref.get (k.cast h.symm)) k)) (ref.get (k.cast h.symm)))
    else .error .runtimeError, fun m K est ref => ?_⟩
  have gen : ∀ (K' : ℕ) (hK : K' = K) (est' ref' : Fin K' → Fin m → ℂ) (_ : ∀ k, est' k = est (k.cast hK))
      (_ : ∀ k, ref' k = ref (k.cast hK)),
      (List.ofFn fun k => loss m (est' (σ m K' est' ref' k)) (ref' k))
        = List.ofFn fun k => loss m (est (σ m K est ref k)) (ref k) := by
    rintro K' rfl est' ref' h1 h2
    obtain rfl : est' = est := funext h1
    obtain rfl : ref' = ref := funext h2
    rfl
  refine ⟨σ m K est ref, ?_, hσ m K est ref⟩
  refine (dif_pos (by simp)).trans ?_
  refine congrArg Except.ok (gen _ (by simp) _ _ (fun k => ?_) fun k => ?_) <;> simp [List.get_eq_getElem] <;> rfl

/-- Two items with three separated signals of two samples, two references of one sample, the squared distance as loss: the last two signals are the
strongest, they are exchanged with respect to the references, and the loss is zero. -/
example : ∃ (argsort : _) (pit : _) (yhat : Fin 2 → Fin 3 → Fin 2 → ℂ) (y : Fin 2 → Fin 2 → Fin 1 → ℂ), ArgsortDescContract 3 argsort ∧
    PitContract (fun m a b => ∑ t : Fin m, ‖a t - b t‖ ^ 2) pit ∧ computeMetrics argsort pit 2 yhat y = .ok 0 := by
  obtain ⟨pit, hp⟩ := pit_exists fun m a b => ∑ t : Fin m, ‖a t - b t‖ ^ 2
  have hs : ArgsortDescContract 3 fun v => Tuple.sort fun i => -v i := fun v i j hij => by
    have := Tuple.monotone_sort (fun i => -v i) hij
    simpa using this
  have hloss := training_loss (B := 2) (S := 2) (n := 2) (n' := 1) _ pit hp (fun v => Tuple.sort fun i => -v i) hs (by norm_num) (by norm_num)
    (by norm_num) (by norm_num) (fun _ k _ => ((k : ℕ) : ℂ)) (fun _ k _ => if k = 0 then 2 else 1)
    (fun _ => Fin.succEmb 2) (by
      intro b c hc k
      have : c = 0 := by
        by_contra h
        exact hc ⟨c.pred h, Fin.succ_pred c h⟩
      subst this
      have : (0 : ℝ) < ((k.succ : Fin 3) : ℕ) := by simp; positivity
      simp only [energyOf, firstSamples, Fin.val_zero, Nat.cast_zero, norm_zero]
      refine Finset.sum_lt_sum_of_nonempty (Finset.univ_nonempty_iff.2 ⟨⟨0, by norm_num⟩⟩) fun t _ => ?_
      have h0 : ‖(((Fin.succEmb 2 k : Fin 3) : ℕ) : ℂ)‖ ≠ 0 := by
        simp [Fin.succEmb, Nat.cast_add_one_ne_zero]
      show (0 : ℝ) ^ 2 < ‖(((Fin.succEmb 2 k : Fin 3) : ℕ) : ℂ)‖ ^ 2
      rw [zero_pow two_ne_zero]
      positivity)
  refine ⟨_, pit, _, _, hs, hp, hloss.trans ?_⟩
  have h0 : ∀ est ref : Fin 2 → Fin (min 2 1) → ℂ, (∀ k, est (Equiv.swap 0 1 k) = ref k) →
      bestAssignment (fun a b => ∑ t, ‖a t - b t‖ ^ 2) est ref = 0 := by
    intro est ref h
    refine le_antisymm ((Finset.inf'_le _ (Finset.mem_univ (Equiv.swap 0 1))).trans (le_of_eq ?_)) ?_
    · exact Finset.sum_eq_zero fun k _ => Finset.sum_eq_zero fun t _ => by rw [h]; simp
    · exact Finset.le_inf' _ _ fun σ _ => Finset.sum_nonneg fun k _ => Finset.sum_nonneg fun t _ => by positivity
  refine congrArg Except.ok ?_
  rw [Finset.sum_eq_zero, zero_div]
  intro b _
  refine h0 _ _ fun k => ?_
  funext t
  fin_cases k <;> simp [firstSamples, Fin.succEmb]

/-! ## C107 the validation loss -/

/-- **C107.** What is logged at the end of a validation epoch: the average of the losses of the steps, and its negative; with no
validation step it raises. -/
theorem validation_log (outputs : List ℝ) :
    (outputs ≠ [] → validationEpochEnd outputs = .ok ⟨average outputs, -average outputs⟩) ∧
    validationEpochEnd [] = .error .zeroDivisionError := by
  have h1 : ∀ (l : List ℝ) (a : ℝ), l.foldl (fun a r => a - r) a = a - l.sum := by
    intro l
    induction l with
    | nil => simp
    | cons x t ih => intro a; rw [List.foldl_cons, ih, List.sum_cons]; ring
  have h2 : ∀ (l : List ℝ) (a : ℝ), l.foldl (fun a r => a + r) a = a + l.sum := by
    intro l
    induction l with
    | nil => simp
    | cons x t ih => intro a; rw [List.foldl_cons, ih, List.sum_cons]; ring
  refine ⟨fun h => ?_, rfl⟩
  unfold validationEpochEnd
  dsimp only
  rw [if_neg (by simpa using h), h1, h2]
  simp [average, neg_div]

example : validationEpochEnd [1, 2, 6] = .ok ⟨3, -3⟩ := by
  rw [(validation_log _).1 (by simp)]
  norm_num [average]

lemma chunk_nil {α : Type} (bs : ℕ) : chunk bs ([] : List α) = [] := by
  unfold chunk
  simp

lemma chunk_cons {α : Type} (bs : ℕ) (hb : 0 < bs) (l : List α) (hl : l ≠ []) :
    chunk bs l = l.take bs :: chunk bs (l.drop bs) := by
  conv_lhs => unfold chunk
  rw [dif_neg (by rw [not_or]; exact ⟨hl, by omega⟩)]

lemma chunk_flatten {α : Type} (bs : ℕ) (hb : 0 < bs) (l : List α) : (chunk bs l).flatten = l := by
  induction hn : l.length using Nat.strong_induction_on generalizing l with
  | _ k ih =>
    by_cases hl : l = []
    · subst hl; simp [chunk_nil]
    · rw [chunk_cons bs hb l hl, List.flatten_cons, ih (l.drop bs).length _ _ rfl, List.take_append_drop]
      rw [List.length_drop]
      have := List.length_pos_iff.2 hl
      omega

lemma chunk_length {α : Type} (bs : ℕ) (hb : 0 < bs) (l : List α) : ∀ b ∈ chunk bs l, 0 < b.length ∧ b.length ≤ bs ∧
    (bs ∣ l.length → b.length = bs) := by
  induction hn : l.length using Nat.strong_induction_on generalizing l with
  | _ k ih =>
    subst hn
    by_cases hl : l = []
    · subst hl; simp [chunk_nil]
    · have hpos := List.length_pos_iff.2 hl
      rw [chunk_cons bs hb l hl]
      intro b hb'
      rcases List.mem_cons.1 hb' with rfl | hb'
      · rw [List.length_take]
        exact ⟨by omega, by omega, fun h => by have := Nat.le_of_dvd hpos h; omega⟩
      · obtain ⟨h1, h2, h3⟩ := ih _ (by rw [List.length_drop]; omega) (l.drop bs) rfl b hb'
        refine ⟨h1, h2, fun h => h3 ?_⟩
        rw [List.length_drop]
        by_cases hle : bs ≤ l.length
        · exact Nat.dvd_sub h dvd_rfl
        · have := Nat.le_of_dvd hpos h
          omega

private lemma average_equal (bs : ℕ) (hb : 0 < bs) (groups : List (List ℝ)) (h : ∀ g ∈ groups, g.length = bs) :
    average (groups.map average) = average groups.flatten := by
  have h1 : (groups.map average).sum = groups.flatten.sum / bs := by
    clear hb
    induction groups with
    | nil => simp
    | cons g t ih =>
      rw [List.map_cons, List.sum_cons, ih fun x hx => h x (List.mem_cons_of_mem _ hx), List.flatten_cons, List.sum_append, add_div, average,
        h g (List.mem_cons_self ..)]
  have h2 : (groups.flatten.length : ℝ) = groups.length * bs := by
    have : groups.flatten.length = groups.length * bs := by
      rw [List.length_flatten, List.map_congr_left (g := fun _ => bs) fun g hg => h g hg]
      simp
    exact_mod_cast this
  rw [average, h1, average, h2, List.length_map]
  have : (bs : ℝ) ≠ 0 := by exact_mod_cast hb.ne'
  by_cases hg : (groups.length : ℝ) = 0
  · simp [hg]
  · field_simp

/-- **C107 (partial: only when the batch size divides the number of items, or there is a single batch).**  The validation loss is the
average of the losses of the items. -/
theorem validation_average_partial (bs : ℕ) (hb : 0 < bs) (losses : List ℝ) (hne : losses ≠ [])
    (hd : bs ∣ losses.length ∨ losses.length ≤ bs) :
    validationEpochEnd ((chunk bs losses).map average) = .ok ⟨average losses, -average losses⟩ := by
  have hc : (chunk bs losses).map average ≠ [] := by
    rw [chunk_cons bs hb losses hne]
    simp
  rw [(validation_log _).1 hc]
  have key : average ((chunk bs losses).map average) = average losses := by
    rcases hd with hd | hd
    · rw [average_equal bs hb _ fun g hg => (chunk_length bs hb losses g hg).2.2 hd, chunk_flatten bs hb]
    · rw [chunk_cons bs hb losses hne, List.take_of_length_le hd, List.drop_eq_nil_of_le hd, chunk_nil]
      simp [average]
  rw [key]

example : validationEpochEnd ((chunk 2 [1, 2, 3, 6]).map average) = .ok ⟨3, -3⟩ := by
  rw [validation_average_partial 2 (by norm_num) _ (by simp) (Or.inl ⟨2, rfl⟩)]
  norm_num [average]

/-- **C107 is violated**: whenever there is more than one batch and the last one is smaller, its items count more than the others: there are
losses for which the validation loss is not the average of the losses of the items. -/
theorem validation_average_violated (bs k : ℕ) (hb : 0 < bs) (hk : bs < k) (hd : ¬ bs ∣ k) :
    ∃ losses : List ℝ, losses.length = k ∧ ∃ log, validationEpochEnd ((chunk bs losses).map average) = .ok log ∧
      log.valLoss ≠ average losses := by
  set q := k / bs with hq
  set r := k % bs with hr
  have hkq : q * bs + r = k := by rw [hq, hr, mul_comm]; exact Nat.div_add_mod k bs
  have hq1 : 0 < q := Nat.div_pos hk.le hb
  have hr0 : 0 < r := Nat.pos_of_ne_zero fun h => hd (Nat.dvd_of_mod_eq_zero h)
  have hrb : r < bs := Nat.mod_lt _ hb
  have hchunk : ∀ q : ℕ, chunk bs (List.replicate (q * bs) (0 : ℝ) ++ List.replicate r 1)
      = List.replicate q (List.replicate bs 0) ++ [List.replicate r 1] := by
    intro q
    induction q with
    | zero =>
      rw [chunk_cons bs hb _ (by simpa using hr0.ne'), Nat.zero_mul, List.replicate_zero, List.nil_append, List.take_of_length_le (by simpa using hrb.le),
        List.drop_eq_nil_of_le (by simpa using hrb.le), chunk_nil]
      rfl
    | succ q ih =>
      rw [Nat.succ_mul, Nat.add_comm (q * bs) bs, List.replicate_add, List.append_assoc, chunk_cons bs hb _ (by simp; omega)]
      have h1 : (List.replicate bs (0 : ℝ) ++ (List.replicate (q * bs) 0 ++ List.replicate r 1)).take bs = List.replicate bs 0 := by
        rw [List.take_append_of_le_length (by simp), List.take_of_length_le (by simp)]
      have h2 : (List.replicate bs (0 : ℝ) ++ (List.replicate (q * bs) 0 ++ List.replicate r 1)).drop bs
          = List.replicate (q * bs) 0 ++ List.replicate r 1 := by
        rw [List.drop_append_of_le_length (by simp)]
        simp
      rw [h1, h2, ih, List.replicate_succ, List.cons_append]
  refine ⟨List.replicate (q * bs) 0 ++ List.replicate r 1, by simp [hkq], _, (validation_log _).1 (by rw [hchunk]; simp), ?_⟩
  rw [hchunk]
  have hr' : (r : ℝ) ≠ 0 := by exact_mod_cast hr0.ne'
  have hl : average ((List.replicate q (List.replicate bs (0 : ℝ)) ++ [List.replicate r 1]).map average) = 1 / (q + 1) := by
    simp [average, hr']
  have hr2 : average (List.replicate (q * bs) (0 : ℝ) ++ List.replicate r 1) = r / (q * bs + r) := by
    simp [average]
  dsimp only
  rw [hl, hr2]
  intro h
  have hq' : (0 : ℝ) < q := by exact_mod_cast hq1
  have hb' : (0 : ℝ) < bs := by exact_mod_cast hb
  have hr1 : (0 : ℝ) < r := by exact_mod_cast hr0
  rw [div_eq_div_iff (by positivity) (by positivity)] at h
  have : (q : ℝ) * bs = q * r := by nlinarith
  have := mul_left_cancel₀ hq'.ne' this
  have h4 : bs = r := by exact_mod_cast this
  omega

/-- Batches of two, three items. -/
example : ∃ losses : List ℝ, losses.length = 3 ∧ ∃ log, validationEpochEnd ((chunk 2 losses).map average) = .ok log ∧
    log.valLoss ≠ average losses := validation_average_violated 2 3 (by norm_num) (by norm_num) (by norm_num)

/-! ## C108 the data of an epoch -/

lemma dictPut_keys {K V : Type} [DecidableEq K] (d : List (K × V)) (k : K) (v : V) :
    (dictPut d k v).map Prod.fst = if k ∈ d.map Prod.fst then d.map Prod.fst else d.map Prod.fst ++ [k] := by
  unfold dictPut
  by_cases h : k ∈ d.map Prod.fst
  · have : d.any (fun e => decide (e.1 = k)) = true := by
      obtain ⟨e, he, rfl⟩ := List.mem_map.1 h
      exact List.any_eq_true.2 ⟨e, he, by simp⟩
    rw [if_pos this, if_pos h, List.map_map]
    refine List.map_congr_left fun e _ => ?_
    simp only [Function.comp]
    split_ifs with h'
    · exact h'.symm
    · rfl
  · have : ¬ d.any (fun e => decide (e.1 = k)) = true := by
      intro h'
      obtain ⟨e, he, h''⟩ := List.any_eq_true.1 h'
      exact h (List.mem_map.2 ⟨e, he, by simpa using h''⟩)
    rw [if_neg this, if_neg h]
    simp

lemma dictPut_new {K V : Type} [DecidableEq K] (d : List (K × V)) (k : K) (v : V) (h : k ∉ d.map Prod.fst) : dictPut d k v = d ++ [(k, v)] := by
  unfold dictPut
  rw [if_neg]
  intro h'
  obtain ⟨e, he, h''⟩ := List.any_eq_true.1 h'
  exact h (List.mem_map.2 ⟨e, he, by simpa using h''⟩)

lemma foldl_dictPut {K V W : Type} [DecidableEq K] (g : K × W → V) (d : List (K × W)) (t : List (K × V)) (hnd : (d.map Prod.fst).Nodup)
    (hdis : ∀ k ∈ d.map Prod.fst, k ∉ t.map Prod.fst) :
    d.foldl (fun t e => dictPut t e.1 (g e)) t = t ++ d.map fun e => (e.1, g e) := by
  induction d generalizing t with
  | nil => simp
  | cons e d ih =>
    rw [List.map_cons, List.nodup_cons] at hnd
    rw [List.foldl_cons, dictPut_new _ _ _ (hdis _ (by simp)), ih _ hnd.2]
    · simp
    · intro k hk hk'
      rw [List.map_append, List.mem_append] at hk'
      rcases hk' with hk' | hk'
      · exact hdis k (by simp [hk]) hk'
      · simp only [List.map_cons, List.map_nil, List.mem_singleton] at hk'
        exact hnd.1 (hk' ▸ hk)

/-- **C108.** How `train_n_channels` is read: a number means one training set with all samples, a list of different numbers one for each
(a repeated number counts once, as in the example), and a dictionary gives the numbers of samples, `-1` meaning all. -/
theorem train_channels_spec :
    (∀ c, trainChannels (.one c) = [(c, none)]) ∧
    (∀ l : List ℤ, l.Nodup → trainChannels (.list l) = l.map fun c => (c, none)) ∧
    (∀ d : List (ℤ × Option ℤ), (d.map Prod.fst).Nodup →
      trainChannels (.dict d) = d.map fun e => (e.1, if e.2 = some (-1) then none else e.2)) := by
  refine ⟨fun c => rfl, fun l hl => ?_, fun d hd => ?_⟩
  · have h1 : l.foldl (fun (d : List (ℤ × Option ℤ)) n => dictPut d n none) [] = l.map fun c => (c, none) := by
      have := foldl_dictPut (V := Option ℤ) (fun _ => none) (l.map fun c => (c, ())) [] (by simpa [Function.comp_def] using hl) (by simp)
      rw [List.foldl_map] at this
      simpa [Function.comp_def] using this
    unfold trainChannels
    dsimp only
    rw [h1, foldl_dictPut _ _ _ (by simpa [Function.comp_def] using hl) (by simp)]
    simp [Function.comp_def]
  · unfold trainChannels
    dsimp only
    rw [foldl_dictPut _ _ _ hd (by simp)]
    simp

example : trainChannels (.dict [(2, some (-1)), (3, some 100)]) = [(2, none), (3, some 100)] ∧
    trainChannels (.list [2, 3, 2]) = [(2, none), (3, none)] := by decide

lemma trainChannels_nodup (a : NChannels) : ((trainChannels a).map Prod.fst).Nodup := by
  unfold trainChannels
  dsimp only
  suffices h : ∀ d t : List (ℤ × Option ℤ), (t.map Prod.fst).Nodup →
      ((d.foldl (fun t e => dictPut t e.1 (if e.2 = some (-1) then none else e.2)) t).map Prod.fst).Nodup from h _ [] (by simp)
  intro d
  induction d with
  | nil => intro t ht; exact ht
  | cons e d ih =>
    intro t ht
    rw [List.foldl_cons]
    refine ih _ ?_
    rw [dictPut_keys]
    split_ifs with h
    · exact ht
    · exact List.nodup_append.2 ⟨ht, by simp, fun a ha b hb => by
        rw [List.mem_singleton] at hb
        rintro rfl
        exact h (hb ▸ ha)⟩

/-- **C108.** When every number of channels has a positive batch size, one epoch - the `len()` batches that the interleaved loaders return, see
C66 - visits every sample of every training set exactly once, in whatever order the samplers `order` visit them, in batches of a single
training set with at most its batch size. -/
theorem train_epoch (c : DataModuleCfg) (si284 : List Room) (order : ℤ → List ℕ) (size : ℤ → ℕ)
    (hsize : ∀ m ∈ (trainChannels c.trainNChannels).map Prod.fst, 0 < size m ∧
      match c.trainNBatchSizes with
      | none => size m = c.batchSize
      | some sizes => (sizes.find? fun s => s.1 = m) = some (m, size m))
    (horder : ∀ e ∈ (setupData c si284 []).1, (order e.1).Perm (List.range e.2.rooms.length)) :
    ∃ loaders, trainLoaders c si284 order = .ok loaders ∧
      (Torchiva.Props.Spec.roundRobin loaders).flatten.Perm
        ((setupData c si284 []).1.flatMap fun e => (List.range e.2.rooms.length).map fun i => (e.1, i)) ∧
      ∀ b ∈ Torchiva.Props.Spec.roundRobin loaders, ∃ m, b.length ≤ size m ∧ 0 < b.length ∧ ∀ x ∈ b, x.1 = m := by
  set ch := trainChannels c.trainNChannels with hch
  have hkeys : (setupData c si284 []).1.map Prod.fst = ch.map Prod.fst := by
    unfold setupData
    simp [Function.comp_def, hch]
  have hsizes : trainBatchSizes ch c.batchSize c.trainNBatchSizes = .ok (ch.map fun e => (e.1, size e.1)) := by
    unfold trainBatchSizes
    cases hs : c.trainNBatchSizes with
    | none =>
      simp only
      refine congrArg Except.ok (List.map_congr_left fun e he => ?_)
      have := (hsize e.1 (List.mem_map_of_mem he)).2
      rw [hs] at this
      rw [this]
    | some sizes =>
      simp only
      refine mapM_ok _ _ _ fun e he => ?_
      have := (hsize e.1 (List.mem_map_of_mem he)).2
      rw [hs] at this
      simp only at this
      rw [this]
  have hfind : ∀ m ∈ ch.map Prod.fst, (ch.map fun e => (e.1, size e.1)).find? (fun s => decide (s.1 = m)) = some (m, size m) := by
    intro m hm
    have hnd : (ch.map Prod.fst).Nodup := trainChannels_nodup _
    clear_value ch
    clear hch hsizes hkeys hsize horder
    induction ch with
    | nil => simp at hm
    | cons e t ih =>
      rw [List.map_cons, List.find?_cons]
      by_cases h : e.1 = m
      · simp [h]
      · simp only [h, decide_false]
        refine ih ?_ (List.nodup_cons.1 hnd).2
        rw [List.map_cons, List.mem_cons] at hm
        exact hm.resolve_left fun h' => h h'.symm
  set loaders := (setupData c si284 []).1.map fun e => chunk (size e.1) ((order e.1).map fun i => (e.1, i)) with hlo
  have hok : trainLoaders c si284 order = .ok loaders := by
    unfold trainLoaders
    rw [← hch, hsizes]
    simp only [bind, Except.bind]
    refine mapM_ok _ _ _ fun e he => ?_
    have hm : e.1 ∈ ch.map Prod.fst := hkeys ▸ List.mem_map_of_mem he
    rw [hfind _ hm]
    simp only
    rw [if_neg (hsize _ hm).1.ne']
  refine ⟨loaders, hok, ?_, ?_⟩
  · refine ((roundRobin_perm loaders).flatten).trans ?_
    rw [hlo, List.flatMap_def]
    have : ∀ D : List (ℤ × DataSet), (∀ e ∈ D, 0 < size e.1 ∧ (order e.1).Perm (List.range e.2.rooms.length)) →
        ((D.map fun e => chunk (size e.1) ((order e.1).map fun i => (e.1, i))).flatten.flatten).Perm
          (D.map fun e => (List.range e.2.rooms.length).map fun i => (e.1, i)).flatten := by
      intro D hD
      induction D with
      | nil => simp
      | cons e t ih =>
        rw [List.map_cons, List.flatten_cons, List.flatten_append, List.map_cons, List.flatten_cons,
          chunk_flatten _ (hD e (by simp)).1]
        exact ((hD e (by simp)).2.map _).append (ih fun x hx => hD x (List.mem_cons_of_mem _ hx))
    exact this _ fun e he => ⟨(hsize _ (hkeys ▸ List.mem_map_of_mem he)).1, horder e he⟩
  · intro b hb
    have hb' : b ∈ loaders.flatten := (roundRobin_perm loaders).mem_iff.1 hb
    rw [List.mem_flatten] at hb'
    obtain ⟨l, hl, hbl⟩ := hb'
    rw [hlo, List.mem_map] at hl
    obtain ⟨e, he, rfl⟩ := hl
    have hs := (hsize _ (hkeys ▸ List.mem_map_of_mem he)).1
    obtain ⟨h1, h2, -⟩ := chunk_length _ hs _ b hbl
    refine ⟨e.1, h2, h1, fun x hx => ?_⟩
    have : x ∈ (chunk (size e.1) ((order e.1).map fun i => (e.1, i))).flatten := List.mem_flatten.2 ⟨b, hbl, hx⟩
    rw [chunk_flatten _ hs, List.mem_map] at this
    obtain ⟨i, -, rfl⟩ := this
    rfl

/-- Two training sets, all ten samples and seven of them, batch sizes four and two, visited backwards. -/
example (room : Room) : ∃ loaders, trainLoaders
      ⟨5, none, true, false, .dict [(2, some (-1)), (3, some 7)], some [(2, 4), (3, 2)], none, false, true⟩
      (List.replicate 10 room) (fun m => if m = 2 then (List.range 10).reverse else (List.range 7).reverse) = .ok loaders ∧
    (Torchiva.Props.Spec.roundRobin loaders).flatten.length = 17 := by
  obtain ⟨l, h1, h2, -⟩ := train_epoch
    ⟨5, none, true, false, .dict [(2, some (-1)), (3, some 7)], some [(2, 4), (3, 2)], none, false, true⟩
    (List.replicate 10 room) (fun m => if m = 2 then (List.range 10).reverse else (List.range 7).reverse)
    (fun m => if m = 2 then 4 else 2) (by decide)
    (by
      intro e he
      simp only [setupData, (train_channels_spec.2.2 [(2, some (-1)), (3, some 7)] (by decide)), List.map_cons, List.map_nil, List.mem_cons,
        List.not_mem_nil, or_false] at he
      rcases he with rfl | rfl
      · simpa [metadataOf] using List.reverse_perm (List.range 10)
      · simpa [metadataOf, sliceBound] using List.reverse_perm (List.range 7))
  refine ⟨l, h1, h2.length_eq.trans ?_⟩
  simp [setupData, (train_channels_spec.2.2 [(2, some (-1)), (3, some 7)] (by decide)), metadataOf, sliceBound]

/-- **C108.** Training and validation data: the training sets use the options of the user, the validation set is never shuffled nor
cut, and both have the references and the noise asked for. -/
theorem data_options (c : DataModuleCfg) (si284 dev93 : List Room) :
    (∀ e ∈ (setupData c si284 dev93).1, e.2.cfg = ⟨if c.maxLenS = some (-1) then none else c.maxLenS, 0, c.shuffleChannels, c.shuffleRef,
      c.refIsReverb, c.noiseless⟩) ∧
    (setupData c si284 dev93).2 = ⟨⟨none, 0, false, false, c.refIsReverb, c.noiseless⟩, dev93⟩ ∧
    (setupData c si284 dev93).1.map (fun e => (e.1, e.2.rooms)) = (trainChannels c.trainNChannels).map fun e => (e.1, metadataOf si284 e.2) := by
  refine ⟨fun e he => ?_, rfl, by simp [setupData, Function.comp_def]⟩
  unfold setupData at he
  obtain ⟨x, -, rfl⟩ := List.mem_map.1 he
  rfl

/-- **C108 is violated** for the numbers of channels: the training sets of different numbers of channels are the same data set, with
all the channels of the recordings, when the same number of samples is asked for; and `valid_n_channels` changes nothing. -/
theorem train_n_channels_violated (c : DataModuleCfg) (si284 dev93 : List Room) :
    (∀ a ∈ trainChannels c.trainNChannels, ∀ b ∈ trainChannels c.trainNChannels, a.2 = b.2 →
      ∃ d, (a.1, d) ∈ (setupData c si284 dev93).1 ∧ (b.1, d) ∈ (setupData c si284 dev93).1) ∧
    ∀ v, setupData { c with validNChannels := v } si284 dev93 = setupData c si284 dev93 := by
  refine ⟨fun a ha b hb hab => ⟨_, List.mem_map.2 ⟨a, ha, rfl⟩, List.mem_map.2 ⟨b, hb, ?_⟩⟩, fun v => rfl⟩
  rw [hab]

/-- Two and three channels are requested, and the two training sets are equal. -/
example (rooms : List Room) : ∃ d, setupData ⟨5, none, true, false, .list [2, 3], none, none, false, true⟩ rooms rooms
    = ([(2, d), (3, d)], ⟨⟨none, 0, false, false, true, false⟩, rooms⟩) := by
  simp [setupData, train_channels_spec.2.1 [2, 3] (by decide), metadataOf]

/-! ## C109 the clipping log -/

/-- **C109.** Every call clips the gradient with `AutoClipper` (C65), whatever the step; the log, every 25 steps, reports the norm before
clipping, and for the norm after clipping a number that exceeds it by at most 1e-6; the step size is that number times the learning rate. -/
theorem clipping_log (p : ℚ) (lr : ℝ) (step : ℕ) (h : List ℝ) (grads : List (Option (List ℝ))) (g thr : ℝ)
    (hc : (autoclipCall p h grads).1 = .ok (g, thr)) (h0 : 0 ≤ thr) :
    ∃ log, (onAfterBackward p lr step h grads).1 = .ok log ∧
      (onAfterBackward p lr step h grads).2 = (autoclipCall p h grads).2 ∧ (log.isSome ↔ 25 ∣ step) ∧
      ∀ l ∈ log, l.norm = gradNorm grads ∧ l.stepSize = lr * l.clippedNorm ∧
        gradNorm (autoclipCall p h grads).2.2 ≤ l.clippedNorm ∧ l.clippedNorm ≤ gradNorm (autoclipCall p h grads).2.2 + 1e-6 := by
  obtain ⟨hg, hle, hval⟩ := autoclip_clips p h grads g thr hc h0
  have hg0 : 0 ≤ g := by rw [hg]; exact Real.sqrt_nonneg _
  have hk0 : 0 ≤ min 1 (thr / (g + 1e-6)) := le_min zero_le_one (by positivity)
  have hnorm : gradNorm (autoclipCall p h grads).2.2 = g * min 1 (thr / (g + 1e-6)) := by
    rw [hval, hg, gradNorm_eq]
    set k := min 1 (thr / (gradNorm grads + 1e-6)) with hk
    rw [← hg] at hk
    rw [← hk] at hk0
    have : (((grads.map fun g => g.map fun v => v.map fun x => x * k).map fun g => g.getD []).flatten.map
        (· ^ 2)).sum = ((grads.map fun g => g.getD []).flatten.map (· ^ 2)).sum * k ^ 2 := by
      clear hval hle hc
      clear_value k
      clear hk hg hg0
      induction grads with
      | nil => simp
      | cons g t ih =>
        simp only [List.map_cons, List.flatten_cons, List.map_append, List.sum_append, add_mul]
        rw [ih]
        congr 1
        cases g with
        | none => simp
        | some v =>
          simp only [Option.map_some, Option.getD_some, List.map_map]
          rw [← List.sum_map_mul_right]
          congr 1
          refine List.map_congr_left fun x _ => ?_
          simp [mul_pow]
    rw [this, Real.sqrt_mul' _ (sq_nonneg k), Real.sqrt_sq hk0, ← gradNorm_eq]
  have hbody : onAfterBackward p lr step h grads
      = (.ok (if step % 25 = 0 then some ⟨g, min g thr, lr * min g thr⟩ else none), (autoclipCall p h grads).2) := by
    unfold onAfterBackward
    rcases e : autoclipCall p h grads with ⟨r, h', g'⟩
    rw [e] at hc
    dsimp only at hc
    subst hc
    rfl
  rw [hbody]
  refine ⟨_, rfl, rfl, ?_, ?_⟩
  · rw [Nat.dvd_iff_mod_eq_zero]
    split_ifs with h' <;> simp [h']
  · intro l hl
    split_ifs at hl with h'
    · cases hl
      refine ⟨hg, rfl, ?_, ?_⟩
      · rw [hnorm]
        refine le_min (mul_le_of_le_one_right hg0 (min_le_left _ _)) ?_
        rw [← hnorm]
        exact hle
      · rw [hnorm]
        dsimp only
        by_cases hb : g + 1e-6 ≤ thr
        · rw [show min 1 (thr / (g + 1e-6)) = 1 from min_eq_left (by rw [le_div_iff₀ (by positivity)]; linarith), mul_one]
          exact (min_le_left _ _).trans (le_add_of_nonneg_right (by norm_num))
        · push Not at hb
          rw [show min 1 (thr / (g + 1e-6)) = thr / (g + 1e-6) from min_eq_right (by rw [div_le_iff₀ (by positivity)]; linarith)]
          have hpos : 0 < g + 1e-6 := by positivity
          have h1 : g * (thr / (g + 1e-6)) = thr - thr * 1e-6 / (g + 1e-6) := by field_simp; ring
          have h2 : thr * 1e-6 / (g + 1e-6) ≤ 1e-6 := by
            rw [div_le_iff₀ hpos]
            nlinarith
          rw [h1]
          linarith [min_le_right g thr]
    · cases hl

/-- A first step with gradient `(3, 4)` and percentile 10: the norm is 5, so is the threshold, and the log is written. -/
example : ∃ l, (onAfterBackward 10 1 0 [] [some [3], none, some [4]]).1 = .ok (some l) ∧ l.norm = 5 ∧ l.clippedNorm ≤
    gradNorm (autoclipCall 10 [] [some [3], none, some [4]]).2.2 + 1e-6 := by
  have hn : gradNorm [some [3], none, some [4]] = 5 := by
    rw [gradNorm_eq, show (((([some [3], none, some [4]] : List (Option (List ℝ))).map fun g => g.getD []).flatten.map (· ^ 2)).sum) = 5 ^ 2 by
      norm_num]
    exact Real.sqrt_sq (by norm_num)
  obtain ⟨sorted, thr, -, hperm, hc, hthr⟩ := autoclip_threshold 10 (by norm_num) (by norm_num) [] [some [3], none, some [4]]
  have hs : sorted = [5] := by
    rw [List.nil_append, List.map_cons, List.map_nil, hn] at hperm
    exact List.perm_singleton.1 hperm
  have ht : thr = 5 := by
    rw [hs] at hthr
    simpa using hthr.symm
  obtain ⟨log, h1, -, h3, h4⟩ := clipping_log 10 1 0 [] _ _ thr hc (by rw [ht]; norm_num)
  obtain ⟨l, rfl⟩ := Option.isSome_iff_exists.1 (h3.2 (dvd_zero _))
  obtain ⟨h5, -, -, h6⟩ := h4 l rfl
  exact ⟨l, h1, h5.trans hn, h6⟩

end Torchiva.Props
