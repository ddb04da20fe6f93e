import Verif.Spec.Dataset
import Verif.Props.Examples

/-!
# C100, C101: the training samples of the data set
-/

namespace Torchiva.Props

open Torchiva

private lemma ebind {A B : Type} (x : Except Err A) (f : A → Except Err B) (b : B) :
    (x >>= f) = .ok b ↔ ∃ a, x = .ok a ∧ f a = .ok b := by
  cases x with
  | error e => exact ⟨fun h => (by cases h), fun ⟨a, h, _⟩ => (by cases h)⟩
  | ok a => exact ⟨fun h => ⟨a, rfl, h⟩, fun ⟨a', h, h'⟩ => (by cases h; exact h')⟩

private lemma pyIndex_ok {α : Type} (l : List α) (i : ℤ) (a : α) (h : pyIndex l i = .ok a) :
    a ∈ l ∧ (0 ≤ i → l[i.toNat]? = some a) ∧ (i < 0 → ∃ j : ℕ, (j : ℤ) = l.length + i ∧ l[j]? = some a) := by
  unfold pyIndex at h
  split at h
  · rename_i b hb
    cases h
    split_ifs at hb with h1 h2
    · exact ⟨List.mem_of_getElem? hb, fun _ => hb, fun h => by omega⟩
    · exact ⟨List.mem_of_getElem? hb, fun h => absurd h h1, fun _ => ⟨_, by omega, hb⟩⟩
  · cases h

private lemma interval_nonneg (nT nM : ℤ) (srcs : List (ℤ × ℤ)) (s e : ℤ) (h : computeInterval nT nM srcs = .ok (s, e)) :
    0 ≤ s := by
  unfold computeInterval at h
  split_ifs at h with h1
  · cases h; exact le_rfl
  · cases ha : (srcs.map Prod.fst).max? with
    | none => rw [ha] at h; cases h
    | some left =>
      cases hb : (srcs.map fun s => s.1 + s.2).min? with
      | none => rw [ha, hb] at h; cases h
      | some right =>
        rw [ha, hb] at h
        dsimp only at h
        by_cases h2 : left + right - 2 * (nT / 2) < 0
        · rw [if_pos h2] at h; cases h; exact le_rfl
        · rw [if_neg h2] at h
          split_ifs at h
          · cases h; omega
          · cases h; exact Int.tdiv_nonneg (by omega) (by omega)

private lemma mapM_get {A B : Type} (f : A → Except Err B) (l : List A) (r : List B) (h : l.mapM f = .ok r) :
    r.length = l.length ∧ ∀ (k : ℕ) a, l[k]? = some a → ∃ b, r[k]? = some b ∧ f a = .ok b := by
  induction l generalizing r with
  | nil => cases h; exact ⟨rfl, fun k a h => by simp at h⟩
  | cons x t ih =>
    rw [List.mapM_cons] at h
    obtain ⟨b, hb, h⟩ := (ebind _ _ _).1 h
    obtain ⟨bs, hbs, h⟩ := (ebind _ _ _).1 h
    cases h
    obtain ⟨i1, i2⟩ := ih bs hbs
    refine ⟨by simp [i1], fun k a hk => ?_⟩
    cases k with
    | zero => simp at hk; subst hk; exact ⟨b, rfl, hb⟩
    | succ k => simpa using i2 k a (by simpa using hk)

/-- The references before they are cut. -/
private lemma refs_ok (files : List (Audio × ℕ)) (fs mic : ℕ) (rows : List (ℕ × (ℕ → ℝ))) (ref : Audio)
    (h1 : files.mapM (refRow fs mic) = .ok rows) (h2 : catRows rows = .ok ref) :
    ref.chans = files.length ∧ files ≠ [] ∧ (∀ f ∈ files, f.1.len = ref.len) ∧
      ∀ (k : ℕ) f, files[k]? = some f → ref.val k = f.1.val mic := by
  obtain ⟨hl, hk⟩ := mapM_get _ _ _ h1
  cases rows with
  | nil => cases h2
  | cons r rs =>
    unfold catRows at h2
    dsimp only at h2
    split_ifs at h2 with hall
    cases h2
    have row : ∀ (k : ℕ) f, files[k]? = some f → (r :: rs)[k]? = some (f.1.len, f.1.val mic) := by
      intro k f hf
      obtain ⟨b, hb, e⟩ := hk k f hf
      unfold refRow at e
      split_ifs at e
      cases e
      exact hb
    refine ⟨by simpa using hl, fun e => by simp [e] at hl, fun f hf => ?_, fun k f hf => ?_⟩
    · obtain ⟨k, hk'⟩ := List.getElem?_of_mem hf
      have := List.mem_of_getElem? (row k f hk')
      rcases List.mem_cons.1 this with e | e
      · show f.1.len = r.1
        rw [← e]
      · exact hall _ e
    · show ((r :: rs).map Prod.snd).getD k _ = _
      rw [List.getD_eq_getElem?_getD, List.getElem?_map, row k f hf]
      rfl

open Classical in
private lemma sample_ok (c : DataCfg) (r : Room) (d : Draw) (hd : Spec.ValidDraw d) (hn : 0 < (r.mixFile c).1.chans)
    (out : Audio × Audio) (h : sampleOnce c r d = .ok (some out)) : ∃ p mic start, Spec.IsSample c r out p mic start := by
  unfold sampleOnce at h
  dsimp only at h
  simp only [ebind] at h
  obtain ⟨mic, hmic, rows, hrows, ref, href, h⟩ := h
  set p := if c.shuffleChannels then d.perm (r.mixFile c).1.chans else List.range (r.mixFile c).1.chans with hp
  have hperm : p.Perm (List.range (r.mixFile c).1.chans) := by
    rw [hp]; split_ifs
    · exact hd.perm _
    · exact List.Perm.refl _
  have hlen : p.length = (r.mixFile c).1.chans := by rw [hperm.length_eq, List.length_range]
  obtain ⟨f1, f2, f3, f4⟩ := refs_ok _ _ _ _ _ hrows href
  have hmem : mic ∈ p := by
    split_ifs at hmic
    · cases hmic
      exact hperm.mem_iff.2 (List.mem_range.2 (hd.ref _ hn))
    · exact (pyIndex_ok _ _ _ hmic).1
  have hpick : ∀ ch m, p[ch]? = some m → p.getD ch 0 = m := by
    intro ch m e
    rw [List.getD_eq_getElem?_getD, e]; rfl
  have hre : c.shuffleRef = false → 0 ≤ c.refMic → p[c.refMic.toNat]? = some mic := by
    intro e h0
    rw [e] at hmic
    exact (pyIndex_ok _ _ _ hmic).2.1 h0
  have hre' : c.shuffleRef = false → c.refMic < 0 → ∃ i : ℕ, (i : ℤ) = p.length + c.refMic ∧ p[i]? = some mic := by
    intro e h0
    rw [e] at hmic
    exact (pyIndex_ok _ _ _ hmic).2.2 h0
  have hpl : c.shuffleChannels = false → p = List.range (r.mixFile c).1.chans := by
    intro e; rw [hp, e]; rfl
  have hf1 : c.noiseless = true → r.mixFile c = r.mixNoiseless := fun e => by unfold Room.mixFile; rw [e]; rfl
  have hf2 : c.noiseless = false → r.mixFile c = r.mixNoisy := fun e => by unfold Room.mixFile; rw [e]; rfl
  have hf3 : c.refIsReverb = true → r.refFiles c = r.refsReverb := fun e => by unfold Room.refFiles; rw [e]; rfl
  have hf4 : c.refIsReverb = false → r.refFiles c = r.refsAnechoic := fun e => by unfold Room.refFiles; rw [e]; rfl
  obtain ⟨f, hf⟩ := List.exists_mem_of_ne_nil _ f2
  cases hm : c.maxLenS with
  | none =>
    rw [hm] at h
    cases h
    refine ⟨p, mic, 0, ⟨hperm, hlen, ?_, ?_, f1, ?_, ?_, ?_, hmem, hre, hre', hpl, hf1, hf2, hf3, hf4⟩⟩
    · intro t ht; rw [zero_add]; exact ht
    · intro ch m e t ht
      show (r.mixFile c).1.val (p.getD ch 0) t = _
      rw [hpick ch m e, zero_add]
    · intro f hf t ht
      rw [f3 f hf, zero_add]; exact ht
    · intro k f hk t ht
      rw [f4 k f hk, zero_add]
    · intro hall
      rw [← f3 f hf, hall f hf]; rfl
  | some len =>
    rw [hm] at h
    dsimp only at h
    simp only [ebind] at h
    obtain ⟨⟨s, e⟩, hI, h⟩ := h
    have hs := interval_nonneg _ _ _ _ _ hI
    dsimp only at h
    split_ifs at h
    · cases h
    cases h
    have bs : ∀ n, sliceBound n s = min s.toNat n := fun n => by
      unfold sliceBound; rw [if_neg (by omega)]
    have be : ∀ n, sliceBound n e ≤ n := fun n => by
      unfold sliceBound; split_ifs <;> omega
    refine ⟨p, mic, s.toNat, ⟨hperm, hlen, ?_, ?_, f1, ?_, ?_, ?_, hmem, hre, hre', hpl, hf1, hf2, hf3, hf4⟩⟩
    · intro t ht
      simp only [Audio.cut, Audio.pick, bs] at ht
      have := be (r.mixFile c).1.len
      omega
    · intro ch m e' t ht
      simp only [Audio.cut, Audio.pick, bs] at ht ⊢
      have := be (r.mixFile c).1.len
      rw [hpick ch m e', min_eq_left (by omega)]
    · intro f hf t ht
      simp only [Audio.cut, bs] at ht
      have := be ref.len
      rw [f3 f hf]
      omega
    · intro k f hk t ht
      simp only [Audio.cut, bs] at ht ⊢
      have := be ref.len
      rw [f4 k f hk, min_eq_left (by omega)]
    · intro hall
      have : ref.len = (r.mixFile c).1.len := by rw [← f3 f hf, hall f hf]
      simp only [Audio.cut, Audio.pick, this]

private lemma getItem_succ (c : DataCfg) (rooms : List Room) (depth : ℕ) (idx : ℤ) (draws : ℕ → Draw) :
    getItem c rooms (depth + 1) idx draws = (do
      let r ← pyIndex rooms idx
      match ← sampleOnce c r (draws 0) with
      | some out => .ok out
      | none => getItem c rooms depth ((draws 0).next rooms.length) (fun i => draws (i + 1))) := by
  rw [getItem]; rfl

/-- Which call of the recursion returns. -/
private lemma getItem_trace (c : DataCfg) (rooms : List Room) (depth : ℕ) (idx : ℤ) (draws : ℕ → Draw) (out : Audio × Audio)
    (h : getItem c rooms depth idx draws = .ok out) :
    ∃ k < depth, (∃ r, pyIndex rooms (Spec.triedIndex rooms.length idx draws k) = .ok r ∧ sampleOnce c r (draws k) = .ok (some out)) ∧
      ∀ i < k, ∃ r, pyIndex rooms (Spec.triedIndex rooms.length idx draws i) = .ok r ∧ sampleOnce c r (draws i) = .ok none := by
  induction depth generalizing idx draws with
  | zero => rw [getItem] at h; cases h
  | succ depth ih =>
    rw [getItem_succ] at h
    obtain ⟨r, hr, h⟩ := (ebind _ _ _).1 h
    obtain ⟨o, ho, h⟩ := (ebind _ _ _).1 h
    cases o with
    | some o =>
      cases h
      exact ⟨0, by omega, ⟨r, hr, ho⟩, fun i hi => by omega⟩
    | none =>
      obtain ⟨k, hk, hk1, hk2⟩ := ih _ _ h
      have ht : ∀ i, Spec.triedIndex rooms.length (((draws 0).next rooms.length : ℕ) : ℤ) (fun i => draws (i + 1)) i
          = Spec.triedIndex rooms.length idx draws (i + 1) := by
        intro i; cases i <;> rfl
      refine ⟨k + 1, by omega, ?_, ?_⟩
      · rw [ht] at hk1; exact hk1
      · intro i hi
        cases i with
        | zero => exact ⟨r, hr, ho⟩
        | succ i => have := hk2 i (by omega); rw [ht] at this; exact this

/-- C100: every item that is returned is cut out of one room of the (shortened) list, with all microphones in some order, and with
the references taken at one microphone: the one that the mixture holds at position `ref_mic`, unless the reference is random. -/
theorem getItem_sample (c : DataCfg) (rooms : List Room) (maxN : Option ℤ) (depth : ℕ) (idx : ℤ) (draws : ℕ → Draw)
    (hd : ∀ i, Spec.ValidDraw (draws i)) (hn : ∀ r ∈ rooms, 0 < (r.mixFile c).1.chans) (out : Audio × Audio)
    (h : getItem c (metadataOf rooms maxN) depth idx draws = .ok out) :
    ∃ r ∈ metadataOf rooms maxN, ∃ p mic start, Spec.IsSample c r out p mic start := by
  obtain ⟨k, -, ⟨r, hr, hs⟩, -⟩ := getItem_trace _ _ _ _ _ _ h
  have hm := (pyIndex_ok _ _ _ hr).1
  have hm' : r ∈ rooms := by
    cases maxN with
    | none => exact hm
    | some n => exact List.mem_of_mem_take hm
  exact ⟨r, hm, sample_ok c r _ (hd k) (hn r hm') out hs⟩

/-- C100: `max_n_samples = n` keeps the first `n` rooms, and a negative value leaves out the last `-n` rooms. -/
theorem dataset_shortened (rooms : List Room) (n : ℤ) :
    metadataOf rooms none = rooms ∧
    (∃ rest, rooms = metadataOf rooms (some n) ++ rest) ∧
    (0 ≤ n → ((metadataOf rooms (some n)).length : ℤ) = min n rooms.length) ∧
    (n < 0 → ((metadataOf rooms (some n)).length : ℤ) = max (rooms.length + n) 0) := by
  refine ⟨rfl, ⟨_, (List.take_append_drop _ _).symm⟩, fun h => ?_, fun h => ?_⟩
  · simp only [metadataOf, List.length_take, sliceBound]
    rw [if_neg (by omega)]
    omega
  · simp only [metadataOf, List.length_take, sliceBound]
    rw [if_pos h]
    omega

/-- Three rooms: at most two of them, at most seven, all but the last, all but the last five. -/
example (r : Room) : (metadataOf [r, r, r] (some 2)).length = 2 ∧ (metadataOf [r, r, r] (some 7)).length = 3 ∧
    (metadataOf [r, r, r] (some (-1))).length = 2 ∧ (metadataOf [r, r, r] (some (-5))).length = 0 := by
  have h1 := (dataset_shortened [r, r, r] 2).2.2.1 (by norm_num)
  have h2 := (dataset_shortened [r, r, r] 7).2.2.1 (by norm_num)
  have h3 := (dataset_shortened [r, r, r] (-1)).2.2.2 (by norm_num)
  have h4 := (dataset_shortened [r, r, r] (-5)).2.2.2 (by norm_num)
  simp only [List.length_cons, List.length_nil] at h1 h2 h3 h4
  omega

private lemma sum_get {A : Type} (l : List A) (g : A → ℝ) (v : ℕ → ℝ) (h : ∀ (k : ℕ) a, l[k]? = some a → v k = g a) :
    (l.map g).sum = ∑ k ∈ Finset.range l.length, v k := by
  induction l generalizing v with
  | nil => rfl
  | cons a t ih =>
    rw [List.map_cons, List.sum_cons, List.length_cons, Finset.sum_range_succ', ih (fun k => v (k + 1)), h 0 a rfl, add_comm]
    intro k b hb
    exact h (k + 1) b (by simpa using hb)

/-- C100: if the mixture of every room is the sum of the images of its sources (no noise), then channel `ref_mic` of the returned
mixture is the sum of the returned references, however the channels are shuffled. -/
theorem getItem_sum (c : DataCfg) (rooms : List Room) (maxN : Option ℤ) (depth : ℕ) (idx : ℤ) (draws : ℕ → Draw)
    (hd : ∀ i, Spec.ValidDraw (draws i)) (hn : ∀ r ∈ rooms, 0 < (r.mixFile c).1.chans) (hc : c.shuffleRef = false)
    (hm : 0 ≤ c.refMic)
    (hl : ∀ r ∈ rooms, ∀ f ∈ r.refFiles c, f.1.len = (r.mixFile c).1.len)
    (hsum : ∀ r ∈ rooms, ∀ m < (r.mixFile c).1.chans, ∀ t < (r.mixFile c).1.len,
      (r.mixFile c).1.val m t = ((r.refFiles c).map fun f => f.1.val m t).sum)
    (out : Audio × Audio) (h : getItem c (metadataOf rooms maxN) depth idx draws = .ok out) :
    out.2.len = out.1.len ∧
    ∀ t < out.1.len, out.1.val c.refMic.toNat t = ∑ k ∈ Finset.range out.2.chans, out.2.val k t := by
  obtain ⟨r, hr, p, mic, start, S⟩ := getItem_sample c rooms maxN depth idx draws hd hn out h
  have hr' : r ∈ rooms := by
    cases maxN with
    | none => exact hr
    | some n => exact List.mem_of_mem_take hr
  have hlen := S.lens (hl r hr')
  refine ⟨hlen, fun t ht => ?_⟩
  have hmic : mic < (r.mixFile c).1.chans := List.mem_range.1 (S.perm.mem_iff.1 S.mem)
  rw [S.mix _ _ (S.refMic hc hm) t ht, hsum r hr' mic hmic _ (S.inside t ht), S.refs]
  exact sum_get _ _ _ fun k f hf => S.ref k f hf t (by rw [hlen]; exact ht)

open Classical in
/-- What a pass does when a length is given. -/
private lemma sample_cut (c : DataCfg) (len : ℚ) (hm : c.maxLenS = some len) (r : Room) (d : Draw) (o : Option (Audio × Audio))
    (h : sampleOnce c r d = .ok o) :
    ∃ (p : List ℕ) (mic : ℕ) (rows : _) (ref : Audio) (s e : ℤ), (r.refFiles c).mapM (refRow (r.mixFile c).2 mic) = .ok rows ∧
      catRows rows = .ok ref ∧
      computeInterval (pyInt ((r.mixFile c).2 * len)) (r.mixFile c).1.len r.sources = .ok (s, e) ∧
      o = if ∃ k < (ref.cut s e).chans, (ref.cut s e).len ≠ 0 ∧
          (∑ t ∈ Finset.range (ref.cut s e).len, (ref.cut s e).val k t) / ((ref.cut s e).len : ℝ) = 0 then none
        else some (((r.mixFile c).1.pick p).cut s e, ref.cut s e) := by
  unfold sampleOnce at h
  dsimp only at h
  simp only [ebind] at h
  obtain ⟨mic, hmic, rows, hrows, ref, href, h⟩ := h
  rw [hm] at h
  dsimp only at h
  simp only [ebind] at h
  obtain ⟨⟨s, e⟩, hI, h⟩ := h
  refine ⟨if c.shuffleChannels then d.perm (r.mixFile c).1.chans else List.range (r.mixFile c).1.chans, mic, rows, ref, s, e, hrows, href,
    hI, ?_⟩
  split_ifs at h ⊢ <;> cases h <;> rfl

/-- C100: with a length of `max_len_s ≥ 0` seconds the returned mixture has that many samples, or all of them. -/
theorem getItem_length (c : DataCfg) (rooms : List Room) (depth : ℕ) (idx : ℤ) (draws : ℕ → Draw) (len : ℚ)
    (hm : c.maxLenS = some len) (h0 : 0 ≤ len) (hsrc : ∀ r ∈ rooms, r.sources ≠ []) (out : Audio × Audio)
    (h : getItem c rooms depth idx draws = .ok out) :
    ∃ r ∈ rooms, out.1.len = min ⌊(r.mixFile c).2 * len⌋₊ (r.mixFile c).1.len := by
  obtain ⟨k, -, ⟨r, hr, hs⟩, -⟩ := getItem_trace _ _ _ _ _ _ h
  have hr' := (pyIndex_ok _ _ _ hr).1
  obtain ⟨p, mic, rows, ref, s, e, -, -, hI, ho⟩ := sample_cut c len hm r _ _ hs
  refine ⟨r, hr', ?_⟩
  have hT : pyInt ((r.mixFile c).2 * len) = (⌊(r.mixFile c).2 * len⌋₊ : ℤ) := by
    have : (0 : ℚ) ≤ (r.mixFile c).2 * len := by positivity
    unfold pyInt
    rw [if_pos this]
    exact (Int.natCast_floor_eq_floor this).symm
  rw [hT] at hI
  obtain ⟨s', e', hI', hs0, he, hse⟩ := compute_interval_inside (⌊(r.mixFile c).2 * len⌋₊ : ℤ) ((r.mixFile c).1.len : ℤ) (by positivity)
    (by positivity) r.sources (hsrc r hr')
  rw [hI'] at hI
  cases hI
  split_ifs at ho
  cases ho
  simp only [Audio.cut, Audio.pick, sliceBound]
  generalize ⌊(r.mixFile c).2 * len⌋₊ = a at *
  generalize (r.mixFile c).1.len = b at *
  rw [if_neg (by omega), if_neg (by omega)]
  omega

/-- C100: the item returned is the first one, in the sequence of the requested index and the random ones, that is not rejected. -/
theorem getItem_first (c : DataCfg) (rooms : List Room) (depth : ℕ) (idx : ℤ) (draws : ℕ → Draw) (out : Audio × Audio) :
    getItem c rooms depth idx draws = .ok out ↔
    ∃ k < depth, (∃ r, pyIndex rooms (Spec.triedIndex rooms.length idx draws k) = .ok r ∧ sampleOnce c r (draws k) = .ok (some out)) ∧
      ∀ i < k, ∃ r, pyIndex rooms (Spec.triedIndex rooms.length idx draws i) = .ok r ∧ sampleOnce c r (draws i) = .ok none := by
  refine ⟨getItem_trace c rooms depth idx draws out, ?_⟩
  rintro ⟨k, hk, h1, h2⟩
  induction depth generalizing idx draws k with
  | zero => omega
  | succ depth ih =>
    rw [getItem_succ]
    cases k with
    | zero =>
      obtain ⟨r, hr, hs⟩ := h1
      simp only [Spec.triedIndex] at hr
      rw [hr]
      show (sampleOnce c r (draws 0) >>= _) = _
      rw [hs]; rfl
    | succ k =>
      obtain ⟨r, hr, hs⟩ := h2 0 (by omega)
      simp only [Spec.triedIndex] at hr
      rw [hr]
      show (sampleOnce c r (draws 0) >>= _) = _
      rw [hs]
      have ht : ∀ i, Spec.triedIndex rooms.length (((draws 0).next rooms.length : ℕ) : ℤ) (fun i => draws (i + 1)) i
          = Spec.triedIndex rooms.length idx draws (i + 1) := by
        intro i; cases i <;> rfl
      refine ih _ _ k (by omega) ?_ ?_
      · rw [ht]; exact h1
      · intro i hi
        rw [ht]; exact h2 (i + 1) (by omega)

/-! ## C101 -/

/-- C101: with a length given, no returned reference is silent. -/
theorem getItem_not_silent (c : DataCfg) (rooms : List Room) (depth : ℕ) (idx : ℤ) (draws : ℕ → Draw) (len : ℚ)
    (hm : c.maxLenS = some len) (out : Audio × Audio) (h : getItem c rooms depth idx draws = .ok out) (h0 : out.2.len ≠ 0)
    (k : ℕ) (hk : k < out.2.chans) : ¬ Spec.Silent out.2 k := by
  obtain ⟨i, -, ⟨r, hr, hs⟩, -⟩ := getItem_trace _ _ _ _ _ _ h
  obtain ⟨p, mic, rows, ref, s, e, -, -, -, ho⟩ := sample_cut c len hm r _ _ hs
  split_ifs at ho with hc
  cases ho
  intro hsil
  exact hc ⟨k, hk, h0, by rw [Finset.sum_eq_zero fun t ht => hsil t (Finset.mem_range.1 ht), zero_div]⟩

private lemma pyIndex_total {α : Type} (l : List α) (i : ℤ) (h1 : -(l.length : ℤ) ≤ i) (h2 : i < l.length) : ∃ a, pyIndex l i = .ok a := by
  unfold pyIndex
  split
  · exact ⟨_, rfl⟩
  · rename_i hn
    exfalso
    split_ifs at hn with h3 h4
    · rw [List.getElem?_eq_none_iff] at hn; omega
    · rw [List.getElem?_eq_none_iff] at hn; omega
    · omega

private lemma refs_total (files : List (Audio × ℕ)) (fs mic n : ℕ) (hne : files ≠ []) (h1 : ∀ f ∈ files, f.2 = fs)
    (h2 : ∀ f ∈ files, mic < f.1.chans) (h3 : ∀ f ∈ files, f.1.len = n) :
    ∃ rows ref, files.mapM (refRow fs mic) = .ok rows ∧ catRows rows = .ok ref := by
  have hrow : ∀ l : List (Audio × ℕ), (∀ f ∈ l, f ∈ files) → l.mapM (refRow fs mic) = .ok (l.map fun f => (f.1.len, f.1.val mic)) := by
    intro l hl
    induction l with
    | nil => rfl
    | cons f t ih =>
      rw [List.mapM_cons, ih (fun f hf => hl f (List.mem_cons_of_mem _ hf))]
      have hf := hl f (List.mem_cons_self ..)
      have : refRow fs mic f = .ok (f.1.len, f.1.val mic) := by
        unfold refRow
        rw [if_neg (by rw [h1 f hf]; simp), if_pos (h2 f hf)]
      rw [this]; rfl
  cases files with
  | nil => exact absurd rfl hne
  | cons f t =>
    have hall : ∀ q ∈ t.map fun f => (f.1.len, f.1.val mic), q.1 = ((f.1.len, f.1.val mic) : ℕ × (ℕ → ℝ)).1 := by
      intro q hq
      obtain ⟨g, hg, rfl⟩ := List.mem_map.1 hq
      simp only
      rw [h3 g (List.mem_cons_of_mem _ hg), h3 f (List.mem_cons_self ..)]
    exact ⟨_, _, hrow _ fun _ h => h, by rw [List.map_cons, catRows, if_pos hall]⟩

/-- C101, the part that holds: an item with well-formed files whose references all have a non-zero mean over the interval, at every
microphone, is returned when it is asked for. -/
theorem getItem_returns_partial (c : DataCfg) (rooms : List Room) (depth : ℕ) (idx : ℤ) (draws : ℕ → Draw)
    (hd : ∀ i, Spec.ValidDraw (draws i)) (len : ℚ) (hm : c.maxLenS = some len) (h0 : 0 ≤ len) (r : Room)
    (hidx : pyIndex rooms idx = .ok r) (hn : 0 < (r.mixFile c).1.chans) (hsrc : r.sources ≠ []) (hrefs : r.refFiles c ≠ [])
    (hfs : ∀ f ∈ r.refFiles c, f.2 = (r.mixFile c).2) (hch : ∀ f ∈ r.refFiles c, f.1.chans = (r.mixFile c).1.chans)
    (hl : ∀ f ∈ r.refFiles c, f.1.len = (r.mixFile c).1.len)
    (hr1 : -((r.mixFile c).1.chans : ℤ) ≤ c.refMic) (hr2 : c.refMic < (r.mixFile c).1.chans)
    (hmean : ∀ s e, computeInterval ⌊(r.mixFile c).2 * len⌋ (r.mixFile c).1.len r.sources = .ok (s, e) →
      ∀ mic < (r.mixFile c).1.chans, ∀ f ∈ r.refFiles c, ∑ t ∈ Finset.Ico s.toNat e.toNat, f.1.val mic t ≠ 0) :
    ∃ out, getItem c rooms (depth + 1) idx draws = .ok out ∧ ∃ p mic start, Spec.IsSample c r out p mic start := by
  classical
  have hT : pyInt ((r.mixFile c).2 * len) = ⌊(r.mixFile c).2 * len⌋ := by
    have : (0 : ℚ) ≤ (r.mixFile c).2 * len := by positivity
    unfold pyInt
    rw [if_pos this]
  have hfl : (0 : ℤ) ≤ ⌊(r.mixFile c).2 * len⌋ := Int.floor_nonneg.2 (by positivity)
  obtain ⟨s, e, hI, hs0, he, hse⟩ := compute_interval_inside _ ((r.mixFile c).1.len : ℤ) hfl (by positivity) r.sources hsrc
  have key : ∃ o, sampleOnce c r (draws 0) = .ok o := by
    have hperm : (if c.shuffleChannels then (draws 0).perm (r.mixFile c).1.chans else List.range (r.mixFile c).1.chans).Perm
        (List.range (r.mixFile c).1.chans) := by
      split_ifs
      · exact (hd 0).perm _
      · exact List.Perm.refl _
    unfold sampleOnce
    dsimp only
    generalize (if c.shuffleChannels then (draws 0).perm (r.mixFile c).1.chans else List.range (r.mixFile c).1.chans) = p at *
    have hlen : p.length = (r.mixFile c).1.chans := by rw [hperm.length_eq, List.length_range]
    have hmic : ∃ mic, (if c.shuffleRef = true then Except.ok ((draws 0).ref (r.mixFile c).1.chans) else pyIndex p c.refMic
        : Except Err ℕ) = .ok mic ∧ mic < (r.mixFile c).1.chans := by
      split_ifs
      · exact ⟨_, rfl, (hd 0).ref _ hn⟩
      · obtain ⟨a, ha⟩ := pyIndex_total p c.refMic (by rw [hlen]; exact hr1) (by rw [hlen]; exact hr2)
        exact ⟨a, ha, List.mem_range.1 (hperm.mem_iff.1 (pyIndex_ok _ _ _ ha).1)⟩
    obtain ⟨mic, e1, hlt⟩ := hmic
    obtain ⟨rows, ref, e2, e3⟩ := refs_total (r.refFiles c) (r.mixFile c).2 mic _ hrefs hfs (fun f hf => by rw [hch f hf]; exact hlt) hl
    rw [e1]
    simp only [bind, Except.bind, e2, e3, hm]
    rw [hT]
    simp only [Audio.pick, hI]
    split_ifs
    · exact ⟨_, rfl⟩
    · exact ⟨_, rfl⟩
  obtain ⟨o, ho⟩ := key
  obtain ⟨p, mic, rows, ref, s', e', h1, h2, hI', hcase⟩ := sample_cut c len hm r _ _ ho
  rw [hT, hI] at hI'
  cases hI'
  obtain ⟨f1, f2, f3, f4⟩ := refs_ok _ _ _ _ _ h1 h2
  have hmlt : mic < (r.mixFile c).1.chans := by
    obtain ⟨f, hf⟩ := List.exists_mem_of_ne_nil _ f2
    obtain ⟨k, hk⟩ := List.getElem?_of_mem hf
    obtain ⟨b, -, hb⟩ := (mapM_get _ _ _ h1).2 k f hk
    unfold refRow at hb
    split_ifs at hb with q1 q2
    rw [← hch f hf]; exact q2
  rw [if_neg] at hcase
  · subst hcase
    refine ⟨_, (getItem_first c rooms (depth + 1) idx draws _).2 ⟨0, by omega, ⟨r, hidx, ho⟩, fun i hi => by omega⟩, ?_⟩
    exact sample_ok c r _ (hd 0) hn _ ho
  · rintro ⟨k, hk, hlen0, hz⟩
    have hk' : k < (r.refFiles c).length := by rw [← f1]; exact hk
    have hf : (r.refFiles c)[k]? = some ((r.refFiles c)[k]) := List.getElem?_eq_getElem hk'
    have hfm := List.getElem_mem hk'
    rw [div_eq_zero_iff] at hz
    rcases hz with hz | hz
    · refine hmean s e hI mic hmlt _ hfm ?_
      have hrl : ref.len = (r.mixFile c).1.len := by rw [← f3 _ hfm, hl _ hfm]
      rw [Finset.sum_Ico_eq_sum_range]
      simp only [Audio.cut, sliceBound, hrl] at hz
      rw [if_neg (by omega), if_neg (by omega), min_eq_left (by omega), min_eq_left (by omega)] at hz
      rw [← hz]
      exact Finset.sum_congr rfl fun t _ => by rw [f4 k _ hf]
    · exact hlen0 (by exact_mod_cast hz)

/-- A room with one microphone whose only source has the samples 1, -1. -/
private noncomputable def zeroMean : Room :=
  let a : Audio × ℕ := (⟨1, 2, fun _ t => if t = 0 then 1 else -1⟩, 2)
  ⟨a, a, [a], [a], [(0, 2)]⟩

/-- C101 is violated: the test for silence looks at the mean of the signal, not of its power.  There is a data set without any silent
sample for which no request ever returns, whatever is drawn and however deep the recursion goes. -/
theorem getItem_zero_mean_violated :
    ∃ (c : DataCfg) (rooms : List Room), rooms ≠ [] ∧
      (∀ r ∈ rooms, ∀ f ∈ r.refFiles c, ∀ k < f.1.chans, ∀ t < f.1.len, f.1.val k t ≠ 0) ∧
      ∀ depth (draws : ℕ → Draw), (∀ i, Spec.ValidDraw (draws i)) → getItem c rooms depth 0 draws = .error .runtimeError := by
  classical
  refine ⟨⟨some 1, 0, false, false, true, true⟩, [zeroMean], by simp, ?_, ?_⟩
  · intro r hr f hf k hk t ht
    simp only [List.mem_singleton] at hr
    subst hr
    simp only [Room.refFiles, zeroMean, if_true, List.mem_singleton] at hf
    subst hf
    dsimp only
    split_ifs <;> norm_num
  · intro depth
    have hrej : ∀ d, sampleOnce ⟨some 1, 0, false, false, true, true⟩ zeroMean d = .ok none := by
      intro d
      unfold sampleOnce
      simp only [Room.mixFile, Room.refFiles, zeroMean]
      norm_num [List.range_succ, pyIndex, refRow, bind, Except.bind, catRows, pyInt, computeInterval, Audio.cut, Audio.pick,
        sliceBound, pure, Except.pure]
      intro h
      exact absurd (by show ∑ t ∈ Finset.range 2, _ = _; norm_num [Finset.sum_range_succ]) h
    induction depth with
    | zero => intro draws _; rw [getItem]
    | succ depth ih =>
      intro draws hd
      rw [getItem_succ]
      have : pyIndex [zeroMean] 0 = .ok zeroMean := rfl
      rw [this]
      show (sampleOnce _ zeroMean (draws 0) >>= _) = _
      rw [hrej]
      have hnx : (draws 0).next 1 = 0 := by have := (hd 0).next 1 (by omega); omega
      show getItem _ _ depth (((draws 0).next 1 : ℕ) : ℤ) _ = _
      rw [hnx]
      exact ih _ fun i => hd (i + 1)

/-! ### A concrete data set

Two microphones, two sources with the values `m + 1` and `t + 1` at microphone `m` and time `t`, three samples of which two are asked for;
the channels are reversed. -/

private noncomputable def demoRoom : Room :=
  ⟨(⟨2, 3, fun m t => (m + 1) + (t + 1)⟩, 1), (⟨2, 3, fun m t => (m + 1) + (t + 1)⟩, 1),
    [(⟨2, 3, fun m _ => m + 1⟩, 1), (⟨2, 3, fun _ t => t + 1⟩, 1)], [], [(0, 3), (0, 3)]⟩

private def demoDraw : Draw := ⟨fun n => (List.range n).reverse, fun _ => 0, fun _ => 0⟩

private def demoCfg : DataCfg := ⟨some 2, 0, true, false, true, true⟩

private lemma demoDraw_valid : ∀ _ : ℕ, Spec.ValidDraw demoDraw := fun _ =>
  ⟨fun n => List.reverse_perm _, fun _ h => h, fun _ h => h⟩

/-- The hypotheses of `getItem_returns_partial` hold. -/
private lemma demo_returns : ∃ out, getItem demoCfg [demoRoom] 5 0 (fun _ => demoDraw) = .ok out ∧
    ∃ p mic start, Spec.IsSample demoCfg demoRoom out p mic start := by
  have hfl : ⌊((demoRoom.mixFile demoCfg).2 : ℚ) * 2⌋ = 2 := by
    have : ((demoRoom.mixFile demoCfg).2 : ℚ) * 2 = ((2 : ℤ) : ℚ) := by norm_num [Room.mixFile, demoRoom, demoCfg]
    rw [this, Int.floor_intCast]
  refine getItem_returns_partial demoCfg [demoRoom] 4 0 _ demoDraw_valid 2 rfl (by norm_num) demoRoom rfl
    (by norm_num [Room.mixFile, demoRoom, demoCfg]) (by simp [demoRoom]) (by simp [Room.refFiles, demoRoom, demoCfg])
    (by simp [Room.refFiles, Room.mixFile, demoRoom, demoCfg]) (by simp [Room.refFiles, Room.mixFile, demoRoom, demoCfg])
    (by simp [Room.refFiles, Room.mixFile, demoRoom, demoCfg]) (by simp [Room.mixFile, demoRoom, demoCfg])
    (by simp [Room.mixFile, demoRoom, demoCfg]) ?_
  intro s e hse mic _ f hf
  rw [hfl] at hse
  have hI : computeInterval 2 (((demoRoom.mixFile demoCfg).1.len : ℕ) : ℤ) demoRoom.sources = .ok (0, 2) := by
    show computeInterval 2 3 [(0, 3), (0, 3)] = .ok (0, 2)
    decide
  rw [hI] at hse
  cases hse
  show ∑ t ∈ Finset.Ico 0 2, f.1.val mic t ≠ 0
  simp only [Room.refFiles, demoRoom, demoCfg, if_true, List.mem_cons, List.not_mem_nil, or_false] at hf
  rcases hf with rfl | rfl
  · simp [Finset.sum_Ico_eq_sum_range, Finset.sum_range_succ]
    positivity
  · norm_num [Finset.sum_Ico_eq_sum_range, Finset.sum_range_succ]

/-- `getItem_sample`, `getItem_sum`, `getItem_length` and `getItem_not_silent` apply to it. -/
example : ∃ out, getItem demoCfg (metadataOf [demoRoom] (some 7)) 5 0 (fun _ => demoDraw) = .ok out ∧
    (∃ r ∈ metadataOf [demoRoom] (some 7), ∃ p mic start, Spec.IsSample demoCfg r out p mic start) ∧
    out.1.len = 2 ∧ (∀ t < out.1.len, out.1.val 0 t = ∑ k ∈ Finset.range out.2.chans, out.2.val k t) ∧
    ∀ k < out.2.chans, ¬ Spec.Silent out.2 k := by
  obtain ⟨out, h, -⟩ := demo_returns
  have hmeta : metadataOf [demoRoom] (some 7) = [demoRoom] := rfl
  have hn : ∀ r ∈ [demoRoom], 0 < (r.mixFile demoCfg).1.chans := by simp [Room.mixFile, demoRoom, demoCfg]
  have hlen : out.1.len = 2 := by
    obtain ⟨r, hr, e⟩ := getItem_length demoCfg [demoRoom] 5 0 _ 2 rfl (by norm_num) (by simp [demoRoom]) out h
    simp only [List.mem_singleton] at hr
    subst hr
    rw [e]
    have h1 : ⌊((demoRoom.mixFile demoCfg).2 : ℚ) * 2⌋₊ = 2 := by
      have : ((demoRoom.mixFile demoCfg).2 : ℚ) * 2 = ((2 : ℕ) : ℚ) := by norm_num [Room.mixFile, demoRoom, demoCfg]
      rw [this, Nat.floor_natCast]
    rw [h1]; rfl
  obtain ⟨h2, h3⟩ := getItem_sum demoCfg [demoRoom] (some 7) 5 0 _ demoDraw_valid hn rfl le_rfl
    (by
      intro r hr f hf
      simp only [List.mem_singleton] at hr
      subst hr
      simp only [Room.refFiles, demoRoom, demoCfg, if_true, List.mem_cons, List.not_mem_nil, or_false] at hf
      rcases hf with rfl | rfl <;> rfl) (by simp [Room.refFiles, Room.mixFile, demoRoom, demoCfg]) out
    (by rw [hmeta]; exact h)
  exact ⟨out, by rw [hmeta]; exact h, getItem_sample demoCfg [demoRoom] (some 7) 5 0 _ demoDraw_valid hn out (by rw [hmeta]; exact h), hlen,
    h3, fun k hk => getItem_not_silent demoCfg [demoRoom] 5 0 _ 2 rfl out h (by rw [h2, hlen]; decide) k hk⟩

/-- `getItem_first`: the requested item is not rejected. -/
example : ∃ out, ∃ k < 5, (∃ r, pyIndex [demoRoom] (Spec.triedIndex 1 0 (fun _ => demoDraw) k) = .ok r ∧
    sampleOnce demoCfg r demoDraw = .ok (some out)) := by
  obtain ⟨out, h, -⟩ := demo_returns
  obtain ⟨k, hk, h1, -⟩ := (getItem_first demoCfg [demoRoom] 5 0 (fun _ => demoDraw) out).1 h
  exact ⟨out, k, hk, h1⟩

end Torchiva.Props
