import Verif.Model.LoaderConc
import Mathlib.Tactic

/-!
# Concurrent loading of a pre-trained model (C148)
-/

namespace Torchiva.Props

open Torchiva

variable {ι : Type} [DecidableEq ι]

/-! ## Positions of a file -/

private lemma writeAt_get (c : Bytes) (o : ℕ) (b : Bytes) (j : ℕ) (x : UInt8) :
    ((j < o ∨ o + b.length ≤ j) → c[j]? = some x → (writeAt c o b)[j]? = some x) ∧
    (o ≤ j → j < o + b.length → (writeAt c o b)[j]? = b[j - o]?) := by
  have hl : ((c ++ List.replicate (o - c.length) 0).take o).length = o := by
    simp only [List.length_take, List.length_append, List.length_replicate]; omega
  have hl2 : ((c ++ List.replicate (o - c.length) 0).take o ++ b).length = o + b.length := by
    rw [List.length_append, hl]
  unfold writeAt
  constructor
  · rintro (h | h) hx
    · have hj : j < c.length := (List.getElem?_eq_some_iff.1 hx).1
      rw [List.getElem?_append_left (by omega), List.getElem?_append_left (by omega), List.getElem?_take_of_lt h,
        List.getElem?_append_left hj, hx]
    · rw [List.getElem?_append_right (by omega), hl2, List.getElem?_drop, show o + b.length + (j - (o + b.length)) = j by omega, hx]
  · intro h1 h2
    rw [List.getElem?_append_left (by omega), List.getElem?_append_right (by omega), hl]

private lemma writeAt_length (c : Bytes) (o : ℕ) (b : Bytes) (n : ℕ) (hc : c.length ≤ n) (hb : o + b.length ≤ n) :
    (writeAt c o b).length ≤ n := by
  unfold writeAt
  simp only [List.length_append, List.length_take, List.length_replicate, List.length_drop]
  omega

/-- What holds at every moment: no file is longer than what is served, and every byte of a file is right or will be
written by a process that is downloading the file. -/
private structure Inv (served : MFile → Bytes) (s : ConcState ι) : Prop where
  len : ∀ f c, s.files f = some c → c.length ≤ (served f).length
  byte : ∀ f c, s.files f = some c → ∀ j < (served f).length, c[j]? = (served f)[j]? ∨ ∃ i off, s.proc i = .writing f off ∧ off ≤ j
  off : ∀ i f off, s.proc i = .writing f off → off ≤ (served f).length ∧ (s.files f).isSome

private lemma inv_of_nowrite {served : MFile → Bytes} {s : ConcState ι} (h : Inv served s) (i : ι) (hi : ∀ f off, s.proc i = .writing f off → off = (served f).length)
    (p : Pc) (hp : ∀ f off, p ≠ .writing f off) : Inv served { s with proc := Function.update s.proc i p } := by
  refine ⟨h.len, fun f c hc j hj => ?_, fun i' f off h' => ?_⟩
  · rcases h.byte f c hc j hj with h1 | ⟨i', off, h1, h2⟩
    · exact .inl h1
    · rcases eq_or_ne i' i with rfl | hne
      · have := hi f off h1; omega
      · exact .inr ⟨i', off, by simp [Function.update_of_ne hne, h1], h2⟩
  · rcases eq_or_ne i' i with rfl | hne
    · simp only [Function.update_self] at h'
      exact absurd h' (hp f off)
    · simp only [Function.update_of_ne hne] at h'
      exact h.off i' f off h'

private lemma next_ne (g : MFile) : ∀ f off, Pc.next g ≠ .writing f off := by
  intro f off h
  cases g <;> simp [Pc.next] at h

private lemma inv_step {served : MFile → Bytes} {s : ConcState ι} (h : Inv served s) (i : ι) (k : ℕ) :
    Inv served (concStep served s i k) := by
  unfold concStep
  split
  · rename_i f hf
    refine inv_of_nowrite h i (fun f off h => by rw [hf] at h; cases h) _ fun f' off => ?_
    split
    · exact next_ne _ _ _
    · simp
  · rename_i f hf
    refine ⟨fun g c hc => ?_, fun g c hc j hj => ?_, fun i' g off h' => ?_⟩
    · rcases eq_or_ne g f with rfl | hne
      · simp only [Function.update_self, Option.some.injEq] at hc
        subst hc; simp
      · simp only [Function.update_of_ne hne] at hc
        exact h.len g c hc
    · rcases eq_or_ne g f with rfl | hne
      · exact .inr ⟨i, 0, by simp, by omega⟩
      · simp only [Function.update_of_ne hne] at hc
        rcases h.byte g c hc j hj with h1 | ⟨i', off, h1, h2⟩
        · exact .inl h1
        · have : i' ≠ i := fun e => by rw [e, hf] at h1; cases h1
          exact .inr ⟨i', off, by simp [Function.update_of_ne this, h1], h2⟩
    · rcases eq_or_ne i' i with rfl | hne
      · simp only [Function.update_self, Pc.writing.injEq] at h'
        obtain ⟨rfl, rfl⟩ := h'
        simp
      · simp only [Function.update_of_ne hne] at h'
        have := h.off i' g off h'
        refine ⟨this.1, ?_⟩
        rcases eq_or_ne g f with rfl | hne
        · simp
        · simpa [Function.update_of_ne hne] using this.2
  · rename_i f off hf
    obtain ⟨hoff, hsome⟩ := h.off i f off hf
    obtain ⟨c0, hc0⟩ := Option.isSome_iff_exists.1 hsome
    split
    · rename_i hlt
      set b := ((served f).drop off).take k with hb
      have hbl : off + b.length ≤ (served f).length := by
        rw [hb, List.length_take, List.length_drop]; omega
      simp only [hc0, Option.getD_some]
      refine ⟨fun g c hc => ?_, fun g c hc j hj => ?_, fun i' g off' h' => ?_⟩
      · rcases eq_or_ne g f with rfl | hne
        · simp only [Function.update_self, Option.some.injEq] at hc
          subst hc
          exact writeAt_length _ _ _ _ (h.len g c0 hc0) hbl
        · simp only [Function.update_of_ne hne] at hc
          exact h.len g c hc
      · rcases eq_or_ne g f with rfl | hne
        · simp only [Function.update_self, Option.some.injEq] at hc
          subst hc
          by_cases hin : off ≤ j ∧ j < off + b.length
          · refine .inl ?_
            rw [(writeAt_get c0 off b j 0).2 hin.1 hin.2, hb, List.getElem?_take_of_lt, List.getElem?_drop,
              show off + (j - off) = j by omega]
            have : b.length ≤ k := by rw [hb]; exact List.length_take_le _ _
            omega
          · rcases h.byte g c0 hc0 j hj with h1 | ⟨i', o', h1, h2⟩
            · refine .inl ?_
              rw [List.getElem?_eq_getElem hj] at h1 ⊢
              exact (writeAt_get c0 off b j _).1 (by omega) h1
            · rcases eq_or_ne i' i with rfl | hne
              · rw [hf] at h1
                simp only [Pc.writing.injEq, true_and] at h1
                subst h1
                exact .inr ⟨i', off + b.length, by simp, by omega⟩
              · exact .inr ⟨i', o', by simp [Function.update_of_ne hne, h1], h2⟩
        · simp only [Function.update_of_ne hne] at hc
          rcases h.byte g c hc j hj with h1 | ⟨i', o', h1, h2⟩
          · exact .inl h1
          · have : i' ≠ i := fun e => by
              rw [e, hf] at h1
              simp only [Pc.writing.injEq] at h1
              exact hne h1.1.symm
            exact .inr ⟨i', o', by simp [Function.update_of_ne this, h1], h2⟩
      · rcases eq_or_ne i' i with rfl | hne
        · simp only [Function.update_self, Pc.writing.injEq] at h'
          obtain ⟨rfl, rfl⟩ := h'
          exact ⟨hbl, by simp⟩
        · simp only [Function.update_of_ne hne] at h'
          have := h.off i' g off' h'
          refine ⟨this.1, ?_⟩
          rcases eq_or_ne g f with rfl | hne
          · simp
          · simpa [Function.update_of_ne hne] using this.2
    · rename_i hge
      refine inv_of_nowrite h i (fun f' off' h => ?_) _ (next_ne f)
      rw [hf] at h
      simp only [Pc.writing.injEq] at h
      obtain ⟨rfl, rfl⟩ := h
      omega
  · rename_i hf
    refine inv_of_nowrite h i (fun f off h => by rw [hf] at h; cases h) _ fun f' off => ?_
    split <;> simp
  · rename_i y hf
    refine inv_of_nowrite h i (fun f off h => by rw [hf] at h; cases h) _ fun f' off => ?_
    split <;> simp
  · exact h
  · exact h

private lemma inv_run {served : MFile → Bytes} (r : List (ι × ℕ)) {s : ConcState ι} (h : Inv served s) :
    Inv served (concRun served r s) := by
  induction r generalizing s with
  | nil => exact h
  | cons a r ih => exact ih (inv_step h a.1 a.2)

private lemma inv_start {served : MFile → Bytes} (files : MFile → Option Bytes) (h : ∀ f c, files f = some c → c = served f) :
    Inv served (concStart (ι := ι) files) := by
  refine ⟨fun f c hc => by rw [h f c hc], fun f c hc j _ => .inl (by rw [h f c hc]), fun i f off h => ?_⟩
  simp [concStart] at h

/-- **C148 (what holds).**  Any number of processes load the same model, under any schedule and any block sizes,
starting from a cache folder in which each file is missing or complete; some processes may die.  At every moment, a file
that exists and that no process is downloading is complete and correct.  The full claim, that every process that returns
has read complete files, is false: `concurrent_load_violated`. -/
theorem concurrent_load_partial (served : MFile → Bytes) (files : MFile → Option Bytes)
    (h0 : ∀ f c, files f = some c → c = served f) (r : List (ι × ℕ)) (f : MFile) (c : Bytes)
    (hc : (concRun served r (concStart files)).files f = some c)
    (hn : ∀ i off, (concRun served r (concStart files)).proc i ≠ .writing f off) : c = served f := by
  have h := inv_run r (inv_start (ι := ι) files h0)
  refine List.ext_getElem? fun j => ?_
  by_cases hj : j < (served f).length
  · exact (h.byte f c hc j hj).resolve_right fun ⟨i, off, h1, _⟩ => hn i off h1
  · rw [List.getElem?_eq_none (by have := h.len f c hc; omega), List.getElem?_eq_none (by omega)]

/-- Hypotheses met: three processes, the schedule lets the first download everything in blocks of two bytes. -/
example : (concRun (ι := Fin 3) (fun _ => [1, 2, 3]) [(0, 2), (0, 2), (0, 2), (0, 2), (0, 2)] (concStart fun _ => none)).files .weights = some [1, 2, 3] ∧
    ∀ i off, (concRun (ι := Fin 3) (fun _ => [1, 2, 3]) [(0, 2), (0, 2), (0, 2), (0, 2), (0, 2)] (concStart fun _ => none)).proc i ≠ .writing .weights off := by
  refine ⟨by simp [concRun, concStep, concStart, writeAt], fun i off => ?_⟩
  fin_cases i <;> simp [concRun, concStep, concStart, Pc.next, Function.update]

/-- Once both files exist and no process has found one of them missing without having finished its download, nothing is
written any more, and every process that has not read a file yet reads complete files, under every schedule. -/
theorem concurrent_load_settled (served : MFile → Bytes) (files : MFile → Option Bytes)
    (h0 : ∀ f c, files f = some c → c = served f) (r r' : List (ι × ℕ))
    (he : ∀ f, ((concRun served r (concStart (ι := ι) files)).files f).isSome)
    (hn : ∀ i f, (concRun served r (concStart files)).proc i ≠ .opening f ∧
      ∀ off, (concRun served r (concStart files)).proc i ≠ .writing f off)
    (i : ι) (hi : (concRun served r (concStart files)).proc i = .readConfig ∨ ∃ f, (concRun served r (concStart files)).proc i = .check f)
    (y w : Bytes) (hd : (concRun served r' (concRun served r (concStart files))).proc i = .done y w) :
    y = served .config ∧ w = served .weights := by
  have hfiles : ∀ f, (concRun served r (concStart (ι := ι) files)).files f = some (served f) := fun f => by
    obtain ⟨c, hc⟩ := Option.isSome_iff_exists.1 (he f)
    rw [hc, concurrent_load_partial served files h0 r f c hc fun i off => (hn i f).2 off]
  generalize concRun served r (concStart (ι := ι) files) = s at hfiles hn hi hd
  have key : ∀ (r' : List (ι × ℕ)) (s : ConcState ι), (∀ f, s.files f = some (served f)) →
      (∀ i f, s.proc i ≠ .opening f ∧ ∀ off, s.proc i ≠ .writing f off) →
      (s.proc i = .readConfig ∨ (∃ f, s.proc i = .check f) ∨ s.proc i = .readWeights (served .config) ∨
        s.proc i = .done (served .config) (served .weights)) →
      (concRun served r' s).proc i = .done y w → y = served .config ∧ w = served .weights := by
    intro r'
    induction r' with
    | nil =>
      intro s _ _ hi hd
      simp only [concRun] at hd
      rcases hi with h | ⟨f, h⟩ | h | h <;> rw [h] at hd <;> cases hd
      exact ⟨rfl, rfl⟩
    | cons a r' ih =>
      intro s hf hn hi hd
      refine ih (concStep served s a.1 a.2) ?_ ?_ ?_ hd
      · intro f
        unfold concStep
        split <;> first | exact hf f | skip
        · rename_i g hg; exact absurd hg (hn a.1 g).1
        · rename_i g off hg; exact absurd hg ((hn a.1 g).2 off)
      · intro j f
        rcases eq_or_ne j a.1 with rfl | hne
        · unfold concStep
          split
          · rename_i g hg
            simp only [Function.update_self, hf, Option.isSome_some, if_true]
            cases g <;> simp [Pc.next]
          · rename_i g hg; exact absurd hg (hn a.1 g).1
          · rename_i g off hg; exact absurd hg ((hn a.1 g).2 off)
          · simp [hf]
          · simp [hf]
          · exact hn _ f
          · exact hn _ f
        · have : (concStep served s a.1 a.2).proc j = s.proc j := by
            unfold concStep
            split <;> first | rfl | (simp [Function.update_of_ne hne]) | skip
            split <;> simp [Function.update_of_ne hne]
          rw [this]; exact hn j f
      · rcases eq_or_ne i a.1 with rfl | hne
        · unfold concStep
          rcases hi with h | ⟨f, h⟩ | h | h
          · simp [h, hf]
          · cases f <;> simp [h, hf, Pc.next]
          · simp [h, hf]
          · simp [h]
        · have : (concStep served s a.1 a.2).proc i = s.proc i := by
            unfold concStep
            split <;> first | rfl | (simp [Function.update_of_ne hne]) | skip
            split <;> simp [Function.update_of_ne hne]
          rw [this]; exact hi
  exact key r' s hfiles hn (hi.imp_right .inl) hd

/-- Hypotheses met: process 0 has downloaded both files of an empty cache, then process 1 runs. -/
example (y w : Bytes)
    (hd : (concRun (ι := Fin 2) (fun _ => [1, 2]) [(1, 1), (0, 1), (1, 1), (1, 1), (1, 1)] (concRun (fun _ => [1, 2])
      [(0, 1), (0, 1), (0, 1), (0, 1), (0, 1), (0, 1), (0, 1), (0, 5), (0, 1)] (concStart fun _ => none))).proc 1 = .done y w) :
    y = [1, 2] ∧ w = [1, 2] := by
  refine concurrent_load_settled (ι := Fin 2) (fun _ => [1, 2]) (fun _ => none) (by simp)
    [(0, 1), (0, 1), (0, 1), (0, 1), (0, 1), (0, 1), (0, 1), (0, 5), (0, 1)] _ (fun f => ?_) (fun i f => ?_) 1 (.inr ⟨.weights, ?_⟩) y w hd
  · cases f <;> simp [concRun, concStep, concStart, Pc.next, Function.update]
  · fin_cases i <;> cases f <;> simp [concRun, concStep, concStart, Pc.next, Function.update]
  · simp [concRun, concStep, concStart, Pc.next, Function.update]

/-- ... and process 1 does return. -/
example : (concRun (ι := Fin 2) (fun _ => [1, 2]) [(1, 1), (0, 1), (1, 1), (1, 1), (1, 1)] (concRun (fun _ => [1, 2])
      [(0, 1), (0, 1), (0, 1), (0, 1), (0, 1), (0, 1), (0, 1), (0, 5), (0, 1)] (concStart fun _ => none))).proc 1 = .done [1, 2] [1, 2] := by
  simp [concRun, concStep, concStart, Pc.next, Function.update, writeAt]

/-- The files a process relies on at each point of the program. -/
private def needs : Pc → MFile → Prop
  | .check f, .weights => f = .config
  | .check _, .config => False
  | .opening f, .weights => f = .config
  | .opening _, .config => False
  | .writing _ _, .weights => True
  | .writing f _, .config => f = .config
  | .readConfig, _ => True
  | .readWeights _, _ => True
  | .done _ _, _ => False
  | .failed, _ => False

private lemma forall_mfile (P : MFile → Prop) : (∀ f, P f) ↔ P .weights ∧ P .config :=
  ⟨fun h => ⟨h _, h _⟩, fun h f => by cases f; exacts [h.1, h.2]⟩

/-- No process ever raises the `ValueError` for a missing file, whatever the cache folder contains at the start and under
every schedule: files are never removed, and a process reads only after it has seen or created both. -/
theorem concurrent_load_never_missing (served : MFile → Bytes) (files : MFile → Option Bytes) (r : List (ι × ℕ)) (i : ι) :
    (concRun served r (concStart files)).proc i ≠ .failed := by
  have key : ∀ (r : List (ι × ℕ)) (s : ConcState ι), (∀ i f, needs (s.proc i) f → (s.files f).isSome) → (∀ i, s.proc i ≠ .failed) →
      ∀ i, (concRun served r s).proc i ≠ .failed := by
    intro r
    induction r with
    | nil => intro s _ h; exact h
    | cons a r ih =>
      intro s hn hp
      have hmono : ∀ f, (s.files f).isSome → ((concStep served s a.1 a.2).files f).isSome := by
        intro f hf
        unfold concStep
        split <;> first | exact hf | skip
        · rename_i g hg
          rcases eq_or_ne f g with rfl | hne <;> simp_all
        · split
          · rename_i g _ _ _
            rcases eq_or_ne f g with rfl | hne <;> simp_all
          · exact hf
      have hoth : ∀ j, j ≠ a.1 → (concStep served s a.1 a.2).proc j = s.proc j := by
        intro j hne
        unfold concStep
        split <;> first | rfl | (simp [Function.update_of_ne hne]) | skip
        split <;> simp [Function.update_of_ne hne]
      have hself : (∀ f, needs ((concStep served s a.1 a.2).proc a.1) f → ((concStep served s a.1 a.2).files f).isSome) ∧
          (concStep served s a.1 a.2).proc a.1 ≠ .failed := by
        have hna := hn a.1
        unfold concStep
        split
        · rename_i g hg
          rw [hg] at hna
          rw [forall_mfile] at hna ⊢
          by_cases h : (s.files g).isSome <;> cases g <;> simp_all [Pc.next, needs]
        · rename_i g hg
          rw [hg] at hna
          rw [forall_mfile] at hna ⊢
          cases g <;> simp_all [needs]
        · rename_i g off hg
          rw [hg] at hna
          rw [forall_mfile] at hna ⊢
          split <;> cases g <;> simp_all [needs, Pc.next]
        · rename_i hg
          rw [hg] at hna
          obtain ⟨c1, h1⟩ := Option.isSome_iff_exists.1 (hna .weights trivial)
          obtain ⟨c2, h2⟩ := Option.isSome_iff_exists.1 (hna .config trivial)
          rw [forall_mfile]
          simp [needs, h1, h2]
        · rename_i y hg
          rw [hg] at hna
          obtain ⟨c1, h1⟩ := Option.isSome_iff_exists.1 (hna .weights trivial)
          rw [forall_mfile]
          simp [needs, h1]
        · exact ⟨hna, hp _⟩
        · exact ⟨hna, hp _⟩
      refine ih _ (fun j f h => ?_) fun j => ?_
      · rcases eq_or_ne j a.1 with rfl | hne
        · exact hself.1 f h
        · rw [hoth j hne] at h
          exact hmono f (hn j f h)
      · rcases eq_or_ne j a.1 with rfl | hne
        · exact hself.2
        · rw [hoth j hne]; exact hp j
  refine key r _ (fun i f h => ?_) (fun i => ?_) i
  · cases f <;> simp [concStart, needs] at h
  · simp [concStart]

/-- **C148 violated.**  Two processes load a model that is not cached yet and nothing fails, whatever the server sends
(non-empty weights): for every `k` smaller than the length of the weights there is a schedule under which the second process
returns with only the first `k` bytes of the weights. -/
theorem concurrent_load_violated (served : MFile → Bytes) (k : ℕ) (hk : k < (served .weights).length) :
    ∃ r : List (Fin 2 × ℕ), (concRun served r (concStart fun _ => none)).proc 1 =
      .done (served .config) ((served .weights).take k) ∧ (served .weights).take k ≠ served .weights := by
  refine ⟨[(0, 0), (0, 0), (0, k), (1, 0), (1, 0), (1, 0), (1, (served .config).length), (1, 0), (1, 0), (1, 0)], ?_, fun e => ?_⟩
  · have hw : 0 < (served .weights).length := by omega
    by_cases hy : 0 < (served .config).length
    · simp [concRun, concStep, concStart, Pc.next, Function.update, writeAt, hw, hy]
    · have : served .config = [] := List.length_eq_zero_iff.1 (by omega)
      simp [concRun, concStep, concStart, Pc.next, Function.update, writeAt, hw, this]
  · have := congrArg List.length e
    rw [List.length_take] at this
    omega

example : ∃ r : List (Fin 2 × ℕ), (concRun (fun _ => [1, 2, 3]) r (concStart fun _ => none)).proc 1 = .done [1, 2, 3] [1] := by
  obtain ⟨r, h, -⟩ := concurrent_load_violated (fun _ => [1, 2, 3]) 1 (by simp)
  exact ⟨r, h⟩

/-- **C148 violated** for the process that downloaded everything itself: the other process, which had also found the
weights missing, creates the file anew just before the first one reads it, and the first one reads an empty file. -/
theorem concurrent_load_own_download_violated (served : MFile → Bytes) :
    ∃ r : List (Fin 2 × ℕ), (concRun served r (concStart fun _ => none)).proc 0 = .done (served .config) [] := by
  by_cases hw : 0 < (served .weights).length
  · by_cases hy : 0 < (served .config).length
    · refine ⟨[(1, 0), (0, 0), (0, 0), (0, (served .weights).length), (0, 0), (0, 0), (0, 0), (0, (served .config).length), (0, 0), (0, 0),
        (1, 0), (0, 0)], ?_⟩
      simp [concRun, concStep, concStart, Pc.next, Function.update, writeAt, hw, hy]
    · have : served .config = [] := List.length_eq_zero_iff.1 (by omega)
      refine ⟨[(1, 0), (0, 0), (0, 0), (0, (served .weights).length), (0, 0), (0, 0), (0, 0), (0, 0), (0, 0), (1, 0), (0, 0)], ?_⟩
      simp [concRun, concStep, concStart, Pc.next, Function.update, writeAt, hw, this]
  · have : served .weights = [] := List.length_eq_zero_iff.1 (by omega)
    by_cases hy : 0 < (served .config).length
    · refine ⟨[(1, 0), (0, 0), (0, 0), (0, 0), (0, 0), (0, 0), (0, (served .config).length), (0, 0), (0, 0), (1, 0), (0, 0)], ?_⟩
      simp [concRun, concStep, concStart, Pc.next, Function.update, writeAt, this, hy]
    · have h2 : served .config = [] := List.length_eq_zero_iff.1 (by omega)
      refine ⟨[(1, 0), (0, 0), (0, 0), (0, 0), (0, 0), (0, 0), (0, 0), (0, 0), (1, 0), (0, 0)], ?_⟩
      simp [concRun, concStep, concStart, Pc.next, Function.update, this, h2]

end Torchiva.Props
