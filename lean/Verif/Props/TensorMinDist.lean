import Verif.Proofs.TensorMinDist
import Verif.Props.TensorScaling
import Verif.Props.Scaling

/-!
# `minimum_distortion` on a batch (C139)
-/

namespace Torchiva.Props

open Torchiva Spec

variable {b : Shape} {C F N : ℕ}

private lemma rep3_item {α : Type} {X : Ten α} {b : Shape} {C F N : ℕ} (hX : X.shape = N :: F :: C :: b) :
    Rep3 b C F N X fun β c f n => X.val (n :: f :: c :: β) := ⟨hX, fun _ _ _ _ _ _ _ _ => rfl⟩

private lemma weights_none (p q : Option ℝ) (E : Ten ℂ) (A : List ℕ → Fin F → Fin C → Fin N → ℂ) (h : Rep3 b F C N E A) :
    Alike (fun t w => WRead b F C N t fun β f c n => if h : flatIdx b β < numel b then w ⟨flatIdx b β, h⟩ f c n else 0)
      (mdWeightsT p q none E) (mdWeights p q none fun i : Fin (numel b) => A (unflatIdx b i)) := by
  rw [mdWeights_item]
  rcases mdWeightsT_rep p q h with ⟨t, w, e1, e2, ht⟩ | ⟨e, e1, e2⟩
  · refine Or.inl ⟨t, _, e1, by rw [e2]; rfl, by rw [ht.shape, bcast_self], fun β hβ f hf c hc n hn => ?_⟩
    rw [dif_pos (flatIdx_lt hβ), Ten.read, ht.shape, bIdx_inside (show Inside (n :: c :: f :: β) (N :: C :: F :: b) from ⟨hn, hc, hf, hβ⟩),
      ht.val β hβ f hf c hc n hn]
    simp [unflat_flat hβ]
  · exact Or.inr ⟨e, e1, by rw [e2]; rfl⟩

/-- **C139.**  For every batch shape, all exponents, tolerances and numbers of iterations: `minimum_distortion` on a signal with batch
dimensions raises or returns as it does on the list of all items of the batch (in memory order), and returns for each item what it
returns there. -/
theorem min_distortion_any_batch (p q : Option ℝ) (rtol : ℝ) (maxIter : ℕ) (Y ref : Ten ℂ) (hY : Y.shape = N :: F :: C :: b)
    (hR : ref.shape = N :: F :: b) :
    Alike (fun t (o : Fin (numel b) → Sig C F N) => t.shape = Y.shape ∧ ∀ (i : Fin (numel b)) c f n, item3 t C F N (unflatIdx b i) c f n = o i c f n)
      (minDistT p q rtol maxIter none Y ref)
      (minDist p q rtol maxIter none (fun i => item3 Y C F N (unflatIdx b i)) fun i => item2 ref F N (unflatIdx b i)) := by
  have := minDistT_run p q rtol maxIter none none Iff.rfl (fun E A h => weights_none p q E A h) (rep3_item hY)
    (⟨hR, fun _ _ _ _ _ _ => rfl⟩ : Rep2 b F N ref (item2 ref F N))
  rcases this with ⟨t, o, e1, e2, h⟩ | h
  · refine Or.inl ⟨t, o, e1, e2, by rw [h.shape, hY], fun i c f n => ?_⟩
    have := h.val _ (unflat_inside i.2) c c.2 f f.2 n n.2
    simpa [item3, flat_unflat i.2] using this
  · exact Or.inr h

/-- Two signals of two channels in a batch of shape `(3, 2)`. -/
example (Y ref : Ten ℂ) (hY : Y.shape = [50, 129, 4, 2, 3]) (hR : ref.shape = [50, 129, 2, 3]) :
    Alike (fun t (o : Fin (numel [2, 3]) → Sig 4 129 50) => t.shape = Y.shape ∧
        ∀ (i : Fin (numel [2, 3])) c f n, item3 t 4 129 50 (unflatIdx [2, 3] i) c f n = o i c f n)
      (minDistT (some 1) none 1e-2 100 none Y ref)
      (minDist (some 1) none 1e-2 100 none (fun i => item3 Y 4 129 50 (unflatIdx [2, 3] i)) fun i => item2 ref 129 50 (unflatIdx [2, 3] i)) :=
  min_distortion_any_batch (some 1) none 1e-2 100 Y ref hY hR

/-- **C139**: with an exponent between 0 and 2 every batch is rescaled, whatever the tolerance and `max_iter`, every row of every item by
one complex number. -/
theorem min_distortion_any_batch_returns (p : ℝ) (hp : 0 < p) (hp2 : p < 2) (rtol : ℝ) (maxIter : ℕ) (Y ref : Ten ℂ)
    (hY : Y.shape = N :: F :: C :: b) (hR : ref.shape = N :: F :: b) :
    ∃ t, minDistT (some p) none rtol maxIter none Y ref = .ok t ∧ t.shape = Y.shape ∧
      ∀ β, Inside β b → ∀ c f, ∃ k : ℂ, ∀ n, item3 t C F N β c f n = item3 Y C F N β c f n * k := by
  obtain ⟨j, hj, -⟩ := min_distortion_lp_run p hp hp2 none (Or.inl rfl) rtol maxIter
    (fun i : Fin (numel b) => item3 Y C F N (unflatIdx b i)) fun i => item2 ref F N (unflatIdx b i)
  generalize ((_root_.Spec.wlsUpdate (_root_.Spec.lpWeights p) (fun i : Fin (numel b) => item3 Y C F N (unflatIdx b i))
    fun i => item2 ref F N (unflatIdx b i))^[j] 1) = K at hj
  rcases min_distortion_any_batch (some p) none rtol maxIter Y ref hY hR with ⟨t, o, e1, e2, hs, h⟩ | ⟨e, -, e2⟩
  · refine ⟨t, e1, hs, fun β hβ c f => ⟨K ⟨flatIdx b β, flatIdx_lt hβ⟩ f c, fun n => ?_⟩⟩
    have h1 := h ⟨flatIdx b β, flatIdx_lt hβ⟩ c f n
    rw [hj] at e2
    rw [← Except.ok.inj e2] at h1
    simp only [unflat_flat hβ] at h1
    exact h1
  · rw [hj] at e2
    cases e2

example (Y ref : Ten ℂ) (hY : Y.shape = [50, 129, 4, 2, 3]) (hR : ref.shape = [50, 129, 2, 3]) :
    ∃ t, minDistT (some 1) none 1e-2 100 none Y ref = .ok t ∧ t.shape = Y.shape ∧
      ∀ β, Inside β [2, 3] → ∀ c f, ∃ k : ℂ, ∀ n, item3 t 4 129 50 β c f n = item3 Y 4 129 50 β c f n * k :=
  min_distortion_any_batch_returns 1 (by norm_num) (by norm_num) 1e-2 100 Y ref hY hR

/-- **C139 (partial: the stopping rule never fires).**  With `rtol ≤ 0`, and for all exponents and numbers of iterations,
`minimum_distortion(Y, ref)[β] = minimum_distortion(Y[β], ref[β])`, including the exceptions.  (With a positive tolerance this is
false: `min_distortion_tensor_violated`.) -/
theorem min_distortion_tensor_alone_partial (p q : Option ℝ) (rtol : ℝ) (hr : rtol ≤ 0) (maxIter : ℕ) (Y ref : Ten ℂ)
    (hY : Y.shape = N :: F :: C :: b) (hR : ref.shape = N :: F :: b) (hb : ∃ β, Inside β b) :
    AsAlone b IsItem (minDistT p q rtol maxIter none Y ref) fun β =>
      minDistT p q rtol maxIter none (Y.itemAt 3 β) (ref.itemAt 2 β) := by
  have h1 : ∀ β, Inside β b → _ := fun β hβ =>
    min_distortion_any_batch (b := []) (N := N) (F := F) (C := C) p q rtol maxIter (Y.itemAt 3 β) (ref.itemAt 2 β)
      (by simp [Ten.itemAt, hY]) (by simp [Ten.itemAt, hR])
  have hp : ∀ β (hβ : Inside β b), _ := fun β hβ => min_distortion_batch_partial p q rtol hr maxIter
    (fun i : Fin (numel b) => item3 Y C F N (unflatIdx b i)) (fun i => item2 ref F N (unflatIdx b i)) ⟨flatIdx b β, flatIdx_lt hβ⟩
  rcases min_distortion_any_batch p q rtol maxIter Y ref hY hR with ⟨t, o, e1, e2, hs, h⟩ | ⟨e, e1, e2⟩
  · rw [e1]
    intro β hβ
    have hp := hp β hβ
    simp only [e2, unflat_flat hβ] at hp
    rcases h1 β hβ with ⟨t1, o1, f1, f2, hs1, g1⟩ | ⟨e, f1, f2⟩
    · refine ⟨t1, f1, ?_, ?_⟩
      · have hl := inside_length hβ
        rw [hs1, hs, hY]
        simp [Ten.itemAt, hY, hl, show b.length + 1 + 1 + 1 - b.length = 3 by omega]
      · intro idx hidx
        rw [hs1] at hidx
        simp only [Ten.itemAt, hY, List.take] at hidx
        obtain ⟨n, idx, rfl⟩ : ∃ n l, idx = n :: l := by cases idx <;> simp_all [Inside]
        obtain ⟨f, idx, rfl⟩ : ∃ n l, idx = n :: l := by cases idx <;> simp_all [Inside]
        obtain ⟨c, idx, rfl⟩ : ∃ n l, idx = n :: l := by cases idx <;> simp_all [Inside]
        obtain rfl : idx = [] := by cases idx <;> simp_all [Inside]
        obtain ⟨hn, hf, hc, -⟩ := hidx
        have ha := g1 ⟨0, by simp [numel]⟩ ⟨c, hc⟩ ⟨f, hf⟩ ⟨n, hn⟩
        have hb := h ⟨flatIdx b β, flatIdx_lt hβ⟩ ⟨c, hc⟩ ⟨f, hf⟩ ⟨n, hn⟩
        simp only [unflat_flat hβ] at hb
        have f2' : minDist p q rtol maxIter none (fun _ : Fin 1 => item3 Y C F N β) (fun _ => item2 ref F N β) = .ok o1 := f2
        rw [f2'] at hp
        have := Except.ok.inj hp
        have hv := congrFun (congrFun (congrFun this ⟨c, hc⟩) ⟨f, hf⟩) ⟨n, hn⟩
        exact (ha.trans hv.symm).trans hb.symm
    · have f2' : minDist p q rtol maxIter none (fun _ : Fin 1 => item3 Y C F N β) (fun _ => item2 ref F N β) = .error e := f2
      rw [f2'] at hp
      cases hp
  · rw [e1]
    obtain ⟨β, hβ⟩ := hb
    refine ⟨β, hβ, ?_⟩
    have hp := hp β hβ
    simp only [e2, unflat_flat hβ] at hp
    rcases h1 β hβ with ⟨t1, o1, f1, f2, hs1, g1⟩ | ⟨e', f1, f2⟩
    · have f2' : minDist p q rtol maxIter none (fun _ : Fin 1 => item3 Y C F N β) (fun _ => item2 ref F N β) = .ok o1 := f2
      rw [f2'] at hp
      cases hp
    · have f2' : minDist p q rtol maxIter none (fun _ : Fin 1 => item3 Y C F N β) (fun _ => item2 ref F N β) = .error e' := f2
      rw [f2'] at hp
      cases hp
      exact f1

example (Y ref : Ten ℂ) (hY : Y.shape = [50, 129, 4, 2, 3]) (hR : ref.shape = [50, 129, 2, 3]) :
    AsAlone [2, 3] IsItem (minDistT (some 1) (some 2) 0 100 none Y ref) fun β =>
      minDistT (some 1) (some 2) 0 100 none (Y.itemAt 3 β) (ref.itemAt 2 β) :=
  min_distortion_tensor_alone_partial (some 1) (some 2) 0 le_rfl 100 Y ref hY hR ⟨[0, 0], by simp [Inside]⟩

/-- **C139 is violated** for a positive tolerance: there is a batch of two signals of one channel, one frequency and three frames, for which
`minimum_distortion` gives another result than for the first signal alone (`p = 1`, `rtol = 0.42`, `max_iter = 3`). -/
theorem min_distortion_tensor_violated :
    ∃ (Y ref t t1 : Ten ℂ), Y.shape = [3, 1, 1, 2] ∧ ref.shape = [3, 1, 2] ∧ minDistT (some 1) none 0.42 3 none Y ref = .ok t ∧
      minDistT (some 1) none 0.42 3 none (Y.itemAt 3 [0]) (ref.itemAt 2 [0]) = .ok t1 ∧ ¬ IsItem [0] t t1 := by
  obtain ⟨Y, ref, o, o0, e, e0, hne⟩ := min_distortion_batch_violated
  let YT : Ten ℂ := ⟨[3, 1, 1, 2], fun idx => if h : idx.getD 3 0 < 2 ∧ idx.getD 0 0 < 3 then Y ⟨_, h.1⟩ 0 0 ⟨_, h.2⟩ else 0⟩
  let RT : Ten ℂ := ⟨[3, 1, 2], fun idx => if h : idx.getD 2 0 < 2 ∧ idx.getD 0 0 < 3 then ref ⟨_, h.1⟩ 0 ⟨_, h.2⟩ else 0⟩
  have hY : (fun i : Fin (numel [2]) => item3 YT 1 1 3 (unflatIdx [2] i)) = Y := by
    funext i c f n
    obtain ⟨i, hi⟩ := i
    have hi' : i < 2 := hi
    have hn := n.2
    simp only [item3, YT, unflatIdx, List.getD_cons_succ, List.getD_cons_zero, Nat.mod_eq_of_lt hi']
    rw [dif_pos ⟨hi', hn⟩, Subsingleton.elim c 0, Subsingleton.elim f 0]
    rfl
  have hR : (fun i : Fin (numel [2]) => item2 RT 1 3 (unflatIdx [2] i)) = ref := by
    funext i f n
    obtain ⟨i, hi⟩ := i
    have hi' : i < 2 := hi
    have hn := n.2
    simp only [item2, RT, unflatIdx, List.getD_cons_succ, List.getD_cons_zero, Nat.mod_eq_of_lt hi']
    rw [dif_pos ⟨hi', hn⟩, Subsingleton.elim f 0]
    rfl
  have hY0 : (fun i : Fin (numel []) => item3 (YT.itemAt 3 [0]) 1 1 3 (unflatIdx [] i)) = fun _ => Y 0 := by
    funext i c f n
    have hn := n.2
    simp only [item3, YT, Ten.itemAt, unflatIdx, List.cons_append, List.nil_append, List.getD_cons_succ, List.getD_cons_zero]
    rw [dif_pos ⟨by norm_num, hn⟩, Subsingleton.elim c 0, Subsingleton.elim f 0]
    rfl
  have hR0 : (fun i : Fin (numel []) => item2 (RT.itemAt 2 [0]) 1 3 (unflatIdx [] i)) = fun _ => ref 0 := by
    funext i f n
    have hn := n.2
    simp only [item2, RT, Ten.itemAt, unflatIdx, List.cons_append, List.nil_append, List.getD_cons_succ, List.getD_cons_zero]
    rw [dif_pos ⟨by norm_num, hn⟩, Subsingleton.elim f 0]
    rfl
  have hA := min_distortion_any_batch (b := [2]) (some 1) none 0.42 3 YT RT rfl rfl
  have hB := min_distortion_any_batch (b := []) (C := 1) (F := 1) (N := 3) (some 1) none 0.42 3 (YT.itemAt 3 [0]) (RT.itemAt 2 [0])
    rfl rfl
  rw [hY, hR] at hA
  rw [hY0, hR0] at hB
  have e' : minDist (B := numel [2]) (some 1) none 0.42 3 none Y ref = .ok o := e
  have e0' : minDist (B := numel []) (some 1) none 0.42 3 none (fun _ => Y 0) (fun _ => ref 0) = .ok o0 := e0
  rw [e'] at hA
  rw [e0'] at hB
  rcases hA with ⟨t, _, ht, ho, -, h⟩ | ⟨_, _, h⟩
  swap
  · cases h
  rcases hB with ⟨t1, _, ht1, ho1, hs1, h1⟩ | ⟨_, _, h⟩
  swap
  · cases h
  cases ho
  cases ho1
  refine ⟨YT, RT, t, t1, rfl, rfl, ht, ht1, fun hI => hne ?_⟩
  funext c f n
  have a := h ⟨0, by decide⟩ c f n
  have a1 := h1 ⟨0, by decide⟩ c f n
  have hi : Inside [n.1, f.1, c.1] t1.shape := by
    rw [hs1]
    exact ⟨n.2, f.2, c.2, trivial⟩
  have := hI.2 [n.1, f.1, c.1] hi
  exact (a.symm.trans this.symm).trans a1

/-- A learnable block for a batch of `B` signals: on tensors it returns the weights `m` gives to the batch. -/
def MdModelRep (B C F N : ℕ) (M : Ten ℂ → Except Err (Ten ℝ)) (m : (Fin (numel [B]) → Sig C F N) → Fin (numel [B]) → Weights C F N) : Prop :=
  ∀ E : Ten ℂ, E.shape = [N, F, C, B] → ∃ w, M E = .ok w ∧ w.shape = [N, F, C, B] ∧
    ∀ (i : Fin (numel [B])) c f n, item3 w C F N (unflatIdx [B] i) c f n = m (fun i => item3 E C F N (unflatIdx [B] i)) i c f n

section
attribute [local simp] ok_bind' err_bind' pure_ok' comb_self comb_one_left comb_one_right bcast_self
  bcast_nil_left bcast_nil_right bcast_cons bcastTo sel pick onDim unsq swap01 swap12
  reduceKeep reduce Ten.map Ten.map2 Ten.read bIdx bIdx_inside Ten.swapIdx01 Ten.swapIdx12
set_option linter.unusedSimpArgs false

private lemma weights_some {B : ℕ} (hB : 0 < B) (hF : 0 < F) (p q : Option ℝ) {M : Ten ℂ → Except Err (Ten ℝ)}
    {m : (Fin (numel [B]) → Sig C F N) → Fin (numel [B]) → Weights C F N} (hM : MdModelRep B C F N M m) (E : Ten ℂ)
    (A : List ℕ → Fin F → Fin C → Fin N → ℂ) (h : Rep3 [B] F C N E A) :
    Alike (fun t w => WRead [B] F C N t fun β f c n => if h : flatIdx [B] β < numel [B] then w ⟨flatIdx [B] β, h⟩ f c n else 0)
      (mdWeightsT p q (some M) E) (mdWeights p q (some fun E i f c n => m (fun i c f n => E i f c n) i c f n)
        fun i : Fin (numel [B]) => A (unflatIdx [B] i)) := by
  have hnB : 0 < numel [B] := by simpa [numel] using hB
  unfold mdWeightsT mdWeights
  dsimp only
  rw [dif_pos ⟨hnB, hF⟩]
  obtain ⟨ET, e, hET⟩ : ∃ t, E.swap12 = .ok t ∧ Rep3 [B] C F N t fun β c f n => A β f c n := by
    simp [Ten.swap12, h.shape]
    refine ⟨rfl, fun β hβ i hi j hj k hk => ?_⟩
    simp [hβ, hi, hj, hk, h.val]
  rw [e, ok_bind']; clear e
  obtain ⟨w, e, hws, hwv⟩ := hM ET hET.shape
  rw [e, ok_bind']; clear e
  have hEA : (fun (i : Fin (numel [B])) => item3 ET C F N (unflatIdx [B] i)) = fun (i : Fin (numel [B])) c f n => A (unflatIdx [B] i) f c n := by
    funext i c f n
    exact hET.val _ (unflat_inside i.2) c c.2 f f.2 n n.2
  rw [hEA] at hwv
  generalize hm : m (fun (i : Fin (numel [B])) c f n => A (unflatIdx [B] i) f c n) = g at hwv
  have hw0 : ∀ c (hc : c < C) n (hn : n < N), w.val [n, 0, c, 0] = g ⟨0, hnB⟩ ⟨c, hc⟩ ⟨0, hF⟩ ⟨n, hn⟩ := by
    intro c hc n hn
    have := hwv ⟨0, hnB⟩ ⟨c, hc⟩ ⟨0, hF⟩ ⟨n, hn⟩
    simpa [item3, unflatIdx] using this
  obtain ⟨w1, e, hw1⟩ : ∃ t, w.swap12 = .ok t ∧ t.shape = [N, C, F, B] ∧ ∀ c n, t.val [n, c, 0, 0] = w.val [n, 0, c, 0] := by
    simp [Ten.swap12, hws]
  rw [e, ok_bind']; clear e
  obtain ⟨w2, e, hw2⟩ : ∃ t, w1.sel 3 0 = .ok t ∧ t.shape = [N, C, F] ∧ ∀ c n, t.val [n, c, 0] = w.val [n, 0, c, 0] := by
    simp [Ten.sel, hw1.1, hB, hw1.2]
  rw [e, ok_bind']; clear e
  obtain ⟨w3, e, hw3⟩ : ∃ t, w2.sel 2 0 = .ok t ∧ t.shape = [N, C] ∧ ∀ c n, t.val [n, c] = w.val [n, 0, c, 0] := by
    simp [Ten.sel, hw2.1, hF, hw2.2]
  rw [e, ok_bind']; clear e
  obtain ⟨nrm, e, hnrm⟩ : ∃ t, w3.sumKeep 0 = .ok t ∧ t.shape = [1, C] ∧
      ∀ c (hc : c < C), t.val [0, c] = ∑ n, g ⟨0, hnB⟩ ⟨c, hc⟩ ⟨0, hF⟩ n := by
    simp [Ten.sumKeep, hw3.1]
    intro c hc
    simp [Finset.sum_range, hw3.2, hw0, hc]
  rw [e, ok_bind']; clear e
  refine Or.inl ⟨⟨[N, C], fun idx => w3.read idx / clampMin (nrm.read idx) 1e-5⟩, _, ?_, rfl, ?_, fun β hβ f hf c hc n hn => ?_⟩
  · simp [hw3.1, hnrm.1]
  · simp
  · simp [flatIdx_lt hβ, hw3.1, hnrm.1, hw3.2, hw0, hc, hn, hnrm.2, bnat]

/-- **C139 (with a learnable block).**  On a batch with one dimension, `minimum_distortion(model=m)` raises or returns as it does for the
items, and returns the same (see C87 for what it then computes: the weights of the first item and frequency are used for all). -/
theorem min_distortion_model_batch {B : ℕ} (hB : 0 < B) (hF : 0 < F) (p q : Option ℝ) (rtol : ℝ) (maxIter : ℕ)
    {M : Ten ℂ → Except Err (Ten ℝ)} {m : (Fin (numel [B]) → Sig C F N) → Fin (numel [B]) → Weights C F N}
    (hM : MdModelRep B C F N M m) (Y ref : Ten ℂ) (hY : Y.shape = [N, F, C, B]) (hR : ref.shape = [N, F, B]) :
    Alike (fun t (o : Fin (numel [B]) → Sig C F N) => t.shape = Y.shape ∧
        ∀ (i : Fin (numel [B])) c f n, item3 t C F N (unflatIdx [B] i) c f n = o i c f n)
      (minDistT p q rtol maxIter (some M) Y ref)
      (minDist p q rtol maxIter (some fun E i f c n => m (fun i c f n => E i f c n) i c f n)
        (fun i => item3 Y C F N (unflatIdx [B] i)) fun i => item2 ref F N (unflatIdx [B] i)) := by
  have := minDistT_run p q rtol maxIter (some M) (some fun E i f c n => m (fun i c f n => E i f c n) i c f n) (by simp)
    (fun E A h => weights_some hB hF p q hM E A h) (rep3_item hY)
    (⟨hR, fun _ _ _ _ _ _ => rfl⟩ : Rep2 [B] F N ref (item2 ref F N))
  rcases this with ⟨t, o, e1, e2, h⟩ | h
  · refine Or.inl ⟨t, o, e1, e2, by rw [h.shape, hY], fun i c f n => ?_⟩
    have := h.val _ (unflat_inside i.2) c c.2 f f.2 n n.2
    simpa [item3, flat_unflat i.2] using this
  · exact Or.inr h

end

/-- Two recordings, weights `1 / (1 + |e|)` computed by the block. -/
example (Y ref : Ten ℂ) (hY : Y.shape = [50, 129, 4, 2]) (hR : ref.shape = [50, 129, 2]) :
    Alike (fun t (o : Fin (numel [2]) → Sig 4 129 50) => t.shape = Y.shape ∧
        ∀ (i : Fin (numel [2])) c f n, item3 t 4 129 50 (unflatIdx [2] i) c f n = o i c f n)
      (minDistT none none 1e-2 100 (some fun E => .ok (E.map fun z => 1 / (1 + ‖z‖))) Y ref)
      (minDist none none 1e-2 100 (some fun E i f c n => 1 / (1 + ‖E i f c n‖))
        (fun i => item3 Y 4 129 50 (unflatIdx [2] i)) fun i => item2 ref 129 50 (unflatIdx [2] i)) :=
  min_distortion_model_batch (B := 2) (by norm_num) (by norm_num) none none 1e-2 100
    (m := fun E i c f n => 1 / (1 + ‖E i c f n‖)) (fun E hE => ⟨_, rfl, hE, fun _ _ _ _ => rfl⟩) Y ref hY hR

end Torchiva.Props
