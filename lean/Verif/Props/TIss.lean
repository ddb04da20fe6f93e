import Verif.Proofs.TIssCost
import Verif.Props.Linalg
import Verif.Props.Hankel
import Verif.Proofs.Demo

/-!
# Properties C10-C17: T-ISS

`tissForward p nSrc X model reset ms` is one `T_ISS.forward` call with resolved parameters; `model` is an
arbitrary, possibly stateful source model.
-/

namespace Torchiva.Props

open Torchiva Matrix Spec

variable {σ : Type} {s C F N T : ℕ}

/-! ## Reading off a successful run -/

private lemma core_dmc (hs : s ≤ C) (p : TissParams) (X : Sig C F N) (model : SourceModel σ F N)
    (ms : σ) :
    tissCore hs { p with useDmc := true } X model ms
      = tissCore hs { p with useDmc := false } X model ms := by
  unfold tissCore
  simp only
  cases h0 : tissInit hs X p.nTaps p.nDelay p.eps ms with
  | error e => rfl
  | ok st0 =>
    have hi : Inv X (delayedTaps X p.nTaps p.nDelay) st0.Y st0.W st0.H :=
      (tissInit_ok hs X p.nDelay p.eps ms st0 h0).2.2.1
    simp only [bind, Except.bind]
    rw [tissLoop_dmc hs X p.nDelay model p.eps p.nIter st0 hi]
    cases h1 : tissLoop hs X p.nTaps p.nDelay model p.eps false p.nIter st0 with
    | error e => rfl
    | ok r =>
      have hr := tissLoop_inv hs X p.nDelay model p.eps p.nIter st0 r hi h1
      unfold Inv at hr
      simp only [Except.map, if_true, Bool.false_eq_true, if_false]
      rw [← hr]

private lemma core_dmc' (hs : s ≤ C) (p : TissParams) (X : Sig C F N) (model : SourceModel σ F N)
    (ms : σ) : tissCore hs p X model ms = tissCore hs { p with useDmc := false } X model ms := by
  cases hp : p.useDmc with
  | true => rw [← core_dmc]; congr 1; cases p; simp_all
  | false => congr 1; cases p; simp_all

lemma tiss_core_ok (hs : s ≤ C) (p : TissParams) (X : Sig C F N) (model : SourceModel σ F N)
    (ms : σ) (out : TissOut σ s C F N) (h : tissCore hs p X model ms = .ok out) :
    ∃ (st0 st : TissState σ s C F N p.nTaps) (a : Fin s → Fin F → ℂ),
      tissInit hs X p.nTaps p.nDelay p.eps ms = .ok st0 ∧
      tissLoop hs X p.nTaps p.nDelay model p.eps false p.nIter st0 = .ok st ∧
      st.Y = demixDerev X (delayedTaps X p.nTaps p.nDelay) st.W st.H ∧
      out.W = st.W ∧ out.J = st.J ∧ (∀ k f n, out.Y k f n = a k f * st.Y k f n) ∧
      (p.projBackMic = none ∨ p.nIter = 0 → ∀ k f, a k f = 1) ∧
      (∀ m, p.projBackMic = some m → 0 < p.nIter →
        projectionBackWeights hs st.W st.J m = .ok a) := by
  rw [core_dmc'] at h
  unfold tissCore at h
  simp only at h
  cases h0 : tissInit hs X p.nTaps p.nDelay p.eps ms with
  | error e => rw [h0] at h; cases h
  | ok st0 =>
    have hi : Inv X (delayedTaps X p.nTaps p.nDelay) st0.Y st0.W st0.H :=
      (tissInit_ok hs X p.nDelay p.eps ms st0 h0).2.2.1
    rw [h0] at h
    simp only [bind, Except.bind] at h
    cases h1 : tissLoop hs X p.nTaps p.nDelay model p.eps false p.nIter st0 with
    | error e => rw [h1] at h; cases h
    | ok st =>
      have hr := tissLoop_inv hs X p.nDelay model p.eps p.nIter st0 st hi h1
      rw [h1] at h
      simp only [Bool.false_eq_true, if_false] at h
      cases hm : p.projBackMic with
      | none =>
        rw [hm] at h
        simp only [pure, Except.pure, Except.ok.injEq] at h
        subst h
        exact ⟨st0, st, fun _ _ => 1, rfl, h1, hr, rfl, rfl, fun _ _ _ => (one_mul _).symm,
          fun _ _ _ => rfl, fun m h => by cases h⟩
      | some m =>
        rw [hm] at h
        simp only at h
        split_ifs at h with hn
        · cases ha : projectionBackWeights hs st.W st.J m with
          | error e => rw [ha] at h; cases h
          | ok a =>
            rw [ha] at h
            simp only [pure, Except.pure, Except.ok.injEq] at h
            subst h
            refine ⟨st0, st, a, rfl, h1, hr, rfl, rfl, fun _ _ _ => rfl, ?_, ?_⟩
            · rintro (h | h)
              · cases h
              · omega
            · intro m' hm' _
              cases hm'
              exact ha
        · simp only [pure, Except.pure, Except.ok.injEq] at h
          subst h
          exact ⟨st0, st, fun _ _ => 1, rfl, h1, hr, rfl, rfl, fun _ _ _ => (one_mul _).symm,
            fun _ _ _ => rfl, fun m' _ h => absurd h hn⟩

lemma tiss_forward_ok (p : TissParams) (nSrc : Option ℕ) (X : Sig C F N)
    (model : SourceModel σ F N) (reset : σ → σ) (ms : σ) (s : ℕ) (out : TissOut σ s C F N)
    (h : tissForward p nSrc X model reset ms = .ok ⟨s, out⟩) :
    ∃ hs : s ≤ C, tissCore hs p X model (reset ms) = .ok out ∧ s = nSrc.getD C := by
  unfold tissForward at h
  simp only at h
  split_ifs at h with hs
  cases hc : tissCore hs p X model (reset ms) with
  | error e => rw [hc] at h; cases h
  | ok o =>
    rw [hc] at h
    simp only [Except.map, Except.ok.injEq, Sigma.mk.injEq] at h
    obtain ⟨h1, h2⟩ := h
    subst h1
    cases h2
    exact ⟨hs, hc, rfl⟩

/-! ## C10 -/

private lemma output_filters (p : TissParams) (X : Sig C F N)
    (model : SourceModel σ F N) (ms : σ) (hs : s ≤ C) (out : TissOut σ s C F N)
    (hc : tissCore hs p X model ms = .ok out) :
    ∃ (a : Fin s → Fin F → ℂ) (G : Fin s → Fin F → Fin C → ℕ → ℂ),
      (p.projBackMic = none ∨ p.nIter = 0 → ∀ k f, a k f = 1) ∧
      (∀ k f c d, d ≤ p.nDelay ∨ p.nDelay + p.nTaps < d → G k f c d = 0) ∧
      (∀ k f n, out.Y k f n = a k f * ((∑ c, out.W k f c * X c f n)
        - ∑ c, ∑ d ∈ Finset.range (p.nDelay + p.nTaps + 1), G k f c d * past (X c f) n d)) ∧
      (∀ m, p.projBackMic = some m → 0 < p.nIter →
        projectionBackWeights hs out.W out.J m = .ok a) := by
  obtain ⟨st0, st, a, -, -, hY, hW, hJ, hout, ha, hpb⟩ := tiss_core_ok hs p X model ms out hc
  refine ⟨a, fun k f c d => if h : p.nDelay < d ∧ d ≤ p.nDelay + p.nTaps then
    st.H k f c ⟨p.nDelay + p.nTaps - d, by omega⟩ else 0, ha, ?_, ?_, fun m h h' => by rw [hW, hJ]; exact hpb m h h'⟩
  · intro k f c d hd
    simp only
    rw [dif_neg (by omega)]
  · intro k f n
    rw [hout, hY, hW]
    simp only [demixDerev]
    congr 2
    refine Finset.sum_congr rfl fun c _ => ?_
    symm
    rw [← Finset.sum_subset (s₁ := Finset.Ico (p.nDelay + 1) (p.nDelay + p.nTaps + 1))]
    · rw [← Finset.sum_range_reflect (fun t => if h : t < p.nTaps then
        st.H k f c ⟨t, h⟩ * delayedTaps X p.nTaps p.nDelay c f ⟨t, h⟩ n else 0) p.nTaps |>.trans
          (Fin.sum_univ_eq_sum_range (fun t => if h : t < p.nTaps then
        st.H k f c ⟨t, h⟩ * delayedTaps X p.nTaps p.nDelay c f ⟨t, h⟩ n else 0) p.nTaps).symm
          |>.trans (Finset.sum_congr rfl fun t _ => by rw [dif_pos t.2])]
      rw [Finset.sum_Ico_eq_sum_range]
      have e : p.nDelay + p.nTaps + 1 - (p.nDelay + 1) = p.nTaps := by omega
      rw [e]
      refine Finset.sum_congr rfl fun i hi => ?_
      have hi' := Finset.mem_range.1 hi
      rw [dif_pos (by omega), dif_pos (by omega)]
      have e1 : (⟨p.nDelay + p.nTaps - (p.nDelay + 1 + i), by omega⟩ : Fin p.nTaps)
          = ⟨p.nTaps - 1 - i, by omega⟩ := by ext; simp; omega
      rw [e1]
      congr 1
      unfold delayedTaps past
      rw [xbarRow_eq]
      have e2 : p.nDelay + p.nTaps - (p.nTaps - 1 - i) = p.nDelay + 1 + i := by omega
      simp only [e2]
      split_ifs <;> rfl
    · intro d hd
      simp only [Finset.mem_Ico, Finset.mem_range] at *
      omega
    · intro d _ hd
      simp only [Finset.mem_Ico] at hd
      rw [dif_neg (by omega), zero_mul]

/-- **C10.** Whenever `T_ISS.forward` returns, every output is (up to one projection-back scale per
source and frequency, which is 1 when projection back is off or there are no iterations) a fixed filter
of the input: the demixing row `W` left in the object applied to the current frame, minus a filter `G`
applied to past frames, whose delays all lie between `n_delay + 1` and `n_delay + n_taps`. -/
theorem tiss_output_filters_input (p : TissParams) (nSrc : Option ℕ) (X : Sig C F N)
    (model : SourceModel σ F N) (reset : σ → σ) (ms : σ) (s : ℕ) (out : TissOut σ s C F N)
    (h : tissForward p nSrc X model reset ms = .ok ⟨s, out⟩) :
    ∃ (a : Fin s → Fin F → ℂ) (G : Fin s → Fin F → Fin C → ℕ → ℂ),
      (p.projBackMic = none ∨ p.nIter = 0 → ∀ k f, a k f = 1) ∧
      (∀ k f c d, d ≤ p.nDelay ∨ p.nDelay + p.nTaps < d → G k f c d = 0) ∧
      ∀ k f n, out.Y k f n = a k f * ((∑ c, out.W k f c * X c f n)
        - ∑ c, ∑ d ∈ Finset.range (p.nDelay + p.nTaps + 1), G k f c d * past (X c f) n d) := by
  obtain ⟨hs, hc, -⟩ := tiss_forward_ok p nSrc X model reset ms s out h
  obtain ⟨a, G, h1, h2, h3, -⟩ := output_filters p X model (reset ms) hs out hc
  exact ⟨a, G, h1, h2, h3⟩

/-! ## C11 -/

/-- **C11.** Demixing-matrix checkpointing never changes the outcome of a forward call: same signals,
same stored filters, same model state, same exceptions. -/
theorem tiss_dmc_same (p : TissParams) (nSrc : Option ℕ) (X : Sig C F N)
    (model : SourceModel σ F N) (reset : σ → σ) (ms : σ) :
    tissForward { p with useDmc := true } nSrc X model reset ms
      = tissForward { p with useDmc := false } nSrc X model reset ms := by
  unfold tissForward
  simp only [core_dmc]

/-! ## C15 and termination without exceptions -/

/-- **C15.** More sources than channels is rejected with `ValueError`, whatever else is passed. -/
theorem tiss_underdetermined_rejected (p : TissParams) (k : ℕ) (hk : C < k) (X : Sig C F N)
    (model : SourceModel σ F N) (reset : σ → σ) (ms : σ) :
    tissForward p (some k) X model reset ms = .error .valueError := by
  unfold tissForward
  simp only [Option.getD_some]
  rw [dif_neg (by omega)]

/-- Three sources from two microphones. -/
example : tissForward ⟨5, 0, 0, none, false, 1e-5⟩ (some 3) (Demo.sig 2 1 4) (laplaceModel 1e-5) id () = .error .valueError :=
  tiss_underdetermined_rejected _ 3 (by norm_num) _ _ _ _

private lemma loop_total (hs : s ≤ C) (X : Sig C F N) (D : ℕ) (model : SourceModel σ F N)
    (eps : ℝ) (n : ℕ) (st : TissState σ s C F N T) :
    ∃ st', tissLoop hs X T D model eps false n st = .ok st' ∧ (st'.J.isSome ↔ st.J.isSome) := by
  obtain ⟨a', h1, h2⟩ := iterM_total (fun a : TissState σ s C F N T => (a.J.isSome ↔ st.J.isSome))
    (tissOneIter hs X (delayedTaps X T D) (covXX X) (covXbarX X (delayedTaps X T D)) model eps)
    (fun a ha => by
      obtain ⟨a', h, h'⟩ := tissOneIter_total hs X (delayedTaps X T D) (covXX X)
        (covXbarX X (delayedTaps X T D)) model eps a
      exact ⟨a', h, h'.trans ha⟩) n st Iff.rfl
  exact ⟨a', h1, h2⟩

/-- The system solved by projection back in the over-determined case: row `d`, column `k` is
`W₁ + W₂ J`. -/
private noncomputable def pbMat (hs : s ≤ C) (W : DemixW s F C) (J : BackJ (C - s) F s) (f : Fin F) :
    Matrix (Fin s) (Fin s) ℂ := Matrix.of fun d k =>
  (∑ c : Fin (C - s), W k f ⟨s + c, by omega⟩ * J c f d) + W k f (Fin.castLE hs d)

private lemma seq_ridge (A : Fin F → Matrix (Fin s) (Fin s) ℂ) (b : Fin F → Matrix (Fin s) (Fin 1) ℂ) :
    ∃ a, seqAll (fun f => solveLoadedGeneral (A f) (b f) 1e-5 1e-5) = .ok a ∧
      ∀ f, IsUniqueMin (ridgeCost (fun k => 1 / max (l2 (A f k)) 1e-5) (A f) (fun k => b f k 0) 1e-5)
        (fun k => a f k 0) := by
  have h := fun f => solve_loaded_general_ridge (A f) (b f) 1e-5 1e-5 (by norm_num)
  choose x hx hm using h
  exact ⟨x, seqAll_ok_iff.2 hx, fun f => hm f 0⟩

private lemma pb_over (hs : s ≤ C) (hc : s < C) (W : DemixW s F C) (J : BackJ (C - s) F s) (m : ℕ)
    (hm : m < C) : ∃ a, projectionBackWeights hs W (some J) m = .ok a ∧
      ∀ f, IsUniqueMin (ridgeCost (fun k => 1 / max (l2 (pbMat hs W J f k)) 1e-5) (pbMat hs W J f)
        (fun d => if _h : m < s then (if d.1 = m then 1 else 0) else J ⟨m - s, by omega⟩ f d) 1e-5)
        (fun k => a k f) := by
  by_cases h1 : m < s
  · obtain ⟨a, ha, hmin⟩ := seq_ridge (pbMat hs W J) (fun _ => Matrix.of fun k _ => if k.1 = m then 1 else 0)
    refine ⟨fun k f => a f k 0, ?_, fun f => ?_⟩
    · unfold projectionBackWeights
      rw [if_pos hc]
      simp only [dif_pos h1, bind, Except.bind]
      unfold pbMat at ha
      rw [ha]; rfl
    · simpa [h1] using hmin f
  · have h2 : m - s < C - s := by omega
    obtain ⟨a, ha, hmin⟩ := seq_ridge (pbMat hs W J) (fun f => Matrix.of fun k _ => J ⟨m - s, h2⟩ f k)
    refine ⟨fun k f => a f k 0, ?_, fun f => ?_⟩
    · unfold projectionBackWeights
      rw [if_pos hc]
      simp only [dif_neg h1, dif_pos h2, bind, Except.bind]
      unfold pbMat at ha
      rw [ha]; rfl
    · simpa [h1] using hmin f

private lemma pb_det (W : DemixW C F C) (J) (m : Fin C) (hs : C ≤ C) :
    ∃ a, projectionBackWeights hs W J m = .ok a ∧
      ∀ f, IsUniqueMin (ridgeCost (fun c => 1 / max (l2 fun k => W k f c) 1e-5)
        (Matrix.of fun c k => W k f c) (fun d => if d = m then 1 else 0) 1e-5)
        (fun k => a k f) := by
  obtain ⟨a, ha, hmin⟩ := seq_ridge (fun f => Matrix.of fun c k => W k f c)
      (fun _ => Matrix.of fun (k : Fin C) _ => if k.1 = m.1 then 1 else 0)
  refine ⟨fun k f => a f k 0, ?_, fun f => ?_⟩
  · unfold projectionBackWeights
    rw [if_neg (by omega), if_pos m.2]
    simp only [Fin.castLE_rfl, id_eq]
    rw [ha]; rfl
  · have := hmin f
    simp only [Matrix.of_apply, ← Fin.ext_iff] at this
    exact this

private lemma pb_total (hs : s ≤ C) (W : DemixW s F C) (J : Option (BackJ (C - s) F s)) (m : ℕ)
    (hJ : J.isSome ↔ s < C) (hm : m < C) : ∃ a, projectionBackWeights hs W J m = .ok a := by
  by_cases hc : s < C
  · obtain ⟨J', rfl⟩ := Option.isSome_iff_exists.1 (hJ.2 hc)
    obtain ⟨a, ha, -⟩ := pb_over hs hc W J' m hm
    exact ⟨a, ha⟩
  · obtain rfl : s = C := by omega
    obtain ⟨a, ha, -⟩ := pb_det W J ⟨m, hm⟩ hs
    exact ⟨a, ha⟩

private lemma core_total (hs : s ≤ C) (p : TissParams) (he : 0 < p.eps) (X : Sig C F N)
    (hm : ∀ m, p.projBackMic = some m → m < C ∨ p.nIter = 0)
    (model : SourceModel σ F N) (ms : σ) : ∃ out, tissCore hs p X model ms = .ok out := by
  rw [core_dmc']
  unfold tissCore
  simp only
  obtain ⟨st0, h0⟩ := tissInit_total (T := p.nTaps) hs X p.nDelay he ms
  have hJ0 := (tissInit_ok hs X p.nDelay p.eps ms st0 h0).2.2.2.1
  obtain ⟨st, h1, hJ⟩ := loop_total hs X p.nDelay model p.eps p.nIter st0
  rw [h0]
  simp only [bind, Except.bind, h1]
  cases hmic : p.projBackMic with
  | none => exact ⟨_, rfl⟩
  | some m =>
    by_cases hn : 0 < p.nIter
    · obtain ⟨a, ha⟩ := pb_total hs st.W st.J m (hJ.trans hJ0) (by have := hm m hmic; omega)
      simp only [if_pos hn, ha]; exact ⟨_, rfl⟩
    · simp only [if_neg hn]; exact ⟨_, rfl⟩

/-- **C15 / C17 (no exception).** For every input, source model and iteration count, with `eps > 0` and a
reference microphone among the channels, the call succeeds and returns `n_src` signals, `n_chan` of them
when `n_src` is `None`.  (The number of frequencies and frames of the output is in its type.) -/
theorem tiss_succeeds (p : TissParams) (he : 0 < p.eps) (nSrc : Option ℕ)
    (X : Sig C F N) (hk : ∀ k, nSrc = some k → k ≤ C)
    (hm : ∀ m, p.projBackMic = some m → m < C)
    (model : SourceModel σ F N) (reset : σ → σ) (ms : σ) :
    ∃ out : TissOut σ (nSrc.getD C) C F N,
      tissForward p nSrc X model reset ms = .ok ⟨nSrc.getD C, out⟩ := by
  have hs : nSrc.getD C ≤ C := by
    cases nSrc with
    | none => simp
    | some k => simpa using hk k rfl
  obtain ⟨out, ho⟩ := core_total hs p he X (fun m h => Or.inl (hm m h)) model (reset ms)
  refine ⟨out, ?_⟩
  unfold tissForward
  simp only [dif_pos hs, ho]
  rfl

/-- Non-vacuity: two sources, three microphones, one tap, DMC, projection back to the last one. -/
example : ∃ p : TissParams, 0 < p.eps ∧ 0 < p.nIter ∧ p.nTaps = 1 ∧
    (∀ m, p.projBackMic = some m → m < 3) ∧ p.projBackMic = some 2 :=
  ⟨⟨5, 1, 2, some 2, true, 1e-5⟩, by norm_num, by norm_num, rfl, fun m h => by cases h; norm_num, rfl⟩

/-! ## C12 -/

/-- **C12.** With `n_iter = 0` and `eps > 0` the call succeeds and returns the first `n_src` input channels, for all
other parameters (also for a reference microphone that does not exist). -/
theorem tiss_zero_iterations (p : TissParams) (hn : p.nIter = 0) (he : 0 < p.eps) (nSrc : Option ℕ)
    (hs : nSrc.getD C ≤ C) (X : Sig C F N) (model : SourceModel σ F N) (reset : σ → σ) (ms : σ) :
    ∃ out : TissOut σ (nSrc.getD C) C F N,
      tissForward p nSrc X model reset ms = .ok ⟨nSrc.getD C, out⟩ ∧
      ∀ k f n, out.Y k f n = X (Fin.castLE hs k) f n := by
  obtain ⟨out, ho⟩ := core_total hs p he X (fun m _ => Or.inr hn) model (reset ms)
  refine ⟨out, ?_, ?_⟩
  · unfold tissForward
    simp only [dif_pos hs, ho]
    rfl
  · intro k f n
    obtain ⟨st0, st, a, h0, h1, hY, hW, -, hout, ha, -⟩ := tiss_core_ok hs p X model (reset ms) out ho
    obtain ⟨hW0, hH0, -, -⟩ := tissInit_ok hs X p.nDelay p.eps (reset ms) st0 h0
    have : st0 = st := by
      unfold tissLoop at h1
      rw [hn] at h1
      simpa [iterM] using h1
    subst this
    rw [hout, ha (Or.inr hn), one_mul, hY, hW0, hH0]
    simp only [demixDerev, zero_mul, Finset.sum_const_zero, sub_zero]
    rw [Finset.sum_eq_single (Fin.castLE hs k)]
    · simp
    · intro c _ hc
      rw [if_neg (fun h => hc (Fin.ext h.symm)), zero_mul]
    · simp

/-- One source from two microphones, with projection back on a microphone that does not exist. -/
example : ∃ out : TissOut Unit 1 2 1 4,
    tissForward ⟨0, 2, 1, some 7, false, 1e-5⟩ (some 1) (Demo.sig 2 1 4) (laplaceModel 1e-5) id () = .ok ⟨1, out⟩ :=
  (tiss_zero_iterations ⟨0, 2, 1, some 7, false, 1e-5⟩ rfl (by norm_num) (some 1) (by norm_num) (Demo.sig 2 1 4)
    (laplaceModel 1e-5) id ()).imp fun _ h => h.1

/-! ## C17 -/

/-- **C17 (T-ISS).** If every input sample is zero, every output sample is zero. -/
theorem tiss_silence (p : TissParams) (nSrc : Option ℕ) (X : Sig C F N)
    (hX : ∀ c f n, X c f n = 0) (model : SourceModel σ F N) (reset : σ → σ) (ms : σ) (s : ℕ)
    (out : TissOut σ s C F N) (h : tissForward p nSrc X model reset ms = .ok ⟨s, out⟩) :
    ∀ k f n, out.Y k f n = 0 := by
  obtain ⟨a, G, -, -, hY⟩ := tiss_output_filters_input p nSrc X model reset ms s out h
  intro k f n
  rw [hY]
  have : ∀ c d, past (X c f) n d = 0 := by
    intro c d; unfold past; split_ifs <;> simp [hX]
  simp [hX, this]

/-- The call on silence succeeds (two sources from three microphones, two taps, projection back). -/
example : ∃ out : TissOut Unit 2 3 1 4, tissForward ⟨5, 2, 1, some 2, false, 1e-5⟩ (some 2) (fun _ _ _ => 0 : Sig 3 1 4)
    (laplaceModel 1e-5) id () = .ok ⟨2, out⟩ :=
  tiss_succeeds ⟨5, 2, 1, some 2, false, 1e-5⟩ (by norm_num) (some 2) _ (fun k h => by cases h; norm_num)
    (fun m h => by cases h; norm_num) _ _ _

/-! ## C13 -/

/-- **C13 (separation step).** `w` is any weight tensor (not even required to be nonnegative). -/
theorem tiss_separation_step_descent (hs : s ≤ C) (X : Sig C F N) (Xbar : Taps C F T N)
    (w : Weights s F N) (J : BackJ (C - s) F s) (eps : ℝ) (he : 0 < eps) (he1 : eps ≤ 1) (hN : 0 < N)
    (W : DemixW s F C) (H : DemixH s F C T) (src : Fin s) (f : Fin F)
    (hdet : (fullDemix W J f).det ≠ 0) :
    let r := issSrcStep w eps ⟨demixed X Xbar W H, W, H⟩ src
    r.Y = demixed X Xbar r.W r.H ∧ (fullDemix r.W J f).det ≠ 0 ∧
      auxCost w X Xbar J f r.W r.H ≤ auxCost w X Xbar J f W H := by
  have h := step_src (X := X) (Xbar := Xbar) (w := w) hs J he he1 hN
    ⟨demixed X Xbar W H, W, H⟩ src rfl
  exact ⟨h.inv, h.det f hdet, h.cost f hdet⟩

/-- **C13 (background step).** -/
theorem tiss_background_step_descent (hs : s ≤ C) (X : Sig C F N) (Xbar : Taps C F T N)
    (w : Weights s F N) (J : BackJ (C - s) F s) (eps : ℝ) (he : 0 < eps)
    (W : DemixW s F C) (H : DemixH s F C T) (bak : Fin (C - s)) (f : Fin F)
    (hdet : (fullDemix W J f).det ≠ 0) :
    let r := issBakStep w eps (demixBackground hs X J) J ⟨demixed X Xbar W H, W, H⟩ bak
    r.Y = demixed X Xbar r.W r.H ∧ (fullDemix r.W J f).det ≠ 0 ∧
      auxCost w X Xbar J f r.W r.H ≤ auxCost w X Xbar J f W H := by
  have h := step_bak (X := X) (Xbar := Xbar) (w := w) hs J he ⟨demixed X Xbar W H, W, H⟩ bak rfl
  exact ⟨h.inv, h.det f hdet, h.cost f hdet⟩

/-- **C13 (dereverberation step).** -/
theorem tiss_tap_step_descent (X : Sig C F N) (Xbar : Taps C F T N)
    (w : Weights s F N) (J : BackJ (C - s) F s) (eps : ℝ) (he : 0 < eps)
    (W : DemixW s F C) (H : DemixH s F C T) (src : Fin C) (tap : Fin T) (f : Fin F)
    (hdet : (fullDemix W J f).det ≠ 0) :
    let r := issTapStep w eps Xbar ⟨demixed X Xbar W H, W, H⟩ src tap
    r.Y = demixed X Xbar r.W r.H ∧ (fullDemix r.W J f).det ≠ 0 ∧
      auxCost w X Xbar J f r.W r.H ≤ auxCost w X Xbar J f W H := by
  have h := step_tap (X := X) (Xbar := Xbar) (w := w) J he ⟨demixed X Xbar W H, W, H⟩ src tap rfl
  exact ⟨h.inv, h.det f hdet, h.cost f hdet⟩

/-- **C13 (whole sweep, over-determined).** -/
theorem tiss_sweep_descent (hs : s ≤ C) (X : Sig C F N) (Xbar : Taps C F T N)
    (w : Weights s F N) (J : BackJ (C - s) F s) (eps : ℝ) (he : 0 < eps) (he1 : eps ≤ 1) (hN : 0 < N)
    (W : DemixW s F C) (H : DemixH s F C T) (f : Fin F) (hdet : (fullDemix W J f).det ≠ 0) :
    let r := issUpdates Xbar w eps (some (demixBackground hs X J, J)) ⟨demixed X Xbar W H, W, H⟩
    r.Y = demixed X Xbar r.W r.H ∧ (fullDemix r.W J f).det ≠ 0 ∧
      auxCost w X Xbar J f r.W r.H ≤ auxCost w X Xbar J f W H := by
  have h := step_updates (X := X) (Xbar := Xbar) (w := w) hs J he he1 hN (some J)
    (fun J' h => by cases h; rfl) ⟨demixed X Xbar W H, W, H⟩ rfl
  exact ⟨h.inv, h.det f hdet, h.cost f hdet⟩

/-- **C13 (whole sweep, determined).**  `fullDemix` has no background rows then. -/
theorem tiss_sweep_descent_determined (X : Sig C F N) (Xbar : Taps C F T N)
    (w : Weights C F N) (eps : ℝ) (he : 0 < eps) (he1 : eps ≤ 1) (hN : 0 < N)
    (W : DemixW C F C) (H : DemixH C F C T) (f : Fin F)
    (hdet : (Matrix.of fun k c => W k f c).det ≠ 0) :
    let r := issUpdates Xbar w eps none ⟨demixed X Xbar W H, W, H⟩
    let cost := fun (W : DemixW C F C) (H : DemixH C F C T) =>
      (∑ k, (∑ n, w k f n * ‖demixed X Xbar W H k f n‖ ^ 2) / N)
        - 2 * Real.log ‖(Matrix.of fun k c => W k f c).det‖
    r.Y = demixed X Xbar r.W r.H ∧ (Matrix.of fun k c => r.W k f c).det ≠ 0 ∧ cost r.W r.H ≤ cost W H := by
  have key : ∀ W : DemixW C F C, fullDemix W (fun _ _ _ => 0) f = Matrix.of fun k c => W k f c := by
    intro W
    ext i d
    simp [fullDemix]
  have h := step_updates (X := X) (Xbar := Xbar) (w := w) le_rfl (fun _ _ _ => 0) he he1 hN none
    (fun J' h => by cases h) ⟨demixed X Xbar W H, W, H⟩ rfl
  have h2 := h.det f (by rw [key]; exact hdet)
  have h3 := h.cost f (by rw [key]; exact hdet)
  unfold auxCost at h3
  rw [key] at h2
  rw [key, key] at h3
  exact ⟨h.inv, h2, h3⟩

/-- Non-vacuity of the determinant hypotheses of `tiss_separation_step_descent`, `tiss_background_step_descent`,
`tiss_tap_step_descent` and `tiss_sweep_descent`: `W = [I 0]` (the initial value) with any `J`. -/
example (J : BackJ (3 - 2) 1 2) :
    (fullDemix (C := 3) (F := 1) (fun (k : Fin 2) _ c => if k.1 = c.1 then 1 else 0) J 0).det ≠ 0 := by
  rw [Matrix.det_fin_three]
  simp [fullDemix]

/-! ## Determined demixing matrices stay invertible -/

private lemma src_det (w : Weights C F N) (eps : ℝ) (he : 0 < eps)
    (st : IssState C C F N T) (src : Fin C) (f : Fin F)
    (h : (Matrix.of fun k c => st.W k f c).det ≠ 0) :
    (Matrix.of fun k c => (issSrcStep w eps st src).W k f c).det ≠ 0 := by
  have := det_rowop (Matrix.of fun k c => st.W k f c) (fun c => issType1 src st.Y w eps c f) src
  simp only [Matrix.of_apply] at this
  simp only [issSrcStep]
  rw [this]
  refine mul_ne_zero ?_ h
  have hp : 0 < √(clampMin ((∑ n, w src f n * magSq (st.Y src f n)) * (1 / N)) eps) :=
    Real.sqrt_pos.2 (lt_of_lt_of_le he (le_max_right _ _))
  simp only [issType1, if_true]
  push_cast
  rw [sub_sub_cancel]
  have : ((√(clampMin ((∑ n, w src f n * magSq (st.Y src f n)) * (1 / N)) eps) : ℝ) : ℂ) ≠ 0 := by
    exact_mod_cast hp.ne'
  exact one_div_ne_zero this

lemma tiss_iter_det (X : Sig C F N) (Xbar : Taps C F T N) (cXX cXbarX) (model : SourceModel σ F N)
    (eps : ℝ) (he : 0 < eps) (st st' : TissState σ C C F N T)
    (hJ : st.J = none) (h : ∀ f, (Matrix.of fun k c => st.W k f c).det ≠ 0)
    (hr : tissOneIter le_rfl X Xbar cXX cXbarX model eps st = .ok st') :
    st'.J = none ∧ ∀ f, (Matrix.of fun k c => st'.W k f c).det ≠ 0 := by
  unfold tissOneIter at hr
  rw [hJ] at hr
  simp only [pure, Except.pure, Except.ok.injEq] at hr
  subst hr
  refine ⟨rfl, fun f => ?_⟩
  unfold issUpdates
  simp only
  refine foldl_inv (fun a : IssState C C F N T => (Matrix.of fun k c => a.W k f c).det ≠ 0) _
    (fun a b ha => ?_) _ _ ?_
  · exact foldl_inv (fun a : IssState C C F N T => (Matrix.of fun k c => a.W k f c).det ≠ 0) _
      (fun a' b' h' => by simpa only [issTapStep] using h') _ _ ha
  · refine foldl_inv (fun a : IssState C C F N T => (Matrix.of fun k c => a.W k f c).det ≠ 0) _
      (fun a b ha => src_det _ eps he a b f ha) _ _ ?_
    have e : (Matrix.of fun k c => divide (st.W k f c) (√(sourceGain st.Y eps k)) eps)
        = Matrix.diagonal (fun k => (((clampMin (√(sourceGain st.Y eps k)) eps : ℝ) : ℂ))⁻¹)
          * Matrix.of fun k c => st.W k f c := by
      ext k c
      rw [Matrix.diagonal_mul]
      simp only [Matrix.of_apply, divide]
      rw [div_eq_inv_mul]
    simp only
    rw [e, Matrix.det_mul, Matrix.det_diagonal]
    refine mul_ne_zero (Finset.prod_ne_zero_iff.2 fun k _ => inv_ne_zero ?_) (h f)
    have : 0 < clampMin (√(sourceGain st.Y eps k)) eps := lt_of_lt_of_le he (le_max_right _ _)
    exact_mod_cast this.ne'

/-- **C71.** For determined problems the demixing matrix left in the object is invertible at every
frequency, for every input, weights (any real numbers) and number of iterations: sources are never
lost. -/
theorem tiss_demixing_invertible (p : TissParams) (he : 0 < p.eps) (X : Sig C F N)
    (model : SourceModel σ F N) (reset : σ → σ) (ms : σ) (out : TissOut σ C C F N)
    (h : tissForward p none X model reset ms = .ok ⟨C, out⟩) (f : Fin F) :
    IsUnit (Matrix.of fun k c => out.W k f c).det := by
  obtain ⟨hs, hc, -⟩ := tiss_forward_ok p none X model reset ms C out h
  obtain ⟨st0, st, a, h0, h1, -, hW, -⟩ := tiss_core_ok hs p X model (reset ms) out hc
  obtain ⟨hW0, -, -, hJ0, -⟩ := tissInit_ok hs X p.nDelay p.eps (reset ms) st0 h0
  have hJ0' : st0.J = none := by
    cases hj : st0.J with
    | none => rfl
    | some J => rw [hj] at hJ0; simp at hJ0
  have := iterM_inv (fun a : TissState σ C C F N p.nTaps =>
      a.J = none ∧ ∀ f, (Matrix.of fun k c => a.W k f c).det ≠ 0) _
    (fun a a' ha h' => tiss_iter_det X _ _ _ model p.eps he a a' ha.1 ha.2 h') p.nIter st0 st
    ⟨hJ0', fun f => by
      have : (Matrix.of fun k c => st0.W k f c) = (1 : Matrix (Fin C) (Fin C) ℂ) := by
        ext k c
        simp only [hW0, Matrix.of_apply, Matrix.one_apply, Fin.ext_iff]
      rw [this]; simp⟩ h1
  rw [hW]
  exact isUnit_iff_ne_zero.2 (this.2 f)

/-- A determined run with projection back, five iterations and two taps (for `tiss_demixing_invertible`,
`tiss_projection_back_determined` and `tiss_output_filters_input`). -/
example : ∃ (p : TissParams) (out : TissOut Unit 3 3 2 4), 0 < p.eps ∧ 0 < p.nIter ∧ p.projBackMic = some (1 : Fin 3).1 ∧
    tissForward p none (Demo.sig 3 2 4) (laplaceModel 1e-5) id () = .ok ⟨3, out⟩ := by
  obtain ⟨o, ho⟩ := tiss_succeeds ⟨5, 2, 1, some 1, false, 1e-5⟩ (by norm_num) none (Demo.sig 3 2 4) (fun k h => by cases h)
    (fun m h => by cases h; norm_num) (laplaceModel 1e-5) id ()
  exact ⟨⟨5, 2, 1, some 1, false, 1e-5⟩, o, by norm_num, by norm_num, rfl, ho⟩

/-! ## C14 -/

private lemma sum_assoc {b : ℕ} (w : Fin s → Fin b → ℂ) (j : Fin b → Fin s → ℂ) (a x : Fin s → ℂ) :
    ∑ d, (∑ k, (∑ c, w k c * j c d) * a k) * x d = ∑ c, (∑ k, a k * w k c) * ∑ d, j c d * x d := by
  have h1 : ∀ d, (∑ k, (∑ c, w k c * j c d) * a k) * x d = ∑ c, ∑ k, a k * w k c * (j c d * x d) := by
    intro d
    rw [Finset.sum_comm, Finset.sum_mul]
    refine Finset.sum_congr rfl fun k _ => ?_
    rw [Finset.sum_mul, Finset.sum_mul]
    exact Finset.sum_congr rfl fun c _ => by ring
  simp only [h1]
  rw [Finset.sum_comm]
  refine Finset.sum_congr rfl fun c _ => ?_
  rw [Finset.sum_mul, Finset.sum_comm]
  exact Finset.sum_congr rfl fun k _ => by rw [Finset.mul_sum]

/-- **C14 (determined).** With reference microphone `m` and at least one iteration, the sum of the
outputs is input channel `m`, plus an error `∑ c, ρ c * X c` from the regularisation of the inverse, minus
the part predicted from past frames (absent when `n_taps = 0`).  The error is small relative to the
columns of `W`: `∑ c (|ρ c| / max ‖W[:, c]‖ 1e-5)² ≤ 1e-5 * ‖row m of W⁻¹‖²`. -/
theorem tiss_projection_back_determined (p : TissParams) (he : 0 < p.eps) (X : Sig C F N)
    (model : SourceModel σ F N) (reset : σ → σ) (ms : σ) (out : TissOut σ C C F N)
    (h : tissForward p none X model reset ms = .ok ⟨C, out⟩) (m : Fin C)
    (hm : p.projBackMic = some m.1) (hn : 0 < p.nIter) :
    ∃ (ρ : Fin F → Fin C → ℂ) (G : Fin F → Fin C → ℕ → ℂ),
      (∀ f c d, d ≤ p.nDelay ∨ p.nDelay + p.nTaps < d → G f c d = 0) ∧
      (∀ f n, ∑ k, out.Y k f n = X m f n + ∑ c, ρ f c * X c f n
        - ∑ c, ∑ d ∈ Finset.range (p.nDelay + p.nTaps + 1), G f c d * past (X c f) n d) ∧
      ∀ f, ∑ c, (‖ρ f c‖ / max (l2 fun k => out.W k f c) 1e-5) ^ 2
        ≤ 1e-5 * ∑ k, ‖(Matrix.of fun k c => out.W k f c)⁻¹ m k‖ ^ 2 := by
  have hinv := tiss_demixing_invertible p he X model reset ms out h
  obtain ⟨hs, hc, -⟩ := tiss_forward_ok p none X model reset ms C out h
  obtain ⟨st0, st, a', -, -, -, hW, -, hout, -, ha⟩ := tiss_core_ok hs p X model (reset ms) out hc
  obtain ⟨a, G, -, hG, hY, haa⟩ := output_filters p X model (reset ms) hs out hc
  obtain ⟨a₂, ha₂, hmin⟩ := pb_det out.W out.J m hs
  have := haa m hm hn
  rw [ha₂] at this
  obtain rfl : a₂ = a := by simpa using this
  refine ⟨fun f c => (∑ k, out.W k f c * a₂ k f) - if c = m then 1 else 0,
    fun f c d => ∑ k, a₂ k f * G k f c d, ?_, ?_, ?_⟩
  · intro f c d hd
    exact Finset.sum_eq_zero fun k _ => by rw [hG k f c d hd, mul_zero]
  · intro f n
    simp only [hY, mul_sub, Finset.sum_sub_distrib, sub_mul, Finset.sum_mul, ite_mul, one_mul,
      zero_mul, Finset.sum_ite_eq', Finset.mem_univ, if_true, Finset.mul_sum]
    have e1 : ∑ k, ∑ c, a₂ k f * (out.W k f c * X c f n) = ∑ c, ∑ k, out.W k f c * a₂ k f * X c f n := by
      rw [Finset.sum_comm]
      exact Finset.sum_congr rfl fun c _ => Finset.sum_congr rfl fun k _ => by ring
    have e2 : ∑ k, ∑ c, ∑ d ∈ Finset.range (p.nDelay + p.nTaps + 1), a₂ k f * (G k f c d * past (X c f) n d)
        = ∑ c, ∑ d ∈ Finset.range (p.nDelay + p.nTaps + 1), ∑ k, a₂ k f * G k f c d * past (X c f) n d := by
      rw [Finset.sum_comm]
      refine Finset.sum_congr rfl fun c _ => ?_
      rw [Finset.sum_comm]
      exact Finset.sum_congr rfl fun d _ => Finset.sum_congr rfl fun k _ => by ring
    rw [e1, e2]
    ring
  · intro f
    have h1 := (hmin f (fun k => (Matrix.of fun k c => out.W k f c)⁻¹ m k)).1
    unfold ridgeCost at h1
    have h2 : ∀ c, ((Matrix.of fun c k => out.W k f c) *ᵥ fun k => (Matrix.of fun k c => out.W k f c)⁻¹ m k) c
        - (if c = m then 1 else 0) = 0 := by
      intro c
      have e := congrFun (congrFun (Matrix.nonsing_inv_mul _ (hinv f)) m) c
      rw [Matrix.mul_apply, Matrix.one_apply] at e
      simp only [mulVec, dotProduct, Matrix.of_apply] at e ⊢
      rw [sub_eq_zero]
      rw [show (∑ k, out.W k f c * (Matrix.of fun k c => out.W k f c)⁻¹ m k)
        = ∑ k, (Matrix.of fun k c => out.W k f c)⁻¹ m k * out.W k f c from
          Finset.sum_congr rfl fun k _ => mul_comm _ _, e]
      simp [eq_comm]
    simp only [h2, norm_zero, ne_eq, OfNat.ofNat_ne_zero, not_false_eq_true, zero_pow, mul_zero,
      Finset.sum_const_zero, zero_add] at h1
    have h3 : 0 ≤ 1e-5 * ∑ j, ‖a₂ j f‖ ^ 2 :=
      mul_nonneg (by norm_num) (Finset.sum_nonneg fun _ _ => by positivity)
    refine le_trans (le_of_eq ?_) (le_trans (le_add_of_nonneg_right h3) h1)
    refine Finset.sum_congr rfl fun c _ => ?_
    simp only [mulVec, dotProduct, Matrix.of_apply]
    rw [div_pow, one_div, inv_pow]
    ring

/-- **C14 (over-determined).** Let `z` be the background signals `J x₁ - x₂`.  The scaled sources plus
a combination of the background signals reproduce the reference microphone `m` up to the error
`∑ d, ρ d * X d` (over the first `n_src` channels) and the past-frame part; and `(ρ, a)` minimises
the ridge cost `∑ d (|ρ d| / max ‖B d‖ 1e-5)² + 1e-5 ‖a‖²` over all choices of source scales. -/
theorem tiss_projection_back_overdetermined (p : TissParams) (k₀ : ℕ)
    (X : Sig C F N) (model : SourceModel σ F N) (reset : σ → σ) (ms : σ)
    (s : ℕ) (out : TissOut σ s C F N) (hsC : s < C)
    (h : tissForward p (some k₀) X model reset ms = .ok ⟨s, out⟩) (m : Fin C)
    (hm : p.projBackMic = some m.1) (hn : 0 < p.nIter) :
    ∃ (J : BackJ (C - s) F s) (a : Fin s → Fin F → ℂ) (ρ : Fin F → Fin s → ℂ)
      (β : Fin F → Fin (C - s) → ℂ) (G : Fin F → Fin C → ℕ → ℂ),
      out.J = some J ∧
      (∀ f c d, d ≤ p.nDelay ∨ p.nDelay + p.nTaps < d → G f c d = 0) ∧
      (∀ f n, (∑ k, out.Y k f n)
          + ∑ c, β f c * ((∑ d, J c f d * X (Fin.castLE hsC.le d) f n) - X ⟨s + c, by omega⟩ f n)
        = X m f n + ∑ d, ρ f d * X (Fin.castLE hsC.le d) f n
          - ∑ c, ∑ d ∈ Finset.range (p.nDelay + p.nTaps + 1), G f c d * past (X c f) n d) ∧
      ∀ f, let B : Fin s → Fin s → ℂ := fun d k =>
            (∑ c : Fin (C - s), out.W k f ⟨s + c, by omega⟩ * J c f d) + out.W k f (Fin.castLE hsC.le d)
          let target : Fin s → ℂ := fun d =>
            if _h : m.1 < s then (if d.1 = m then 1 else 0) else J ⟨m - s, by omega⟩ f d
          (∀ d, ρ f d = (∑ k, B d k * a k f) - target d) ∧
          ∀ a' : Fin s → ℂ,
            ∑ d, (‖ρ f d‖ / max (l2 (B d)) 1e-5) ^ 2 + 1e-5 * ∑ k, ‖a k f‖ ^ 2
              ≤ ∑ d, (‖(∑ k, B d k * a' k) - target d‖ / max (l2 (B d)) 1e-5) ^ 2
                + 1e-5 * ∑ k, ‖a' k‖ ^ 2 := by
  obtain ⟨hs, hc, -⟩ := tiss_forward_ok p (some k₀) X model reset ms s out h
  obtain ⟨a, G, -, hG, hY, haa⟩ := output_filters p X model (reset ms) hs out hc
  obtain ⟨st0, st, a', h0, h1, -, hW, hJ, hout, -, ha⟩ := tiss_core_ok hs p X model (reset ms) out hc
  obtain ⟨st', h1', hJ'⟩ := loop_total hs X p.nDelay model p.eps p.nIter st0
  obtain rfl : st' = st := by rw [h1] at h1'; simpa using h1'.symm
  have hJs := hJ'.2 ((tissInit_ok hs X p.nDelay p.eps (reset ms) st0 h0).2.2.2.1.2 hsC)
  rw [← hJ] at hJs
  obtain ⟨J, hJJ⟩ := Option.isSome_iff_exists.1 hJs
  obtain ⟨a₂, ha₂, hmin⟩ := pb_over hs hsC out.W J m m.2
  have := haa m hm hn
  rw [hJJ, ha₂] at this
  obtain rfl : a₂ = a := by simpa using this
  refine ⟨J, a₂, fun f d => (∑ k, pbMat hs out.W J f d k * a₂ k f) -
      (if _h : m.1 < s then (if d.1 = m then 1 else 0) else J ⟨m - s, by omega⟩ f d),
    fun f c => (∑ k, a₂ k f * out.W k f ⟨s + c, by omega⟩) - if m.1 = s + c then 1 else 0,
    fun f c d => ∑ k, a₂ k f * G k f c d, hJJ, ?_, ?_, ?_⟩
  · intro f c d hd
    exact Finset.sum_eq_zero fun k _ => by rw [hG k f c d hd, mul_zero]
  · intro f n
    have e0 : ∑ k, out.Y k f n = (∑ k, ∑ c, a₂ k f * (out.W k f c * X c f n))
        - ∑ c, ∑ d ∈ Finset.range (p.nDelay + p.nTaps + 1), (∑ k, a₂ k f * G k f c d) * past (X c f) n d := by
      simp only [hY, mul_sub, Finset.sum_sub_distrib, Finset.mul_sum, Finset.sum_mul]
      congr 1
      rw [Finset.sum_comm]
      refine Finset.sum_congr rfl fun c _ => ?_
      rw [Finset.sum_comm]
      exact Finset.sum_congr rfl fun d _ => Finset.sum_congr rfl fun k _ => by ring
    rw [e0]
    have e1 : ∑ k, ∑ c, a₂ k f * (out.W k f c * X c f n)
        = (∑ d : Fin s, (∑ k, a₂ k f * out.W k f (Fin.castLE hs d)) * X (Fin.castLE hs d) f n)
          + ∑ c : Fin (C - s), (∑ k, a₂ k f * out.W k f ⟨s + c, by omega⟩) * X ⟨s + c, by omega⟩ f n := by
      rw [Finset.sum_comm, sum_split hs]
      congr 1 <;>
      · refine Finset.sum_congr rfl fun d _ => ?_
        rw [Finset.sum_mul]
        exact Finset.sum_congr rfl fun k _ => by ring
    have e2 : ∑ d : Fin s, (∑ k, pbMat hs out.W J f d k * a₂ k f) * X (Fin.castLE hs d) f n
        = (∑ d : Fin s, (∑ k, a₂ k f * out.W k f (Fin.castLE hs d)) * X (Fin.castLE hs d) f n)
          + ∑ c : Fin (C - s), (∑ k, a₂ k f * out.W k f ⟨s + c, by omega⟩)
              * ∑ d, J c f d * X (Fin.castLE hs d) f n := by
      simp only [pbMat, Matrix.of_apply, add_mul, Finset.sum_add_distrib]
      rw [add_comm]
      congr 1
      · exact Finset.sum_congr rfl fun d _ => by
          congr 1; exact Finset.sum_congr rfl fun k _ => mul_comm _ _
      · exact sum_assoc (fun k c => out.W k f ⟨s + c, by omega⟩) (fun c d => J c f d) (fun k => a₂ k f)
          (fun d => X (Fin.castLE hs d) f n)
    have e3 : (∑ c : Fin (C - s), (if m.1 = s + c then (1 : ℂ) else 0)
          * ((∑ d, J c f d * X (Fin.castLE hs d) f n) - X ⟨s + c, by omega⟩ f n))
        = (∑ d : Fin s, (if _h : m.1 < s then (if d.1 = m then (1 : ℂ) else 0) else J ⟨m - s, by omega⟩ f d)
            * X (Fin.castLE hs d) f n) - X m f n := by
      by_cases hms : m.1 < s
      · rw [Finset.sum_eq_zero (fun c _ => by rw [if_neg (by omega), zero_mul])]
        simp only [dif_pos hms]
        rw [Finset.sum_eq_single (⟨m, hms⟩ : Fin s)]
        · simp
        · intro d _ hd
          rw [if_neg (fun hh => hd (Fin.ext hh)), zero_mul]
        · simp
      · simp only [dif_neg hms]
        rw [Finset.sum_eq_single (⟨m - s, by omega⟩ : Fin (C - s))]
        · rw [if_pos (by simp; omega), one_mul]
          have e : (⟨s + (m.1 - s), by omega⟩ : Fin C) = m := Fin.ext (by simp; omega)
          simp only [e]
        · intro c _ hcc
          rw [if_neg (fun hh => hcc (Fin.ext (by simp; omega))), zero_mul]
        · simp
    simp only [sub_mul, Finset.sum_sub_distrib]
    rw [e1, e2, e3]
    simp only [mul_sub, Finset.sum_sub_distrib]
    ring
  · intro f
    refine ⟨fun d => rfl, fun a' => ?_⟩
    have h1 := (hmin f a').1
    unfold ridgeCost at h1
    refine le_trans (le_of_eq ?_) (h1.trans (le_of_eq ?_))
    · congr 1
      refine Finset.sum_congr rfl fun d _ => ?_
      rw [div_pow, div_eq_inv_mul, ← inv_pow, ← one_div]
      rfl
    · congr 1
      refine Finset.sum_congr rfl fun d _ => ?_
      symm
      rw [div_pow, div_eq_inv_mul, ← inv_pow, ← one_div]
      rfl

/-- Two sources from three microphones, with the reference microphone among the first two or not. -/
example (m : Fin 3) : ∃ (p : TissParams) (out : TissOut Unit 2 3 2 4), 0 < p.nIter ∧ p.projBackMic = some m.1 ∧
    tissForward p (some 2) (Demo.sig 3 2 4) (laplaceModel 1e-5) id () = .ok ⟨2, out⟩ := by
  obtain ⟨o, ho⟩ := tiss_succeeds ⟨5, 2, 1, some m.1, false, 1e-5⟩ (by norm_num) (some 2) (Demo.sig 3 2 4)
    (fun k h => by cases h; norm_num) (fun m' h => by cases h; exact m.2) (laplaceModel 1e-5) id ()
  exact ⟨⟨5, 2, 1, some m.1, false, 1e-5⟩, o, by norm_num, rfl, ho⟩

/-! ## C16 -/

/-- **C16 (partial).** Write `u = W x + H x̄`.  For every background channel the row of `J` computed by
`background_update` is the unique minimiser, over all candidate rows `j`, of
`∑ₖ (|corr(uₖ, j·x₁ - x₂)| / max ‖A k‖ eps)² + eps ‖j‖²`: the background is made as uncorrelated with `u`
as the regularisation allows.  Missing: the sources are `y = W x - H x̄`, not `u`; the two agree exactly
when `H x̄ = 0` (see `background_update_uncorrelated` and `background_update_sign_violated`). -/
theorem background_update_partial (hs : s ≤ C) (X : Sig C F N) (Xbar : Taps C F T N)
    (W : DemixW s F C) (H : DemixH s F C T) (eps : ℝ) (he : 0 < eps) :
    ∃ J, backgroundUpdate hs W H (covXX X) (covXbarX X Xbar) eps = .ok J ∧
      ∀ f (b : Fin (C - s)), let u : Fin s → Fin N → ℂ := fun k n =>
          (∑ c, W k f c * X c f n) + ∑ c, ∑ t, H k f c t * Xbar c f t n
        IsUniqueMin (fun j : Fin s → ℂ =>
          ∑ k, (1 / max (l2 fun d : Fin s => corr (u k) (X (Fin.castLE hs d) f)) eps) ^ 2
            * ‖corr (u k) (fun n => (∑ d, j d * X (Fin.castLE hs d) f n) - X ⟨s + b, by omega⟩ f n)‖ ^ 2
          + eps * ∑ d, ‖j d‖ ^ 2) (J b f) := by
  have h := fun f => solve_loaded_general_ridge
    (Matrix.of fun (k : Fin s) (d : Fin s) => bgA W H (covXX X) (covXbarX X Xbar) f k (Fin.castLE hs d))
    (Matrix.of fun (k : Fin s) (d : Fin (C - s)) => bgA W H (covXX X) (covXbarX X Xbar) f k ⟨s + d, by omega⟩)
    eps eps he
  choose x hx hmin using h
  refine ⟨fun c f k => star (x f k c), ?_, ?_⟩
  · unfold backgroundUpdate
    simp only [seqAll_ok_iff.2 hx]
    rfl
  · intro f b u
    -- the entries of `A` are correlations
    have hA : ∀ k d, bgA W H (covXX X) (covXbarX X Xbar) f k d = corr (u k) (X d f) := by
      intro k d
      simp only [bgA, covXX, covXbarX, Matrix.of_apply, corr, u]
      simp only [add_mul, Finset.sum_add_distrib, add_div, Finset.sum_mul, mul_div_assoc']
      simp only [← Finset.sum_div]
      congr 2
      · rw [Finset.sum_comm]
        exact Finset.sum_congr rfl fun c _ => by rw [Finset.mul_sum]; exact Finset.sum_congr rfl fun n _ => by ring
      · symm
        rw [Finset.sum_comm]
        refine Finset.sum_congr rfl fun c _ => ?_
        rw [Finset.sum_comm]
        exact Finset.sum_congr rfl fun t _ => by rw [Finset.mul_sum]; exact Finset.sum_congr rfl fun n _ => by ring
    have hcost : ∀ j : Fin s → ℂ,
        ridgeCost (fun k => 1 / max (l2 ((Matrix.of fun (k : Fin s) (d : Fin s) =>
            bgA W H (covXX X) (covXbarX X Xbar) f k (Fin.castLE hs d)) k)) eps)
          (Matrix.of fun (k : Fin s) (d : Fin s) => bgA W H (covXX X) (covXbarX X Xbar) f k (Fin.castLE hs d))
          (fun k => (Matrix.of fun (k : Fin s) (d : Fin (C - s)) =>
            bgA W H (covXX X) (covXbarX X Xbar) f k ⟨s + d, by omega⟩) k b) eps (fun d => star (j d))
        = ∑ k, (1 / max (l2 fun d : Fin s => corr (u k) (X (Fin.castLE hs d) f)) eps) ^ 2
            * ‖corr (u k) (fun n => (∑ d, j d * X (Fin.castLE hs d) f n) - X ⟨s + b, by omega⟩ f n)‖ ^ 2
          + eps * ∑ d, ‖j d‖ ^ 2 := by
      intro j
      unfold ridgeCost
      simp only [norm_star]
      congr 1
      refine Finset.sum_congr rfl fun k _ => ?_
      congr 1
      · simp only [Matrix.of_apply, l2, hA]
      · congr 2
        simp only [mulVec, dotProduct, Matrix.of_apply, hA]
        simp only [corr, star_sub, star_sum, star_mul', mul_sub, Finset.sum_sub_distrib, sub_div,
          Finset.mul_sum]
        congr 1
        rw [Finset.sum_comm, Finset.sum_div]
        refine Finset.sum_congr rfl fun d _ => ?_
        rw [div_mul_eq_mul_div, Finset.sum_mul]
        congr 1
        exact Finset.sum_congr rfl fun n _ => by ring
    intro j
    have hj := hmin f b (fun d => star (j d))
    have hx' : (fun i => x f i b) = fun d => star ((fun k => star (x f k b)) d) := by
      funext d; simp
    rw [hx', hcost, hcost] at hj
    refine ⟨hj.1, fun heq => ?_⟩
    have := hj.2 heq
    funext d
    have h2 := congrFun this d
    simp only [star_star] at h2
    exact (star_star (j d)).symm.trans (congrArg star h2)

/-- **C16.** Without dereverberation (`H = 0`, in particular whenever `n_taps = 0`), `background_update`
makes the background uncorrelated with the source estimates `y = W x`, up to the ridge regularisation. -/
theorem background_update_uncorrelated (hs : s ≤ C) (X : Sig C F N) (Xbar : Taps C F T N)
    (W : DemixW s F C) (H : DemixH s F C T) (hH : ∀ k f c t, H k f c t = 0) (eps : ℝ) (he : 0 < eps) :
    ∃ J, backgroundUpdate hs W H (covXX X) (covXbarX X Xbar) eps = .ok J ∧
      ∀ f (b : Fin (C - s)), let y : Fin s → Fin N → ℂ := fun k => demixed X Xbar W H k f
        IsUniqueMin (fun j : Fin s → ℂ =>
          ∑ k, (1 / max (l2 fun d : Fin s => corr (y k) (X (Fin.castLE hs d) f)) eps) ^ 2
            * ‖corr (y k) (fun n => (∑ d, j d * X (Fin.castLE hs d) f n) - X ⟨s + b, by omega⟩ f n)‖ ^ 2
          + eps * ∑ d, ‖j d‖ ^ 2) (J b f) := by
  obtain ⟨J, hJ, h⟩ := background_update_partial hs X Xbar W H eps he
  refine ⟨J, hJ, fun f b => ?_⟩
  have := h f b
  have e : ∀ k, demixed X Xbar W H k f
      = fun n => (∑ c, W k f c * X c f n) + ∑ c, ∑ t, H k f c t * Xbar c f t n := by
    intro k; funext n; simp [demixed, hH]
  simp only [e]
  exact this

/-- The first background of a run (`W = [I 0]`, `H = 0`), for one source and three microphones; `background_update_partial`
needs no more than `eps > 0`. -/
example : ∃ J, backgroundUpdate (s := 1) (T := 2) (by norm_num) (fun k _ c => if k.1 = c.1 then 1 else 0) (fun _ _ _ _ => 0)
    (covXX (Demo.sig 3 1 4)) (covXbarX (Demo.sig 3 1 4) (delayedTaps (Demo.sig 3 1 4) 2 1)) 1e-3 = .ok J :=
  (background_update_uncorrelated _ _ _ _ _ (fun _ _ _ _ => rfl) _ (by norm_num)).imp fun _ h => h.1

/-- Two microphones, two frames, one tap without delay, one source; `y = x₀ - x̄₀ = (1, 0)`. -/
private def sgX : Sig 2 1 2 := fun c _ n => if c = 0 then 1 else if n = 0 then 1 else 0

/-- **C16 (violated with taps).** For `x₀ = (1,1)`, `x₁ = (1,0)`, `W = [1 0]` and the tap filter that subtracts the
previous frame of `x₀`, the row `j = 1` makes the background exactly uncorrelated with the source, but
the row returned by `background_update` with `eps = 1e-3` leaves a correlation of magnitude above 0.3 (the
source has power 1/2). -/
theorem background_update_sign_violated :
    ∃ (X : Sig 2 1 2) (W : DemixW 1 1 2) (H : DemixH 1 1 2 1) (J : BackJ (2 - 1) 1 1),
      backgroundUpdate (by norm_num) W H (covXX X) (covXbarX X (delayedTaps X 1 0)) 1e-3 = .ok J ∧
      (let y := demixed X (delayedTaps X 1 0) W H 0 0
       corr y (fun n => 1 * X 0 0 n - X 1 0 n) = 0 ∧
       0.3 < ‖corr y (fun n => J 0 0 0 * X 0 0 n - X 1 0 n)‖) := by
  have hbar : ∀ (c : Fin 2) (n : Fin 2), delayedTaps sgX 1 0 c 0 0 n = if n = 0 then 0 else 1 := by
    intro c n
    unfold delayedTaps
    rw [xbarRow_eq]
    fin_cases c <;> fin_cases n <;> simp [sgX]
  obtain ⟨J, hJ, hmin⟩ := background_update_partial (C := 2) (s := 1) (by norm_num) sgX (delayedTaps sgX 1 0)
    (fun _ _ c => if c = 0 then 1 else 0) (fun _ _ c _ => if c = 0 then 1 else 0) 1e-3 (by norm_num)
  refine ⟨sgX, _, _, J, hJ, ?_, ?_⟩
  · simp [corr, demixed, Fin.sum_univ_two, hbar, sgX]
  · have h := (hmin 0 0 (fun _ => 1 / 3)).1
    simp only [corr, Fin.sum_univ_two, hbar, Finset.univ_unique, Finset.sum_singleton, Fin.default_eq_zero,
      l2, sgX] at h
    simp [corr, demixed, Fin.sum_univ_two, hbar, sgX]
    norm_num at h
    set q := (starRingEnd ℂ) (J 0 0 0) with hq
    have h9 : √(9 : ℝ) = 3 := by rw [show (9 : ℝ) = 3 ^ 2 by norm_num]; exact Real.sqrt_sq (by norm_num)
    have h4 : √(4 : ℝ) = 2 := by rw [show (4 : ℝ) = 2 ^ 2 by norm_num]; exact Real.sqrt_sq (by norm_num)
    have hmx : max ((3 : ℝ) / 2) (1 / 1000) = 3 / 2 := max_eq_left (by norm_num)
    rw [h9, h4, hmx] at h
    have e3 : q - 1 + 2 * q = 3 * q - 1 := by ring
    rw [e3] at h
    have hJ0 : 0 ≤ ‖J 0 0 0‖ ^ 2 := by positivity
    have hn : ‖3 * q - 1‖ ^ 2 ≤ (1 / 30) ^ 2 := by nlinarith
    have hn' : ‖3 * q - 1‖ ≤ 1 / 30 := (le_abs_self _).trans (abs_le_of_sq_le_sq hn (by norm_num))
    have e2 : ‖(2 : ℂ)‖ ≤ ‖3 * (1 - q)‖ + ‖3 * q - 1‖ := by
      have : (2 : ℂ) = 3 * (1 - q) + (3 * q - 1) := by ring
      calc ‖(2 : ℂ)‖ = ‖3 * (1 - q) + (3 * q - 1)‖ := by rw [← this]
        _ ≤ _ := norm_add_le _ _
    rw [norm_mul, norm_sub_rev 1 q] at e2
    norm_num at e2 ⊢
    linarith

end Torchiva.Props
