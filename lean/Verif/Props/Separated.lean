import Verif.Proofs.Separated
import Verif.Props.TIss
import Verif.Props.AuxIva

/-!
# C104: channels that never overlap stay apart
-/

namespace Torchiva.Props

open Torchiva Matrix Spec

variable {C F N : ℕ} {σ : Type}

/-- **C104 (T-ISS).** If different channels are never active within `n_delay + n_taps` frames of one another (or in the same frame, with
`n_taps = 0`), then output `k` is made of channel `k` alone: it is that channel, scaled, minus filtered earlier frames of that channel.
The scale is zero only if the outputs are projected back onto another microphone, where source `k` is not heard.  This holds for every
number of sources and iterations, with and without checkpointing and projection back, and every source model. -/
theorem tiss_keeps_apart (p : TissParams) (he : 0 < p.eps) (nSrc : Option ℕ) (X : Sig C F N) (model : SourceModel σ F N) (reset : σ → σ)
    (ms : σ) (hX : Apart (if p.nTaps = 0 then 0 else p.nDelay + p.nTaps) X) (r : Σ s : ℕ, TissOut σ s C F N)
    (h : tissForward p nSrc X model reset ms = .ok r) :
    ∃ hs : r.1 ≤ C, ∃ (a : Fin r.1 → Fin F → ℂ) (b : Fin r.1 → Fin F → Fin p.nTaps → ℂ),
      (∀ k f, a k f = 0 ↔ 0 < p.nIter ∧ ∃ m, p.projBackMic = some m ∧ k.1 ≠ m) ∧
      ∀ k f n, r.2.Y k f n = a k f * X (Fin.castLE hs k) f n
        - ∑ t, b k f t * past (X (Fin.castLE hs k) f) (p.nDelay + p.nTaps - t) n := by
  obtain ⟨s, out⟩ := r
  obtain ⟨hs, hc⟩ := tissForward_split h
  obtain ⟨W, H, g, ho, hg, hY⟩ := tissCore_own hs p X model (reset ms) he hX out hc
  refine ⟨hs, fun k f => g k f * W k f (Fin.castLE hs k), fun k f t => g k f * H k f (Fin.castLE hs k) t, fun k f => ?_, fun k f n => ?_⟩
  · rw [mul_eq_zero, or_iff_left (ho.ne k f _ rfl), hg]
  · dsimp only
    rw [hY, own_single hs ho, mul_sub, Finset.mul_sum]
    simp only [mul_assoc]

/-- **C104 (T-ISS without dereverberation).** If no two channels are active in the same time-frequency bin and `n_taps = 0`, then output
`k` is channel `k` up to a scale per frequency, which is zero only for a projection back onto another microphone. -/
theorem tiss_separated_up_to_scale (p : TissParams) (he : 0 < p.eps) (hT : p.nTaps = 0) (nSrc : Option ℕ) (X : Sig C F N)
    (model : SourceModel σ F N) (reset : σ → σ) (ms : σ) (hX : Apart 0 X) (r : Σ s : ℕ, TissOut σ s C F N)
    (h : tissForward p nSrc X model reset ms = .ok r) :
    ∃ hs : r.1 ≤ C, ∃ a : Fin r.1 → Fin F → ℂ,
      (∀ k f, a k f = 0 ↔ 0 < p.nIter ∧ ∃ m, p.projBackMic = some m ∧ k.1 ≠ m) ∧
      ∀ k f n, r.2.Y k f n = a k f * X (Fin.castLE hs k) f n := by
  obtain ⟨hs, a, b, ha, hY⟩ := tiss_keeps_apart p he nSrc X model reset ms (by rwa [if_pos hT]) r h
  refine ⟨hs, a, ha, fun k f n => ?_⟩
  have : IsEmpty (Fin p.nTaps) := by rw [hT]; infer_instance
  rw [hY, Finset.sum_of_isEmpty, sub_zero]

/-- **C104 (T-ISS, projection back).** On such a recording projection back onto microphone `m` returns silence for every source but
number `m`: the others are not in that microphone. -/
theorem tiss_apart_projection (p : TissParams) (he : 0 < p.eps) (m : ℕ) (hm : p.projBackMic = some m) (hi : 0 < p.nIter)
    (nSrc : Option ℕ) (X : Sig C F N) (model : SourceModel σ F N) (reset : σ → σ) (ms : σ)
    (hX : Apart (if p.nTaps = 0 then 0 else p.nDelay + p.nTaps) X)
    (r : Σ s : ℕ, TissOut σ s C F N) (h : tissForward p nSrc X model reset ms = .ok r) (k : Fin r.1) (hk : k.1 ≠ m) (f n) :
    r.2.Y k f n = 0 := by
  obtain ⟨s, out⟩ := r
  obtain ⟨hs, hc⟩ := tissForward_split h
  obtain ⟨W, H, g, ho, hg, hY⟩ := tissCore_own hs p X model (reset ms) he hX out hc
  dsimp only at hk ⊢
  rw [hY, (hg k f).2 ⟨hi, m, hm, hk⟩, zero_mul]

/-- **C104 (AuxIVA-IP).** If no two channels are active in the same time-frequency bin, output `k` is channel `k` up to a scale per
frequency, for every number of sources and iterations and every source model.  With positive weights the scale is not zero, except for a
projection back onto another microphone. -/
theorem auxiva_separated_up_to_scale (p : IpParams) (he : 0 < p.eps) (nSrc : Option ℕ) (X : Sig C F N) (model : SourceModel σ F N)
    (reset : σ → σ) (ms : σ) (hX : Apart 0 X) (r : Σ s : ℕ, IpOut σ s F N) (h : auxivaForward p nSrc X model reset ms = .ok r) :
    ∃ hs : r.1 ≤ C, ∃ a : Fin r.1 → Fin F → ℂ,
      ((∀ s ms Y k f n, 0 < (model s ms Y).1 k f n) → ∀ k f, (∀ m, p.projBackMic = some m → k.1 = m) → a k f ≠ 0) ∧
      ∀ k f n, r.2.Y k f n = a k f * X (Fin.castLE hs k) f n := by
  classical
  obtain ⟨hs, W, g, hW, -, hg, hY⟩ := auxiva_own (P := ∀ s ms Y k f n, 0 < (model s ms Y).1 k f n) p he nSrc X model id reset ms hX r h
  refine ⟨hs, fun k f => if X (Fin.castLE hs k) f = 0 then 1 else W f k (Fin.castLE hs k) * g k f, fun hpos k f hm => ?_, fun k f n => ?_⟩
  · dsimp only
    split_ifs with h0
    · exact one_ne_zero
    · have hne : ∀ c : Fin C, c.1 = k.1 → W f k c ≠ 0 := fun c hc => (hW f).ne hpos k c hc (by
        rwa [show c = Fin.castLE hs k from Fin.ext hc])
      exact mul_ne_zero (hne _ rfl) (hg k hm f hne)
  · dsimp only
    rw [hY, demix_single hs hW]
    split_ifs with h0
    · rw [h0]; simp
    · ring

/-- **C104 (AuxIVA-IP, projection back).** Projection back onto microphone `m` silences every source but number `m`. -/
theorem auxiva_apart_projection (p : IpParams) (he : 0 < p.eps) (m : ℕ) (hm : p.projBackMic = some m) (nSrc : Option ℕ) (X : Sig C F N)
    (model : SourceModel σ F N) (reset : σ → σ) (ms : σ) (hX : Apart 0 X) (r : Σ s : ℕ, IpOut σ s F N)
    (h : auxivaForward p nSrc X model reset ms = .ok r) (k : Fin r.1) (hk : k.1 ≠ m) (f n) : r.2.Y k f n = 0 := by
  obtain ⟨hs, W, g, hW, hp, -, hY⟩ := auxiva_own (P := False) p he nSrc X model (fun h => h.elim) reset ms hX r h
  rw [hY, hp m hm k hk, mul_zero]

/-- Two channels, the first active at frame 0, the second at frame 4. -/
noncomputable def apartDemo : Sig 2 1 5 := fun c _ n => if c = 0 then (if n = 0 then 1 else 0) else if n = 4 then 2 else 0

theorem apartDemo_apart : Apart 2 apartDemo := by
  intro c d hcd f n m h1 h2
  unfold apartDemo
  fin_cases c <;> fin_cases d <;> simp at hcd ⊢ <;> (have h3 := n.2; have h4 := m.2; by_contra hc; push Not at hc; obtain ⟨rfl, rfl⟩ := hc; simp at h1 h2)

theorem apartDemo_apart0 : Apart 0 apartDemo := fun c d hcd f n m h1 h2 => apartDemo_apart c d hcd f n m (by omega) (by omega)

/-- A source model with weight one everywhere. -/
noncomputable def flatModel {F N : ℕ} : SourceModel Unit F N := fun _ _ _ => (fun _ _ _ => 1, ())

/-- Non-vacuity of `tiss_keeps_apart` and `tiss_apart_projection`: one tap, delay one, three iterations, projection back onto the first
microphone; the call succeeds and the second source comes out silent. -/
example : ∃ out : TissOut Unit 2 2 1 5, tissForward ⟨3, 1, 1, some 0, false, 1e-5⟩ none apartDemo flatModel id () = .ok ⟨2, out⟩ ∧
    ∀ n, out.Y 1 0 n = 0 := by
  obtain ⟨out, ho⟩ := tiss_succeeds ⟨3, 1, 1, some 0, false, 1e-5⟩ (by norm_num) none apartDemo (fun k h => by cases h)
    (fun m h => by cases h; norm_num) flatModel id ()
  exact ⟨out, ho, fun n => tiss_apart_projection ⟨3, 1, 1, some 0, false, 1e-5⟩ (by norm_num) 0 rfl (by norm_num) none apartDemo flatModel id
    () apartDemo_apart ⟨2, out⟩ ho (1 : Fin 2) (by norm_num) 0 n⟩

/-- Non-vacuity of `tiss_separated_up_to_scale`: without projection back both outputs are heard, in their own frame. -/
example : ∃ out : TissOut Unit 2 2 1 5, tissForward ⟨3, 0, 0, none, false, 1e-5⟩ none apartDemo flatModel id () = .ok ⟨2, out⟩ ∧
    out.Y 0 0 0 ≠ 0 ∧ out.Y 1 0 4 ≠ 0 ∧ out.Y 0 0 4 = 0 := by
  obtain ⟨out, ho⟩ := tiss_succeeds ⟨3, 0, 0, none, false, 1e-5⟩ (by norm_num) none apartDemo (fun k h => by cases h)
    (fun m h => by cases h) flatModel id ()
  obtain ⟨hs, a, ha, hY⟩ := tiss_separated_up_to_scale ⟨3, 0, 0, none, false, 1e-5⟩ (by norm_num) rfl none apartDemo flatModel id () apartDemo_apart0
    ⟨2, out⟩ ho
  have hne : ∀ k f, a k f ≠ 0 := fun k f h => by obtain ⟨-, m, hm, -⟩ := (ha k f).1 h; cases hm
  refine ⟨out, ho, ?_, ?_, ?_⟩
  · rw [hY (0 : Fin 2) 0 0]; simpa [apartDemo] using hne (0 : Fin 2) 0
  · rw [hY (1 : Fin 2) 0 4]; simpa [apartDemo] using hne (1 : Fin 2) 0
  · rw [hY (0 : Fin 2) 0 4]; simp [apartDemo]

/-- Non-vacuity of `auxiva_separated_up_to_scale` and `auxiva_apart_projection`. -/
example : ∃ out : IpOut Unit 2 1 5, auxivaForward ⟨3, some 0, 1e-5⟩ (some 2) apartDemo flatModel id () = .ok ⟨2, out⟩ ∧
    out.Y 0 0 0 ≠ 0 ∧ ∀ n, out.Y 1 0 n = 0 := by
  obtain ⟨out, -, -, ho, -⟩ := auxiva_output ⟨3, some 0, 1e-5⟩ (by norm_num) 2 le_rfl apartDemo flatModel
    (fun _ _ _ _ _ _ => zero_le_one) id () (fun m h => by cases h; norm_num)
  obtain ⟨hs, a, ha, hY⟩ := auxiva_separated_up_to_scale ⟨3, some 0, 1e-5⟩ (by norm_num) (some 2) apartDemo flatModel id () apartDemo_apart0
    ⟨2, out⟩ ho
  refine ⟨out, ho, ?_, fun n => auxiva_apart_projection ⟨3, some 0, 1e-5⟩ (by norm_num) 0 rfl (some 2) apartDemo flatModel id () apartDemo_apart0
    ⟨2, out⟩ ho (1 : Fin 2) (by norm_num) 0 n⟩
  rw [hY (0 : Fin 2) 0 0]
  simpa [apartDemo] using ha (fun _ _ _ _ _ _ => zero_lt_one) (0 : Fin 2) 0 (fun m h => by cases h; rfl)

end Torchiva.Props
