import Verif.Model.Pipeline
import Verif.Props.Stft
import Verif.Props.Ip2
import Verif.Props.TIss
import Verif.Props.Level
import Verif.Props.Rearrange

/-!
# C120, C121: from recording to recordings
-/

namespace Torchiva.Props

open Torchiva _root_.Spec

variable {C S n : ℕ}

/-! ## The transforms are linear -/

lemma rfft_sum {K m : ℕ} (a : Fin K → ℝ) (v : Fin K → Fin m → ℝ) (N q : ℕ) :
    rfft (fun j => ∑ k, a k * v k j) N q = ∑ k, (a k : ℂ) * rfft (v k) N q := by
  unfold rfft
  simp only [Finset.mul_sum]
  rw [Finset.sum_comm]
  refine Finset.sum_congr rfl fun j _ => ?_
  split_ifs with h
  · push_cast
    rw [Finset.sum_mul]
    exact Finset.sum_congr rfl fun k _ => by ring
  · simp

lemma irfft_sum {K : ℕ} (a : Fin K → ℝ) (Z : Fin K → ℕ → ℂ) (N j : ℕ) :
    irfft (fun q => ∑ k, (a k : ℂ) * Z k q) N j = ∑ k, a k * irfft (Z k) N j := by
  have key : ∀ (Z : ℕ → ℂ), irfft Z N j = ∑ q : Fin N, ((1 / N : ℂ) * ((if q.1 = 0 ∨ 2 * q.1 = N then ((Z q).re : ℂ)
      else if 2 * q.1 < N then Z q else star (Z (N - q))) * Complex.exp (2 * Real.pi * Complex.I * (j * q.1) / N))).re := by
    intro Z
    unfold irfft
    dsimp only
    rw [Finset.mul_sum, Complex.re_sum]
  rw [key]
  simp only [key, Finset.mul_sum]
  rw [Finset.sum_comm]
  refine Finset.sum_congr rfl fun q _ => ?_
  have h2 : ∀ (k : Fin K) (z : ℂ), a k * z.re = ((a k : ℂ) * z).re := fun k z => by simp
  simp only [h2]
  rw [← Complex.re_sum]
  congr 1
  split_ifs
  · push_cast
    simp only [Complex.re_sum, Complex.re_ofReal_mul, Complex.ofReal_sum, Complex.ofReal_mul, Finset.sum_mul, Finset.mul_sum]
    exact Finset.sum_congr rfl fun k _ => by ring
  · simp only [Finset.sum_mul, Finset.mul_sum]
    exact Finset.sum_congr rfl fun k _ => by ring
  · simp only [star_sum, star_mul', Finset.sum_mul, Finset.mul_sum]
    refine Finset.sum_congr rfl fun k _ => ?_
    have : star (a k : ℂ) = a k := Complex.conj_ofReal _
    rw [this]; ring

/-- Only the bins up to half the frame are used. -/
lemma irfft_congr (Z Z' : ℕ → ℂ) (N j : ℕ) (h : ∀ q < N / 2 + 1, Z q = Z' q) : irfft Z N j = irfft Z' N j := by
  unfold irfft
  dsimp only
  congr 2
  refine Finset.sum_congr rfl fun q _ => ?_
  congr 1
  have := q.2
  split_ifs with h1 h2
  · rw [h q (by omega)]
  · rw [h q (by omega)]
  · rw [h (N - q) (by omega)]

/-- C120: the STFT of a combination of signals (with real factors) is the combination of their STFTs. -/
theorem stft_linear (nFft : ℕ) (hop : Option ℕ) (w : Fin nFft → ℝ) {K : ℕ} (a : Fin K → ℝ) (x : Fin K → Fin n → ℝ)
    (hn : nFft / 2 < n) (hh : 0 < hopOf nFft hop)
    (Z : Fin K → Fin (stftFrames nFft (hopOf nFft hop) n) → ℕ → ℂ) (hZ : ∀ k, stftForward nFft hop w (x k) = .ok (Z k)) :
    stftForward nFft hop w (fun i => ∑ k, a k * x k i) = .ok fun m q => ∑ k, (a k : ℂ) * Z k m q := by
  have hok : ¬ (n ≤ nFft / 2 ∨ hopOf nFft hop = 0) := by omega
  unfold stftForward at hZ ⊢
  dsimp only at hZ ⊢
  rw [if_neg hok]
  simp only [if_neg hok] at hZ
  congr 1
  funext m q
  have e : ∀ k, Z k m q = rfft (fun j : Fin nFft => w j *
      (if hi : reflectIdx n (nFft / 2) (m * hopOf nFft hop + j) < n then x k ⟨_, hi⟩ else 0)) nFft q := by
    intro k
    rw [← Except.ok.inj (hZ k)]
  simp only [e]
  rw [← rfft_sum]
  congr 1
  funext j
  split_ifs with hi
  · rw [Finset.mul_sum]
    exact Finset.sum_congr rfl fun k _ => by ring
  · simp

/-- C120: whether the inverse STFT returns does not depend on the spectrogram, and the inverse of a combination of spectrograms (with real
factors, on the bins up to half the frame) is the combination of the inverses. -/
theorem istft_linear (nFft : ℕ) (hop : Option ℕ) (w : Fin nFft → ℝ) {frames K : ℕ} (a : Fin K → ℝ) (Z : Fin K → Fin frames → ℕ → ℂ)
    (Z' : Fin frames → ℕ → ℂ) (y') (h' : stftInv nFft hop w Z' = .ok y') :
    ∃ y : Fin K → Fin (istftLen nFft (hopOf nFft hop) frames) → ℝ, (∀ k, stftInv nFft hop w (Z k) = .ok (y k)) ∧
      ((∀ m q, q ≤ nFft / 2 → Z' m q = ∑ k, (a k : ℂ) * Z k m q) → ∀ i, y' i = ∑ k, a k * y k i) := by
  unfold stftInv at h' ⊢
  dsimp only at h' ⊢
  split_ifs at h' with h1 h2
  simp only [if_neg h1, if_pos h2]
  refine ⟨_, fun k => rfl, fun hr i => ?_⟩
  rw [← Except.ok.inj h']
  simp only [← mul_div_assoc, Finset.mul_sum]
  rw [← Finset.sum_div]
  congr 1
  rw [Finset.sum_comm]
  refine Finset.sum_congr rfl fun m _ => ?_
  split_ifs with h3
  · have e : irfft (Z' m) nFft (nFft / 2 + i.1 - m.1 * hopOf nFft hop) =
        irfft (fun q => ∑ k, (a k : ℂ) * Z k m q) nFft (nFft / 2 + i.1 - m.1 * hopOf nFft hop) :=
      irfft_congr _ _ _ _ fun q hq => hr m q (by omega)
    rw [e, irfft_sum, Finset.mul_sum]
    exact Finset.sum_congr rfl fun k _ => by ring
  · simp

/-! ## C120 -/

private lemma pick_c {K : ℕ} (j : Fin K) (g : Fin K → ℂ) : ∑ c, (((if c = j then 1 else 0 : ℝ)) : ℂ) * g c = g j := by
  rw [Finset.sum_eq_single j (fun c _ hc => by rw [if_neg hc]; simp) (by simp), if_pos rfl]; simp

private lemma pick_r {K : ℕ} (j : Fin K) (g : Fin K → ℝ) : ∑ c, (if c = j then 1 else 0 : ℝ) * g c = g j := by
  rw [Finset.sum_eq_single j (fun c _ hc => by rw [if_neg hc]; simp) (by simp), if_pos rfl]; simp

private lemma stftAll_ok (nFft : ℕ) (hop : Option ℕ) (w : Fin nFft → ℝ) (x : Fin C → Fin n → ℝ) (X)
    (h : stftAll nFft hop w x = .ok X) :
    ∃ Z : Fin C → Fin (stftFrames nFft (hopOf nFft hop) n) → ℕ → ℂ, (∀ c, stftForward nFft hop w (x c) = .ok (Z c)) ∧ ∀ c f m, X c f m = Z c m f := by
  unfold stftAll at h
  cases hZ : seqAll fun c => stftForward nFft hop w (x c) with
  | error e => rw [hZ] at h; cases h
  | ok Z =>
    rw [hZ] at h
    cases h
    exact ⟨Z, seqAll_ok_iff.1 hZ, fun _ _ _ => rfl⟩

private lemma separate_ok (nFft : ℕ) (hop : Option ℕ) (w : Fin nFft → ℝ)
    (sep : Sig C (nFft / 2 + 1) (stftFrames nFft (hopOf nFft hop) n) →
      Except Err (Sig S (nFft / 2 + 1) (stftFrames nFft (hopOf nFft hop) n)))
    (x : Fin C → Fin n → ℝ) (y : Fin S → Fin n → ℝ) (h : separateRecording nFft hop w sep x = .ok y) :
    ∃ X Y z, stftAll nFft hop w x = .ok X ∧ sep X = .ok Y ∧ istftAll nFft hop w Y = .ok z ∧
      ∀ k i, y k i = (fixLength (List.ofFn (z k)) n).getD i 0 := by
  unfold separateRecording at h
  cases hX : stftAll nFft hop w x with
  | error e => rw [hX] at h; cases h
  | ok X =>
    rw [hX] at h
    change (sep X >>= _) = _ at h
    cases hY : sep X with
    | error e => rw [hY] at h; cases h
    | ok Y =>
      rw [hY] at h
      change (istftAll nFft hop w Y >>= _) = _ at h
      cases hz : istftAll nFft hop w Y with
      | error e => rw [hz] at h; cases h
      | ok z =>
        rw [hz] at h
        cases h
        exact ⟨X, Y, z, rfl, hY, hz, fun _ _ => rfl⟩

private lemma fixLength_getD (l : List ℝ) (n i : ℕ) (hi : i < n) : (fixLength l n).getD i 0 = l.getD i 0 := by
  simp only [List.getD_eq_getElem?_getD]
  unfold fixLength
  split_ifs with h1 h2
  · rw [List.getElem?_append]
    split_ifs with h3
    · rfl
    · rw [List.getElem?_replicate, List.getElem?_eq_none (l := l) (by omega)]
      split_ifs <;> rfl
  · rw [List.getElem?_take_of_lt hi]
  · rfl

/-- C120: what happens to the channels of the spectrogram happens to the recordings.  When a call returns, there are the spectrogram `X` of
the recording and the result `Y` of the separator, and every linear relation with real factors between the channels of `Y` and `X` that holds
at all frequencies and frames holds for the samples of the returned and the given recordings, up to the end of the inverse transform; after
it there are zeros. -/
theorem recording_relation (nFft : ℕ) (hf : 0 < nFft) (hop : Option ℕ) (w : Fin nFft → ℝ)
    (sep : Sig C (nFft / 2 + 1) (stftFrames nFft (hopOf nFft hop) n) →
      Except Err (Sig S (nFft / 2 + 1) (stftFrames nFft (hopOf nFft hop) n)))
    (x : Fin C → Fin n → ℝ) (hC : 0 < C) (hS : 0 < S) (y : Fin S → Fin n → ℝ) (h : separateRecording nFft hop w sep x = .ok y) :
    ∃ X Y, (∀ c, ∃ Z, stftForward nFft hop w (x c) = .ok Z ∧ ∀ (f : Fin (nFft / 2 + 1)) m, X c f m = Z m f) ∧ sep X = .ok Y ∧
      ∀ (a : Fin S → ℝ) (b : Fin C → ℝ), (∀ f m, ∑ k, (a k : ℂ) * Y k f m = ∑ c, (b c : ℂ) * X c f m) →
        ∀ i : Fin n, ∑ k, a k * y k i =
          if i < istftLen nFft (hopOf nFft hop) (stftFrames nFft (hopOf nFft hop) n) then ∑ c, b c * x c i else 0 := by
  obtain ⟨X, Y, z, hX, hY, hz, hy⟩ := separate_ok nFft hop w sep x y h
  obtain ⟨Z, hZ, hXZ⟩ := stftAll_ok nFft hop w x X hX
  refine ⟨X, Y, fun c => ⟨Z c, hZ c, hXZ c⟩, hY, fun a b hr i => ?_⟩
  have hzk := seqAll_ok_iff.1 hz
  have hval : ∀ k, y k i = if hi : i.1 < istftLen nFft (hopOf nFft hop) (stftFrames nFft (hopOf nFft hop) n) then z k ⟨i, hi⟩ else 0 := by
    intro k
    rw [hy, fixLength_getD _ _ _ i.2, List.getD_eq_getElem?_getD]
    split_ifs with hi
    · rw [List.getElem?_ofFn, dif_pos hi]; rfl
    · rw [List.getElem?_eq_none (by simpa using hi)]; rfl
  by_cases hi : i.1 < istftLen nFft (hopOf nFft hop) (stftFrames nFft (hopOf nFft hop) n)
  swap
  · rw [if_neg hi]
    exact Finset.sum_eq_zero fun k _ => by rw [hval, dif_neg hi, mul_zero]
  rw [if_pos hi]
  simp only [hval, dif_pos hi]
  have hacc : nFft / 2 < n ∧ 0 < hopOf nFft hop := by
    by_contra hc
    have := (stft_accepts nFft hop w (x ⟨0, hC⟩)).2 (by omega)
    rw [hZ] at this
    cases this
  -- the combination of the inputs
  have hmix := stft_linear nFft hop w b x hacc.1 hacc.2 Z hZ
  -- the spectrogram of the combination is inverted to the combination of the inputs
  set G : Fin S → Fin (stftFrames nFft (hopOf nFft hop) n) → ℕ → ℂ :=
    fun k m q => if h : q < nFft / 2 + 1 then Y k ⟨q, h⟩ m else 0 with hG
  obtain ⟨u, hu, -⟩ := istft_linear nFft hop w (fun _ : Fin 1 => 0) (fun _ m q => ∑ c, (b c : ℂ) * Z c m q) _ _ (hzk ⟨0, hS⟩)
  obtain ⟨z', hz', hcomb⟩ := istft_linear nFft hop w a G _ _ (hu 0)
  have hzz : z' = z := by
    funext k
    exact Except.ok.inj ((hz' k).symm.trans (hzk k))
  subst hzz
  obtain ⟨_, hround⟩ := stft_round_trip nFft hop w _ hf _ hmix (u 0) (hu 0) ⟨i, hi⟩
  rw [← hround, hcomb]
  intro m q hq
  have hq' : q < nFft / 2 + 1 := by omega
  have := hr ⟨q, hq'⟩ m
  simp only [hXZ] at this
  rw [← this]
  exact Finset.sum_congr rfl fun k _ => by rw [hG]; simp only [dif_pos hq']

/-- C120: with the default window and a hop of at most half a frame, a recording longer than half a frame is separated whenever the separator
returns for its spectrogram. -/
theorem recording_returns (nFft : ℕ) (hf : 2 ≤ nFft) (hop : Option ℕ) (hh0 : 0 < hopOf nFft hop) (hh : 2 * hopOf nFft hop ≤ nFft)
    (hn : nFft / 2 < n)
    (sep : Sig C (nFft / 2 + 1) (stftFrames nFft (hopOf nFft hop) n) →
      Except Err (Sig S (nFft / 2 + 1) (stftFrames nFft (hopOf nFft hop) n)))
    (x : Fin C → Fin n → ℝ) (hsep : ∀ X, stftAll nFft hop (hann nFft) x = .ok X → ∃ Y, sep X = .ok Y) :
    ∃ y, separateRecording nFft hop (hann nFft) sep x = .ok y := by
  choose Z hZ using fun c => (stft_accepts nFft hop (hann nFft) (x c)).1 ⟨hn, hh0⟩
  have hX : stftAll nFft hop (hann nFft) x = .ok fun c f m => Z c m f := by
    unfold stftAll
    rw [seqAll_ok_iff.2 hZ]
    rfl
  obtain ⟨Y, hY⟩ := hsep (fun c f m => Z c m f) hX
  have hfr : 0 < stftFrames nFft (hopOf nFft hop) n := by unfold stftFrames; positivity
  choose z hz using fun k => hann_envelope_ok nFft hf hop hh0 hh hfr
    (fun m q => if h : q < nFft / 2 + 1 then Y k ⟨q, h⟩ m else 0)
  have hz' : istftAll nFft hop (hann nFft) Y = .ok z := seqAll_ok_iff.2 hz
  refine ⟨fun k i => (fixLength (List.ofFn (z k)) n).getD i 0, ?_⟩
  unfold separateRecording
  rw [hX]
  change (sep _ >>= _) = _
  rw [hY]
  change (istftAll nFft hop (hann nFft) Y >>= _) = _
  rw [hz']
  rfl

variable {σ : Type}

/-- C120 (AuxIVA-IP2; partial: the last incomplete hop is missing, and the demixing matrices must not be nearly singular).  The two
recordings returned for microphone `m` add up to the recording of microphone `m`, sample by sample, up to the last complete hop, when
the demixing matrices `W f` of the last update have `|det| ≥ 1e-6`; this is so at frequencies where the update is away from its clamps and
the product of the weighted energies of the microphones is at most `1e12`.  `X` is the spectrogram, and the last update uses the weights that
the source model returns for the spectrograms `prev` of one iteration less. -/
theorem recording_ip2_adds_up_partial (nFft : ℕ) (hf : 2 ≤ nFft) (heven : nFft % 2 = 0) (hop : Option ℕ) (hh0 : 0 < hopOf nFft hop)
    (hh : 2 * hopOf nFft hop ≤ nFft) (hn : nFft / 2 < n) (x : Fin 2 → Fin n → ℝ) (nIter : ℕ) (m : Fin 2) (eps : ℝ) (he : 0 < eps)
    (model : SourceModel σ (nFft / 2 + 1) (stftFrames nFft (hopOf nFft hop) n)) (hmod : ∀ s ms Y k f n, 0 ≤ (model s ms Y).1 k f n)
    (reset : σ → σ) (ms : σ) :
    ∃ (y : Fin 2 → Fin n → ℝ) (X prev : Sig 2 (nFft / 2 + 1) (stftFrames nFft (hopOf nFft hop) n)) (ms' : σ)
      (W : Fin (nFft / 2 + 1) → Matrix (Fin 2) (Fin 2) ℂ),
      separateRecording nFft hop (hann nFft) (fun X => auxiva2Forward (nIter + 1) (some m) eps X model reset ms) x = .ok y ∧
      (∀ c, ∃ Z, stftForward nFft hop (hann nFft) (x c) = .ok Z ∧ ∀ (f : Fin (nFft / 2 + 1)) m, X c f m = Z m f) ∧
      auxiva2Forward nIter none eps X model reset ms = .ok prev ∧
      (∀ f, ip2Update (fun c => X c f) (fun k t => (model 2 ms' prev).1 k f t
        * max ((∑ f, ∑ t, ‖prev k f t‖ ^ 2) / ((nFft / 2 + 1 : ℕ) * (stftFrames nFft (hopOf nFft hop) n : ℕ))) 1e-5) eps = .ok (W f)) ∧
      ((∀ f, 1e-6 ≤ ‖(W f).det‖) → ∀ i : Fin n, i.1 < n - n % hopOf nFft hop → y 0 i + y 1 i = x m i) ∧
      ∀ f, let u : Fin 2 → Fin (stftFrames nFft (hopOf nFft hop) n) → ℝ := fun k t => (model 2 ms' prev).1 k f t
          * max ((∑ f, ∑ t, ‖prev k f t‖ ^ 2) / ((nFft / 2 + 1 : ℕ) * (stftFrames nFft (hopOf nFft hop) n : ℕ))) 1e-5
        Ip2Regular (fun c => X c f) u eps → wenergy (u 0) (X 0 f) * wenergy (u 1) (X 1 f) ≤ 1e12 → 1e-6 ≤ ‖(W f).det‖ := by
  obtain ⟨y, hy⟩ := recording_returns nFft hf hop hh0 hh hn
    (fun X => auxiva2Forward (nIter + 1) (some (m : ℤ)) eps X model reset ms) x
    fun X _ => by
      obtain ⟨prev, Y, ms', W, -, h, -⟩ := ip2_projected_sources_sum nIter m eps he X model hmod reset ms
      exact ⟨Y, h⟩
  obtain ⟨X, Y, hX, hY, hrel⟩ := recording_relation nFft (by omega) hop _ _ x (by omega) (by omega) y hy
  obtain ⟨prev, Y', ms', W, h1, h2, h3, -, h5⟩ := ip2_projected_sources_sum nIter m eps he X model hmod reset ms
  have e : Y = Y' := Except.ok.inj (hY.symm.trans h2)
  subst e
  refine ⟨y, X, prev, ms', W, hy, hX, h1, h3, fun hdet i hi => ?_, fun f hr hb => (ip2_det_lower (fun c => X c f) _
    (fun k t => mul_nonneg (hmod _ _ _ _ _ _) (le_trans (by norm_num) (le_max_right _ _))) eps he hr (W f) (h3 f)).2 hb⟩
  have hlen := (separator_tail_zero nFft (hopOf nFft hop) n heven hh0 (fun _ => 0)).1
  have := hrel (fun _ => 1) (fun c => if c = m then 1 else 0) (fun f t => by
    have e2 : ∑ c, (((if c = m then 1 else 0 : ℝ)) : ℂ) * X c f t = X m f t := pick_c m fun c => X c f t
    have := h5 f t
    rw [if_pos (hdet f), one_mul] at this
    rw [e2, ← this, Fin.sum_univ_two]
    simp) i
  rw [if_pos (by rw [hlen]; exact hi), Fin.sum_univ_two, pick_r] at this
  simpa using this

/-- C120, violated at the end of the recording: whatever the separator does, the returned recordings are zero from the last complete hop on,
so they do not add up to a microphone that recorded something there. -/
theorem recording_adds_up_violated (nFft : ℕ) (hf : 0 < nFft) (heven : nFft % 2 = 0) (hop : Option ℕ) (hh0 : 0 < hopOf nFft hop)
    (w : Fin nFft → ℝ) (sep : Sig C (nFft / 2 + 1) (stftFrames nFft (hopOf nFft hop) n) →
      Except Err (Sig S (nFft / 2 + 1) (stftFrames nFft (hopOf nFft hop) n)))
    (x : Fin C → Fin n → ℝ) (y : Fin S → Fin n → ℝ) (h : separateRecording nFft hop w sep x = .ok y)
    (i : Fin n) (hi : n - n % hopOf nFft hop ≤ i) :
    (∀ k, y k i = 0) ∧ ∀ m, x m i ≠ 0 → ∑ k, y k i ≠ x m i := by
  obtain ⟨X, Y, z, hX, hY, hz, hy⟩ := separate_ok nFft hop w sep x y h
  have h0 : ∀ k, y k i = 0 := by
    intro k
    rw [hy, List.getD_eq_getElem?_getD, (separator_tail_zero nFft (hopOf nFft hop) n heven hh0 (z k)).2 i hi i.2]
    rfl
  exact ⟨h0, fun m hm => by rw [Finset.sum_eq_zero fun k _ => h0 k]; exact hm.symm⟩

/-- C120 (T-ISS with zero iterations): the returned recordings are the first recordings, up to the last complete hop. -/
theorem recording_tiss_zero_iterations (nFft : ℕ) (hf : 2 ≤ nFft) (heven : nFft % 2 = 0) (hop : Option ℕ) (hh0 : 0 < hopOf nFft hop)
    (hh : 2 * hopOf nFft hop ≤ nFft) (hn : nFft / 2 < n) (x : Fin C → Fin n → ℝ) (p : TissParams) (hp : p.nIter = 0) (he : 0 < p.eps)
    (s : ℕ) (hs0 : 0 < s) (hs : s ≤ C)
    (model : SourceModel σ (nFft / 2 + 1) (stftFrames nFft (hopOf nFft hop) n)) (reset : σ → σ) (ms : σ)
    (sep : Sig C (nFft / 2 + 1) (stftFrames nFft (hopOf nFft hop) n) →
      Except Err (Sig s (nFft / 2 + 1) (stftFrames nFft (hopOf nFft hop) n)))
    (hsep : ∀ X (out : TissOut σ s C _ _), tissForward p (some s) X model reset ms = .ok ⟨s, out⟩ → sep X = .ok out.Y) :
    ∃ y, separateRecording nFft hop (hann nFft) sep x = .ok y ∧
      ∀ (k : Fin s) (i : Fin n), i.1 < n - n % hopOf nFft hop → y k i = x (Fin.castLE hs k) i := by
  have htot : ∀ X, ∃ Y, sep X = .ok Y ∧ ∀ k f t, Y k f t = X (Fin.castLE hs k) f t := by
    intro X
    obtain ⟨out, h1, h2⟩ := tiss_zero_iterations p hp he (some s) hs X model reset ms
    exact ⟨_, hsep X out h1, h2⟩
  obtain ⟨y, hy⟩ := recording_returns nFft hf hop hh0 hh hn sep x fun X _ => ⟨_, (htot X).choose_spec.1⟩
  obtain ⟨X, Y, hX, hY, hrel⟩ := recording_relation nFft (by omega) hop _ _ x (by omega) hs0 y hy
  obtain ⟨Y', h1, h2⟩ := htot X
  have e : Y = Y' := Except.ok.inj (hY.symm.trans h1)
  subst e
  refine ⟨y, hy, fun k i hi => ?_⟩
  have hlen := (separator_tail_zero nFft (hopOf nFft hop) n heven hh0 (fun _ => 0)).1
  have := hrel (fun j => if j = k then 1 else 0) (fun c => if c = Fin.castLE hs k then 1 else 0) (fun f t => by
    rw [pick_c k fun k => Y k f t, pick_c (Fin.castLE hs k) fun c => X c f t, h2]) i
  rw [if_pos (by rw [hlen]; exact hi), pick_r, pick_r] at this
  exact this

/-! ## C121 -/

/-- C121: if the separator answers a mixture `A` of the channels of the spectrogram (real factors) with the mixture `B` of its outputs, then
the recordings mixed by `A` give the separated recordings mixed by `B`. -/
theorem recording_mix (nFft : ℕ) (hop : Option ℕ) (w : Fin nFft → ℝ)
    (sep sep' : Sig C (nFft / 2 + 1) (stftFrames nFft (hopOf nFft hop) n) →
      Except Err (Sig S (nFft / 2 + 1) (stftFrames nFft (hopOf nFft hop) n)))
    (x : Fin C → Fin n → ℝ) (hC : 0 < C) (A : Fin C → Fin C → ℝ) (B : Fin S → Fin S → ℝ)
    (hsep : ∀ X Y, stftAll nFft hop w x = .ok X → sep X = .ok Y →
      sep' (fun c f m => ∑ d, (A c d : ℂ) * X d f m) = .ok fun k f m => ∑ j, (B k j : ℂ) * Y j f m)
    (y : Fin S → Fin n → ℝ) (h : separateRecording nFft hop w sep x = .ok y) :
    separateRecording nFft hop w sep' (fun c i => ∑ d, A c d * x d i) = .ok fun k i => ∑ j, B k j * y j i := by
  obtain ⟨X, Y, z, hX, hY, hz, hy⟩ := separate_ok nFft hop w sep x y h
  obtain ⟨Z, hZ, hXZ⟩ := stftAll_ok nFft hop w x X hX
  have hacc : nFft / 2 < n ∧ 0 < hopOf nFft hop := by
    by_contra hc
    have := (stft_accepts nFft hop w (x ⟨0, hC⟩)).2 (by omega)
    rw [hZ] at this
    cases this
  have hX' : stftAll nFft hop w (fun c i => ∑ d, A c d * x d i) = .ok fun c f m => ∑ d, (A c d : ℂ) * X d f m := by
    unfold stftAll
    rw [seqAll_ok_iff.2 fun c => stft_linear nFft hop w (A c) x hacc.1 hacc.2 Z hZ]
    simp only [hXZ]
    rfl
  have hzk := seqAll_ok_iff.1 hz
  have hinv : istftAll nFft hop w (fun k f m => ∑ j, (B k j : ℂ) * Y j f m) = .ok fun k i => ∑ j, B k j * z j i := by
    refine seqAll_ok_iff.2 fun k => ?_
    obtain ⟨u, hu, -⟩ := istft_linear nFft hop w (fun _ : Fin 1 => 0)
      (fun _ m q => if h : q < nFft / 2 + 1 then ∑ j, (B k j : ℂ) * Y j ⟨q, h⟩ m else 0) _ _ (hzk k)
    obtain ⟨z', hz', hcomb⟩ := istft_linear nFft hop w (B k)
      (fun j m q => if h : q < nFft / 2 + 1 then Y j ⟨q, h⟩ m else 0) _ _ (hu 0)
    have hzz : z' = z := by
      funext j
      exact Except.ok.inj ((hz' j).symm.trans (hzk j))
    subst hzz
    rw [hu 0]
    congr 1
    funext i
    refine hcomb (fun m q hq => ?_) i
    have hq' : q < nFft / 2 + 1 := by omega
    simp only [dif_pos hq']
  unfold separateRecording
  rw [hX']
  change (sep' _ >>= _) = _
  rw [hsep X Y hX hY]
  change (istftAll nFft hop w _ >>= _) = _
  rw [hinv]
  change Except.ok _ = Except.ok _
  congr 1
  funext k i
  rw [fixLength_getD _ _ _ i.2]
  simp only [hy, fixLength_getD _ _ _ i.2, List.getD_eq_getElem?_getD, List.getElem?_ofFn]
  split_ifs with hi
  · rfl
  · simp

/-- C121 (level of the recording, GEV).  A recording that is `g ≠ 0` times louder (or of opposite polarity) gives separated recordings
that are `g` times louder, when the masks do not depend on the level and are what the decomposition needs at both levels. -/
theorem recording_gev_level [NeZero C] (hC : C ≠ 2) (g : ℝ) (hg : g ≠ 0) (nFft : ℕ) (hop : Option ℕ) (w : Fin nFft → ℝ) (solver)
    (hc : EighContract C solver)
    (maskModel : (Fin (nFft / 2 + 1) → Fin (stftFrames nFft (hopOf nFft hop) n) → ℂ) → MaskOut S (nFft / 2 + 1) (stftFrames nFft (hopOf nFft hop) n))
    (ref : Fin C) (x : Fin C → Fin n → ℝ) (X) (hX : stftAll nFft hop w x = .ok X)
    (M : ℕ) (hM : 2 ≤ M) (masks : Fin S → Fin M → Fin (nFft / 2 + 1) → Fin (stftFrames nFft (hopOf nFft hop) n) → ℝ)
    (hmask : maskModel (X ref) = ⟨M, masks⟩) (hnn : ∀ s m f n, 0 ≤ masks s m f n)
    (hw : ∀ s f, WellPosed X (masks s ⟨0, by omega⟩) (masks s ⟨1, by omega⟩) f)
    (hw' : ∀ s f, WellPosed (gain (fun _ => (g : ℂ)) X) (masks s ⟨0, by omega⟩) (masks s ⟨1, by omega⟩) f)
    (hm : maskModel (gain (fun _ => (g : ℂ)) X ref) = maskModel (X ref))
    (y : Fin S → Fin n → ℝ) (h : separateRecording nFft hop w (gevForward solver maskModel ref) x = .ok y) :
    separateRecording nFft hop w (gevForward solver maskModel ref) (fun c i => g * x c i) = .ok fun k i => g * y k i := by
  have diag : ∀ {K : ℕ} (v : Fin K → ℝ) (c : Fin K), ∑ d, (if d = c then g else 0) * v d = g * v c := by
    intro K v c
    rw [Finset.sum_eq_single c (fun d _ hd => by rw [if_neg hd, zero_mul]) (by simp), if_pos rfl]
  have diagC : ∀ {K : ℕ} (v : Fin K → ℂ) (c : Fin K), ∑ d, ((if d = c then g else 0 : ℝ) : ℂ) * v d = g * v c := by
    intro K v c
    rw [Finset.sum_eq_single c (fun d _ hd => by rw [if_neg hd]; simp) (by simp), if_pos rfl]
  have := recording_mix nFft hop w (gevForward solver maskModel ref) (gevForward solver maskModel ref) x (NeZero.pos C)
    (fun c d => if d = c then g else 0) (fun k j => if j = k then g else 0) ?_ y h
  · simpa only [diag] using this
  · intro X' Y hX' hY
    obtain rfl : X = X' := Except.ok.inj (hX.symm.trans hX')
    have e := gev_level hC (fun _ => (g : ℂ)) (fun _ => by exact_mod_cast hg) solver hc maskModel ref X M hM masks hmask hnn hw hw' hm
    rw [hY] at e
    have e1 : (fun c f m => ∑ d, ((if d = c then g else 0 : ℝ) : ℂ) * X d f m) = gain (fun _ => (g : ℂ)) X := by
      funext c f m
      exact diagC (fun d => X d f m) c
    rw [e1, e]
    change Except.ok _ = Except.ok _
    congr 1
    funext k f m
    exact (diagC (fun j => Y j f m) k).symm

private lemma perm_sum {K : ℕ} (π : Equiv.Perm (Fin K)) (v : Fin K → ℝ) (c : Fin K) :
    ∑ d, (if d = π c then 1 else 0 : ℝ) * v d = v (π c) := pick_r (π c) v

/-- Nothing is changed. -/
private def same (F N : ℕ) : Reorder F N := ⟨fun _ _ => 1, fun _ _ => norm_one, 1, 1⟩

private lemma same_follows {S F N : ℕ} (maskModel : (Fin F → Fin N → ℂ) → MaskOut S F N) : FollowsMask (same F N) maskModel := by
  intro x
  have : (fun f n => (same F N).u f n * x ((same F N).freq f) ((same F N).frame n)) = x := by
    funext f n
    simp [same]
  rw [this]
  rfl

private lemma same_sig {c F N : ℕ} (X : Sig c F N) : (same F N).sig X = X := by
  funext c f n
  simp [same, Reorder.sig]

/-- C121 (order of the microphones, MWF and GEV).  With the recordings of the microphones listed in another order and `ref_mic` pointing to
the same microphone, the separated recordings are the same; GEV needs the conditions of its decomposition. -/
theorem recording_microphone_order [NeZero C] (π : Equiv.Perm (Fin C)) (nFft : ℕ) (hop : Option ℕ) (w : Fin nFft → ℝ)
    (maskModel : (Fin (nFft / 2 + 1) → Fin (stftFrames nFft (hopOf nFft hop) n) → ℂ) → MaskOut S (nFft / 2 + 1) (stftFrames nFft (hopOf nFft hop) n))
    (ref : Fin C) (eps : ℝ) (x : Fin C → Fin n → ℝ) (y : Fin S → Fin n → ℝ) :
    (separateRecording nFft hop w (mwfForward maskModel (π ref) eps true) x = .ok y →
      separateRecording nFft hop w (mwfForward maskModel ref eps true) (fun c => x (π c)) = .ok y) ∧
    ∀ (_ : C ≠ 2) (solver) (_ : EighContract C solver) (X) (_ : stftAll nFft hop w x = .ok X) (M : ℕ) (hM : 2 ≤ M)
      (masks : Fin S → Fin M → Fin (nFft / 2 + 1) → Fin (stftFrames nFft (hopOf nFft hop) n) → ℝ)
      (_ : maskModel (X (π ref)) = ⟨M, masks⟩) (_ : ∀ s m f n, 0 ≤ masks s m f n)
      (_ : ∀ s f, WellPosed X (masks s ⟨0, by omega⟩) (masks s ⟨1, by omega⟩) f),
      separateRecording nFft hop w (gevForward solver maskModel (π ref)) x = .ok y →
      separateRecording nFft hop w (gevForward solver maskModel ref) (fun c => x (π c)) = .ok y := by
  have main : ∀ sep sep' : Sig C (nFft / 2 + 1) (stftFrames nFft (hopOf nFft hop) n) →
      Except Err (Sig S (nFft / 2 + 1) (stftFrames nFft (hopOf nFft hop) n)),
      (∀ X Y, stftAll nFft hop w x = .ok X → sep X = .ok Y → sep' (relabel π X) = .ok Y) →
      separateRecording nFft hop w sep x = .ok y → separateRecording nFft hop w sep' (fun c => x (π c)) = .ok y := by
    intro sep sep' hs h
    have := recording_mix nFft hop w sep sep' x (NeZero.pos C) (fun c d => if d = π c then 1 else 0) (fun k j => if j = k then 1 else 0)
      ?_ y h
    · simpa only [perm_sum, pick_r] using this
    · intro X Y hX hY
      have e1 : (fun c f m => ∑ d, ((if d = π c then 1 else 0 : ℝ) : ℂ) * X d f m) = relabel π X := by
        funext c f m
        exact pick_c (π c) fun d => X d f m
      have e2 : (fun k f m => ∑ j, ((if j = k then 1 else 0 : ℝ) : ℂ) * Y j f m) = Y := by
        funext k f m
        exact pick_c k fun j => Y j f m
      rw [e1, e2]
      exact hs X Y hX hY
  refine ⟨main _ _ fun X Y _ hY => ?_, fun hC solver hc X hX M hM masks hmask hnn hw => main _ _ fun X' Y hX' hY => ?_⟩
  · have := (mwf_microphone_order (same _ _) π maskModel (same_follows _) ref eps true X Y).1 hY
    rwa [same_sig, same_sig] at this
  · obtain rfl : X = X' := Except.ok.inj (hX.symm.trans hX')
    have := (gev_microphone_order hC (same _ _) π solver hc maskModel (same_follows _) ref X M hM masks hmask hnn hw Y).1 hY
    rwa [same_sig, same_sig] at this

/-! ## Examples

Frames of two samples with a hop of one: the spectrogram has the samples as entries, up to a sign per frequency. -/

private lemma hann_two : hann 2 0 = 0 ∧ hann 2 1 = 1 := by
  constructor
  · simp [hann]
  · simp only [hann, Fin.val_one, Nat.cast_one, mul_one, Nat.cast_ofNat]
    rw [mul_div_cancel_left₀ _ (two_ne_zero), Real.cos_pi]
    norm_num

private lemma small_stft (x : Fin C → Fin n → ℝ) (hn : 2 ≤ n) : ∃ s : ℕ → ℂ, (∀ f, ‖s f‖ = 1) ∧
    ∃ X, stftAll 2 (some 1) (hann 2) x = .ok X ∧
      ∀ c f m, X c f m = s f.1 * (if h : reflectIdx n 1 (m.1 + 1) < n then (x c ⟨_, h⟩ : ℂ) else 0) := by
  refine ⟨fun f => Complex.exp (-(2 * Real.pi * Complex.I * (1 * f) / 2)), fun f => ?_, ?_⟩
  · have e : (-(2 * Real.pi * Complex.I * (1 * f) / 2) : ℂ) = ((-(Real.pi * f) : ℝ) : ℂ) * Complex.I := by push_cast; ring
    change ‖Complex.exp (-(2 * Real.pi * Complex.I * (1 * f) / 2) : ℂ)‖ = 1
    rw [e, Complex.norm_exp_ofReal_mul_I]
  have hok : ¬ (n ≤ 2 / 2 ∨ hopOf 2 (some 1) = 0) := by simp [hopOf]; omega
  let Z : Fin C → Fin (stftFrames 2 (hopOf 2 (some 1)) n) → ℕ → ℂ := fun c m k =>
      rfft (fun j : Fin 2 => hann 2 j * (if hi : reflectIdx n 1 (m * 1 + j) < n then x c ⟨reflectIdx n 1 (m * 1 + j), hi⟩ else 0)) 2 k
  have hZ : ∀ c, stftForward 2 (some 1) (hann 2) (x c) = .ok (Z c) := by
    intro c
    unfold stftForward
    dsimp only
    rw [if_neg hok]
    rfl
  refine ⟨fun c f m => Z c m f, ?_, fun c f m => ?_⟩
  · unfold stftAll
    rw [seqAll_ok_iff.2 hZ]
    rfl
  · have key : ∀ (g : Fin 2 → ℝ) (k : ℕ), g 0 = 0 → rfft g 2 k = Complex.exp (-(2 * Real.pi * Complex.I * (1 * k) / 2)) * (g 1 : ℂ) := by
      intro g k hg
      unfold rfft
      rw [Fin.sum_univ_two, dif_pos (by norm_num), dif_pos (by norm_num)]
      change ((g 0 : ℝ) : ℂ) * _ + ((g 1 : ℝ) : ℂ) * _ = _
      rw [hg, Complex.ofReal_zero, zero_mul, zero_add, mul_comm]
      norm_num
    change rfft _ 2 f.1 = _
    rw [key _ _ (by rw [hann_two.1, zero_mul]), hann_two.2]
    simp only [one_mul, mul_one, Fin.val_one]
    split_ifs <;> simp

/-- The STFT of the sum of two recordings of one second. -/
example (x : Fin 2 → Fin 16000 → ℝ) : ∃ Z : Fin 2 → Fin (stftFrames 512 128 16000) → ℕ → ℂ,
    (∀ k, stftForward 512 (some 128) (hann 512) (x k) = .ok (Z k)) ∧
    stftForward 512 (some 128) (hann 512) (fun i => ∑ k, 1 * x k i) = .ok fun m q => ∑ k, ((1 : ℝ) : ℂ) * Z k m q := by
  choose Z hZ using fun k => (stft_accepts 512 (some 128) (hann 512) (x k)).1 ⟨by norm_num, by norm_num [hopOf]⟩
  exact ⟨Z, hZ, stft_linear 512 (some 128) (hann 512) (fun _ => 1) x (by norm_num) (by norm_num [hopOf]) Z hZ⟩

/-- The inverse STFT of the difference of two spectrograms. -/
example (Z : Fin 2 → Fin 126 → ℕ → ℂ) : ∃ (y : Fin 2 → Fin (istftLen 512 128 126) → ℝ) (y' : Fin (istftLen 512 128 126) → ℝ),
    stftInv 512 (some 128) (hann 512) (fun m q => Z 0 m q - Z 1 m q) = .ok y' ∧
    (∀ k, stftInv 512 (some 128) (hann 512) (Z k) = .ok (y k)) ∧ ∀ i, y' i = y 0 i - y 1 i := by
  obtain ⟨y', h'⟩ := hann_envelope_ok 512 (by norm_num) (some 128) (by norm_num [hopOf]) (by norm_num [hopOf]) (by norm_num)
    (fun (m : Fin 126) q => Z 0 m q - Z 1 m q)
  obtain ⟨y, h1, h2⟩ := istft_linear 512 (some 128) (hann 512) ![1, -1] Z _ y' h'
  refine ⟨y, y', h', h1, fun i => ?_⟩
  rw [h2 (fun m q _ => by simp [Fin.sum_univ_two]; ring) i]
  simp [Fin.sum_univ_two]; ring

/-- `recording_relation` and `recording_returns`: two channels of one second and a separator that exchanges them. -/
example (x : Fin 2 → Fin 16000 → ℝ) : ∃ y, separateRecording 512 (some 128) (hann 512) (fun X => .ok fun c => X (Equiv.swap 0 1 c)) x = .ok y ∧
    ∀ i, y 0 i = x 1 i := by
  obtain ⟨y, hy⟩ := recording_returns 512 (by norm_num) (some 128) (by norm_num [hopOf]) (by norm_num [hopOf]) (by norm_num)
    (fun X => .ok fun c => X (Equiv.swap 0 1 c)) x fun X _ => ⟨_, rfl⟩
  refine ⟨y, hy, fun i => ?_⟩
  obtain ⟨X, Y, -, hY, h⟩ := recording_relation 512 (by norm_num) (some 128) _ _ x (by norm_num) (by norm_num) y hy
  obtain rfl := Except.ok.inj hY
  have := h ![1, 0] ![0, 1] (fun f m => by simp [Fin.sum_univ_two]) i
  rw [if_pos (by have := i.2; simp only [istftLen, stftFrames, hopOf, Option.getD_some]; omega)] at this
  simpa [Fin.sum_univ_two] using this

/-- `recording_adds_up_violated`: the last sample of 16001. -/
example : ∃ y, separateRecording 512 (some 128) (hann 512) (fun X => .ok X) (fun (_ : Fin 2) (_ : Fin 16001) => (1 : ℝ)) = .ok y ∧
    ∑ k, y k (Fin.last 16000) ≠ 1 := by
  obtain ⟨y, hy⟩ := recording_returns 512 (by norm_num) (some 128) (by norm_num [hopOf]) (by norm_num [hopOf]) (by norm_num)
    (fun X => .ok X) (fun (_ : Fin 2) (_ : Fin 16001) => (1 : ℝ)) fun X _ => ⟨_, rfl⟩
  exact ⟨y, hy, (recording_adds_up_violated 512 (by norm_num) (by norm_num) (some 128) (by norm_num [hopOf]) _ _ _ y hy (Fin.last 16000)
    (by norm_num [hopOf])).2 0 one_ne_zero⟩

/-- `recording_tiss_zero_iterations`: three microphones, two sources, dereverberation with two taps. -/
example (x : Fin 3 → Fin 16000 → ℝ) : ∃ y, separateRecording 512 (some 128) (hann 512) (fun X => .ok fun k : Fin 2 => X (Fin.castLE (by norm_num) k)) x
    = .ok y ∧ ∀ i, y 1 i = x 1 i := by
  obtain ⟨y, hy, h⟩ := recording_tiss_zero_iterations 512 (by norm_num) (by norm_num) (some 128) (by norm_num [hopOf]) (by norm_num [hopOf])
    (by norm_num) x ⟨0, 2, 1, none, false, 1e-5⟩ rfl (by norm_num) 2 (by norm_num) (by norm_num)
    (fun _ ms _ => (fun _ _ _ => 1, ms)) id () (fun X => .ok fun k : Fin 2 => X (Fin.castLE (by norm_num) k)) (by
      intro X out ho
      obtain ⟨out', h1, h2⟩ := tiss_zero_iterations ⟨0, 2, 1, none, false, 1e-5⟩ rfl (by norm_num) (some 2) (by norm_num) X
        (fun _ ms _ => (fun _ _ _ => 1, ms)) id ()
      have e : (⟨2, out⟩ : Σ s, TissOut Unit s 3 _ _) = ⟨2, out'⟩ := Except.ok.inj (ho.symm.trans h1)
      obtain rfl := eq_of_heq (Sigma.mk.inj e).2
      congr 1
      funext k f t
      exact (h2 k f t).symm)
  exact ⟨y, hy, fun i => h 1 i (by have := i.2; simp only [hopOf, Option.getD_some]; omega)⟩

private noncomputable def demoRec : Fin 2 → Fin 3 → ℝ := ![![1, 0, 1], ![0, 1, 1]]

private noncomputable def demoVal : Fin 2 → ℕ → ℝ := fun c m =>
  if c = 0 then (if m = 0 ∨ m = 2 then 1 else 0) else (if m = 0 then 0 else 1)

private lemma demoRec_val (c : Fin 2) (m : ℕ) (hm : m < 4) :
    (if h : reflectIdx 3 1 (m + 1) < 3 then (demoRec c ⟨_, h⟩ : ℂ) else 0) = (demoVal c m : ℂ) := by
  interval_cases m <;> fin_cases c <;> simp [reflectIdx, demoRec, demoVal]

private noncomputable def demoW : Fin 2 → ℕ → ℝ := fun k m => if m = 3 ∨ (k = 0 ∧ m = 2) then 0 else 4

private lemma demo_ip2 {N : ℕ} (hN : N = 4) (X : Fin 2 → Fin N → ℂ) (s : ℂ) (hs : ‖s‖ = 1) (hX : ∀ c m, X c m = s * demoVal c m.1)
    (w : Fin 2 → Fin N → ℝ) (hw : ∀ k m, w k m = demoW k m.1) :
    Ip2Regular X w 1e-5 ∧ wenergy (w 0) (X 0) * wenergy (w 1) (X 1) ≤ 1e12 := by
  subst hN
  have hss : s * star s = 1 := unit_mul_star hs
  have hV : ∀ k, wcov X (w k) = wcov (fun c (m : Fin 4) => (demoVal c m.1 : ℂ)) (fun m => demoW k m.1) := by
    intro k
    ext c d
    simp only [wcov, Matrix.of_apply]
    congr 1
    refine Finset.sum_congr rfl fun m _ => ?_
    rw [hX, hX, hw, star_mul']
    linear_combination ((demoW k m.1 : ℂ) * demoVal c m.1 * star (demoVal d m.1 : ℂ)) * hss
  have h0 : wcov X (w 0) = !![1, 0; 0, 1] := by
    rw [hV]
    ext i j; fin_cases i <;> fin_cases j <;> simp [wcov, demoVal, demoW, Fin.sum_univ_four]
  have h1 : wcov X (w 1) = !![2, 1; 1, 2] := by
    rw [hV]
    ext i j; fin_cases i <;> fin_cases j <;> simp [wcov, demoVal, demoW, Fin.sum_univ_four] <;> norm_num
  refine ⟨ip2_regular_demo X w h0 h1, ?_⟩
  simp only [wenergy, hX, hw, norm_mul, hs, Fin.sum_univ_four, one_mul]
  simp [demoVal, demoW]
  norm_num

/-- `recording_ip2_adds_up_partial`: two recordings of three samples and one iteration.  At both frequencies the update is away from its
clamps, so the two separated recordings add up to the second microphone. -/
example : ∃ (model : SourceModel Unit (2 / 2 + 1) (stftFrames 2 (hopOf 2 (some 1)) 3)) (y : Fin 2 → Fin 3 → ℝ),
    separateRecording 2 (some 1) (hann 2) (fun X => auxiva2Forward 1 (some 1) 1e-5 X model id ()) demoRec = .ok y ∧
    ∀ i, y 0 i + y 1 i = demoRec 1 i := by
  let model : SourceModel Unit (2 / 2 + 1) (stftFrames 2 (hopOf 2 (some 1)) 3) := fun s ms _ =>
    (fun k _ m => if h : s = 2 then (if k.1 = 0 then 2 else 4 / 3) * demoW (Fin.cast h k) m.1 else 0, ms)
  have hmod : ∀ s ms Y k f n, 0 ≤ (model s ms Y).1 k f n := by
    intro s ms Y k f n
    simp only [model, demoW]
    split_ifs <;> norm_num
  obtain ⟨y, X, prev, ms', W, hy, hX, hprev, -, hsum, hdet⟩ := recording_ip2_adds_up_partial 2 le_rfl rfl (some 1) (by norm_num [hopOf])
    (by norm_num [hopOf]) (by norm_num) demoRec 0 1 1e-5 (by norm_num) model hmod id ()
  refine ⟨model, y, hy, fun i => hsum (fun f => ?_) i (by have := i.2; simp only [hopOf, Option.getD_some]; omega)⟩
  obtain ⟨s, hs, X', hX', hval⟩ := small_stft demoRec (by norm_num)
  have hXX : X = X' := by
    funext c f m
    obtain ⟨Z', hZ', hXZ'⟩ := stftAll_ok 2 (some 1) (hann 2) demoRec X' hX'
    obtain ⟨Z, hZ, hXZ⟩ := hX c
    rw [hXZ, hXZ', Except.ok.inj (hZ.symm.trans (hZ' c))]
  subst hXX
  have hN : stftFrames 2 (hopOf 2 (some 1)) 3 = 4 := rfl
  have hv : ∀ c f (m : Fin (stftFrames 2 (hopOf 2 (some 1)) 3)), X c f m = s f.1 * demoVal c m.1 := fun c f m => by
    rw [hval, demoRec_val _ _ (lt_of_lt_of_eq m.2 hN)]
  obtain rfl : X = prev := Except.ok.inj ((ip2_zero_iterations none 1e-5 X model id ()).symm.trans hprev)
  have hp : ∀ k : Fin 2, max ((∑ f, ∑ t, ‖X k f t‖ ^ 2) / ((2 / 2 + 1 : ℕ) * (stftFrames 2 (hopOf 2 (some 1)) 3 : ℕ))) 1e-5
      = if k.1 = 0 then (1 / 2 : ℝ) else 3 / 4 := by
    intro k
    simp only [hv, norm_mul, hs, one_mul]
    change max ((∑ f : Fin 2, ∑ t : Fin 4, ‖(demoVal k t.1 : ℂ)‖ ^ 2) / ((2 : ℕ) * (4 : ℕ))) (1e-5 : ℝ) = _
    simp only [Fin.sum_univ_two, Fin.sum_univ_four]
    fin_cases k <;> simp [demoVal] <;> norm_num
  have key := demo_ip2 hN (fun c => X c f) (s f.1) (hs _) (fun c m => hv c f m) (fun k t => (model 2 ms' X).1 k f t *
    max ((∑ f, ∑ t, ‖X k f t‖ ^ 2) / ((2 / 2 + 1 : ℕ) * (stftFrames 2 (hopOf 2 (some 1)) 3 : ℕ))) 1e-5) (fun k m => by
      rw [hp]
      simp only [model, dif_pos, Fin.cast_eq_self]
      split_ifs <;> ring)
  exact hdet f key.1 key.2

private noncomputable def micRec : Fin 3 → Fin 5 → ℝ := fun c m => if c.1 = m.1 then 1 else 0

private lemma micRec_val (c : Fin 3) (m : ℕ) (hm : m < 6) :
    (if h : reflectIdx 5 1 (m + 1) < 5 then (micRec c ⟨_, h⟩ : ℂ) else 0) = if c.1 = m then 1 else 0 := by
  interval_cases m <;> fin_cases c <;> simp [reflectIdx, micRec]

open Classical in
private noncomputable def recMask (F N : ℕ) : (Fin F → Fin N → ℂ) → MaskOut 2 F N := fun x =>
  ⟨2, fun _ m f n => if m.1 = 0 then (if x f n = 0 then 0 else 1) else 1⟩

private lemma micRec_well {F N : ℕ} (hN : N = 6) (X : Sig 3 F N) (s : ℕ → ℂ) (hs : ∀ f, ‖s f‖ = 1)
    (hX : ∀ c f m, X c f m = s f.1 * if c.1 = m.1 then 1 else 0) (k : Fin 3) (j : Fin 2) (f : Fin F) :
    WellPosed X ((recMask F N (X k)).2 j ⟨0, by norm_num [recMask]⟩) ((recMask F N (X k)).2 j ⟨1, by norm_num [recMask]⟩) f := by
  subst hN
  have hss : s f.1 * star (s f.1) = 1 := unit_mul_star (hs _)
  have hne : s f.1 ≠ 0 := by rw [← norm_pos_iff, hs]; norm_num
  have h := micDemo_well k 0
  unfold WellPosed at h ⊢
  rw [micDemo_noise, micDemo_target] at h
  have h1 : (fun c d => ∑ n, (((recMask F 6 (X k)).2 j ⟨1, by norm_num [recMask]⟩ f n : ℝ) : ℂ) * X c f n * star (X d f n))
      = (1 : Matrix (Fin 3) (Fin 3) ℂ) := by
    funext c d
    simp only [hX, recMask, star_mul']
    fin_cases c <;> fin_cases d <;> simp [Fin.sum_univ_six, Matrix.one_apply] <;> exact hss
  have h2 : (fun c d => ∑ n, (((recMask F 6 (X k)).2 j ⟨0, by norm_num [recMask]⟩ f n : ℝ) : ℂ) * X c f n * star (X d f n))
      = (Matrix.of fun c d => if c = k ∧ d = k then 1 else 0 : Matrix (Fin 3) (Fin 3) ℂ) := by
    funext c d
    simp only [hX, recMask, star_mul']
    fin_cases k <;> fin_cases c <;> fin_cases d <;> simp [Fin.sum_univ_six, hne] <;> exact hss
  rw [h1, h2]
  exact h

/-- `recording_gev_level`: three microphones, each with one loud sample; the level is tripled and the polarity reversed. -/
example : ∃ (solver : _) (y : Fin 2 → Fin 5 → ℝ),
    separateRecording 2 (some 1) (hann 2) (gevForward solver (recMask _ _) (0 : Fin 3)) micRec = .ok y ∧
    separateRecording 2 (some 1) (hann 2) (gevForward solver (recMask _ _) (0 : Fin 3)) (fun c i => -3 * micRec c i)
      = .ok fun k i => -3 * y k i := by
  obtain ⟨solver, hc⟩ := eighContract_exists 3
  obtain ⟨s, hs, X, hX, hval⟩ := small_stft micRec (by norm_num)
  have hN : stftFrames 2 (hopOf 2 (some 1)) 5 = 6 := rfl
  have hv : ∀ c f (m : Fin (stftFrames 2 (hopOf 2 (some 1)) 5)), X c f m = s f.1 * if c.1 = m.1 then 1 else 0 := fun c f m => by
    rw [hval, micRec_val _ _ (lt_of_lt_of_eq m.2 hN)]
  have hw := micRec_well hN X s hs hv 0
  have hnn : ∀ s m f n, 0 ≤ (recMask _ _ (X 0)).2 s m f n := by
    intro s m f n
    simp only [recMask]
    split_ifs <;> norm_num
  obtain ⟨Y, hY, -⟩ := gev_forward solver (recMask _ _) 0 X (by norm_num) hc 2 le_rfl _ rfl hnn (fun s f => (hw s f).1)
  obtain ⟨y, hy⟩ : ∃ y, separateRecording 2 (some 1) (hann 2) (gevForward solver (recMask _ _) (0 : Fin 3)) micRec = .ok y :=
    recording_returns 2 le_rfl (some 1) (by norm_num [hopOf]) (by norm_num [hopOf]) (by norm_num) _ micRec fun X' hX' => by
      obtain rfl := Except.ok.inj (hX.symm.trans hX')
      exact ⟨Y, hY⟩
  refine ⟨solver, y, hy, recording_gev_level (by norm_num) (-3) (by norm_num) 2 (some 1) (hann 2) solver hc (recMask _ _) 0 micRec X hX 2 le_rfl
    _ rfl hnn hw (fun s f => wellPosed_gain (by norm_num) (hw s f)) ?_ y hy⟩
  simp [recMask, gain]

/-- `recording_microphone_order`: the same recordings, listed in another order, with MWF and with GEV. -/
example : ∃ (solver : _) (y z : Fin 2 → Fin 5 → ℝ),
    separateRecording 2 (some 1) (hann 2) (mwfForward (recMask _ _) (1 : Fin 3) 1e-5 true) (fun c => micRec (finRotate 3 c)) = .ok y ∧
    separateRecording 2 (some 1) (hann 2) (mwfForward (recMask _ _) (2 : Fin 3) 1e-5 true) micRec = .ok y ∧
    separateRecording 2 (some 1) (hann 2) (gevForward solver (recMask _ _) (1 : Fin 3)) (fun c => micRec (finRotate 3 c)) = .ok z ∧
    separateRecording 2 (some 1) (hann 2) (gevForward solver (recMask _ _) (2 : Fin 3)) micRec = .ok z := by
  obtain ⟨solver, hc⟩ := eighContract_exists 3
  obtain ⟨s, hs, X, hX, hval⟩ := small_stft micRec (by norm_num)
  have hN : stftFrames 2 (hopOf 2 (some 1)) 5 = 6 := rfl
  have hv : ∀ c f (m : Fin (stftFrames 2 (hopOf 2 (some 1)) 5)), X c f m = s f.1 * if c.1 = m.1 then 1 else 0 := fun c f m => by
    rw [hval, micRec_val _ _ (lt_of_lt_of_eq m.2 hN)]
  have hw := micRec_well hN X s hs hv 2
  have hnn : ∀ s m f n, 0 ≤ (recMask _ _ (X 2)).2 s m f n := by
    intro s m f n
    simp only [recMask]
    split_ifs <;> norm_num
  obtain ⟨Y, hY, -⟩ := gev_forward solver (recMask _ _) 2 X (by norm_num) hc 2 le_rfl _ rfl hnn (fun s f => (hw s f).1)
  obtain ⟨Y', hY', -⟩ := mwf_forward_time_invariant (recMask _ _) 2 1e-5 X 2 le_rfl _ rfl hnn
  have ret : ∀ sep : Sig 3 (2 / 2 + 1) (stftFrames 2 (hopOf 2 (some 1)) 5) → Except Err (Sig 2 (2 / 2 + 1) (stftFrames 2 (hopOf 2 (some 1)) 5)),
      (∃ Y, sep X = .ok Y) → ∃ y, separateRecording 2 (some 1) (hann 2) sep micRec = .ok y := fun sep h =>
    recording_returns 2 le_rfl (some 1) (by norm_num [hopOf]) (by norm_num [hopOf]) (by norm_num) _ micRec fun X' hX' => by
      obtain rfl := Except.ok.inj (hX.symm.trans hX')
      exact h
  obtain ⟨z, hz⟩ := ret _ ⟨Y, hY⟩
  obtain ⟨y, hy⟩ := ret _ ⟨Y', hY'⟩
  have e : finRotate 3 1 = 2 := rfl
  exact ⟨solver, y, z, (recording_microphone_order (finRotate 3) 2 (some 1) (hann 2) (recMask _ _) 1 1e-5 micRec y).1 hy, hy,
    (recording_microphone_order (finRotate 3) 2 (some 1) (hann 2) (recMask _ _) 1 1e-5 micRec z).2 (by norm_num) solver hc X hX 2 le_rfl _ rfl
      hnn hw hz, hz⟩

/-- `recording_mix`: a separator that returns its input, and a mixture of the two channels. -/
example (x : Fin 2 → Fin 16000 → ℝ) (y) (h : separateRecording 512 (some 128) (hann 512) (fun X => .ok X) x = .ok y) :
    separateRecording 512 (some 128) (hann 512) (fun X => .ok X) (fun c i => ∑ d, !![1, 2; 3, 4] c d * x d i)
      = .ok fun k i => ∑ j, !![1, 2; 3, 4] k j * y j i :=
  recording_mix 512 (some 128) (hann 512) _ _ x (by norm_num) _ _ (fun X Y _ hY => by obtain rfl := Except.ok.inj hY; rfl) y h

end Torchiva.Props
