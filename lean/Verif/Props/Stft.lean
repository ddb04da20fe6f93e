import Verif.Model.Stft
import Verif.Model.Objects
import Verif.Props.FftConv
import Verif.Props.Objects
import Mathlib.Analysis.Real.Pi.Bounds
import Mathlib.Analysis.SpecialFunctions.Trigonometric.Bounds

/-! # C57 window handling, C80 STFT round trip, C54 (tail of the output) -/

namespace Torchiva.Props

open Torchiva

/-! ## C57 -/

/-- C57, false: every custom window raises `AttributeError`, whatever its length. -/
theorem stft_custom_window_violated (known : String → Bool) (len : ℕ) :
    stftInit known (.custom len) = .error .attributeError := rfl

/-- C57, what holds: a window name known to scipy is accepted and recorded, `None` means "hann", an
unknown name raises `ValueError`. -/
theorem stft_named_window_partial (known : String → Bool) (s : String) :
    (known s = true → stftInit known (.name s) = .ok s) ∧
    (known s = false → stftInit known (.name s) = .error .valueError) ∧
    (known "hann" = true → stftInit known .none = .ok "hann") := by
  refine ⟨fun h => ?_, fun h => ?_, fun h => ?_⟩ <;> simp [stftInit, h]

example : stftInit (fun s => s = "hann" ∨ s = "hamming") (.name "hamming") = .ok "hamming" :=
  (stft_named_window_partial _ _).1 (by decide)

/-! ## C80: round trip -/

theorem irfft_rfft {n : ℕ} (hn : 0 < n) (v : Fin n → ℝ) (j : Fin n) :
    irfft (rfft v n) n j = v j := by
  have h := irfft_conv hn one_pos v (fun _ : Fin 1 => 1) j.1 (by have := j.2; omega)
  rw [show n + 1 - 1 = n by omega] at h
  have e : (fun k => rfft v n k * rfft (fun _ : Fin 1 => (1 : ℝ)) n k) = rfft v n := by
    funext k
    rw [rfft_eq (fun _ : Fin 1 => (1 : ℝ)) n k (by omega)]
    simp
  rw [e] at h
  rw [h]
  unfold Spec.linConv
  rw [Finset.sum_eq_single j]
  · simp
  · intro i _ hi
    simp only [Finset.univ_unique, Fin.default_eq_zero, Fin.isValue, Fin.coe_ofNat_eq_mod,
      Nat.zero_mod, add_zero, mul_one, Finset.sum_const, Finset.card_singleton, one_smul]
    rw [Finset.sum_singleton, if_neg]
    exact fun h => hi (Fin.ext (by simpa using h))
  · simp

/-- The inverse STFT of the STFT is never longer than the input. -/
theorem istft_le (nFft h n : ℕ) (hn : nFft / 2 < n) (hh : 0 < h) :
    istftLen nFft h (stftFrames nFft h n) ≤ n := by
  unfold istftLen stftFrames
  have := Nat.div_mul_le_self (n + 2 * (nFft / 2) - nFft) h
  rw [mul_comm] at this
  have e : 1 + (n + 2 * (nFft / 2) - nFft) / h - 1 = (n + 2 * (nFft / 2) - nFft) / h := Nat.add_sub_cancel_left _ _
  rw [e]
  omega

/-- 16000 samples, frames of 512, hop 128. -/
example : istftLen 512 128 (stftFrames 512 128 16000) = 16000 ∧ istftLen 512 128 (stftFrames 512 128 16001) = 16000 := by
  decide

/-- C80: for every window, hop and signal, if the STFT and its inverse both return, the inverse
reproduces the signal sample by sample on its whole length, which is at most the signal's length. -/
theorem stft_round_trip (nFft : ℕ) (hop : Option ℕ) (w : Fin nFft → ℝ) {n : ℕ} (x : Fin n → ℝ)
    (hf : 0 < nFft) (Z) (hZ : stftForward nFft hop w x = .ok Z) (y)
    (hy : stftInv nFft hop w Z = .ok y) (i : Fin (istftLen nFft (hopOf nFft hop)
      (stftFrames nFft (hopOf nFft hop) n))) :
    ∃ hi : i.1 < n, y i = x ⟨i, hi⟩ := by
  unfold stftForward at hZ
  dsimp only at hZ
  split at hZ
  · cases hZ
  rename_i hc
  push Not at hc
  have hlen := istft_le nFft (hopOf nFft hop) n hc.1 (Nat.pos_of_ne_zero hc.2)
  have hi : i.1 < n := lt_of_lt_of_le i.2 hlen
  refine ⟨hi, ?_⟩
  cases hZ
  unfold stftInv at hy
  dsimp only at hy
  split at hy
  · cases hy
  split at hy
  swap
  · cases hy
  rename_i henv
  cases hy
  dsimp only
  have hne := henv i
  have hne0 : (∑ m : Fin (stftFrames nFft (hopOf nFft hop) n), if hi : m.1 * (hopOf nFft hop) ≤ (nFft / 2) + i.1 ∧ (nFft / 2) + i.1 - m.1 * (hopOf nFft hop) < nFft then
      w ⟨(nFft / 2) + i.1 - m.1 * (hopOf nFft hop), hi.2⟩ ^ 2 else 0) ≠ 0 := by
    intro h0
    rw [h0, abs_zero] at hne
    norm_num at hne
  rw [div_eq_iff hne0, Finset.mul_sum]
  refine Finset.sum_congr rfl fun m _ => ?_
  split_ifs with hm
  · have hr := irfft_rfft hf (fun j : Fin nFft => w j *
      if hi : reflectIdx n (nFft / 2) (m.1 * hopOf nFft hop + j.1) < n then
        x ⟨reflectIdx n (nFft / 2) (m.1 * hopOf nFft hop + j.1), hi⟩ else 0)
      ⟨nFft / 2 + i.1 - m.1 * hopOf nFft hop, hm.2⟩
    refine (congrArg _ hr).trans ?_
    beta_reduce
    dsimp only
    have e1 : m.1 * (hopOf nFft hop) + ((nFft / 2) + i.1 - m.1 * (hopOf nFft hop)) = (nFft / 2) + i.1 := by omega
    have e2 : reflectIdx n (nFft / 2) ((nFft / 2) + i.1) = i.1 := by
      unfold reflectIdx
      rw [if_neg (by omega), if_pos (by omega)]
      omega
    have e3 : reflectIdx n (nFft / 2) (m.1 * (hopOf nFft hop) + ((nFft / 2) + i.1 - m.1 * (hopOf nFft hop))) = i.1 := by rw [e1, e2]
    rw [dif_pos (by rw [e3]; exact hi)]
    have : (⟨reflectIdx n (nFft / 2) (m.1 * (hopOf nFft hop) + ((nFft / 2) + i.1 - m.1 * (hopOf nFft hop))), by rw [e3]; exact hi⟩ : Fin n) = ⟨i.1, hi⟩ :=
      Fin.ext e3
    rw [this]
    ring
  · simp

/-- C80: with the default (Hann) window and a hop of at most half a frame, `STFT.inv` never rejects
the envelope, for any number of frames and any spectrogram. -/
theorem hann_envelope_ok (nFft : ℕ) (hf : 2 ≤ nFft) (hop : Option ℕ) (hh0 : 0 < hopOf nFft hop)
    (hh : 2 * hopOf nFft hop ≤ nFft) {frames : ℕ} (hfr : 0 < frames) (Z : Fin frames → ℕ → ℂ) :
    ∃ y, stftInv nFft hop (hann nFft) Z = .ok y := by
  set h := hopOf nFft hop with hhdef
  unfold stftInv
  dsimp only
  rw [if_neg (by rw [← hhdef]; omega), if_pos]
  · exact ⟨_, rfl⟩
  intro i
  have hi : i.1 < nFft + h * (frames - 1) - 2 * (nFft / 2) := i.2
  set q := nFft / 2 + i.1 with hq
  have hex : ∃ m, 4 * q ≤ 3 * nFft + 4 * (m * h) := by
    refine ⟨q, ?_⟩
    have : q ≤ q * h := Nat.le_mul_of_pos_right q hh0
    omega
  classical
  set m := Nat.find hex with hm
  have hm1 : 4 * q ≤ 3 * nFft + 4 * (m * h) := Nat.find_spec hex
  have hmf : m ≤ frames - 1 := by
    refine Nat.find_min' hex ?_
    rw [mul_comm (frames - 1) h]
    omega
  have hm2 : nFft + 4 * (m * h) ≤ 4 * q := by
    rcases Nat.eq_zero_or_pos m with h0 | h0
    · rw [h0]; omega
    · have := Nat.find_min hex (m := m - 1) (by omega)
      push Not at this
      have e : m * h = (m - 1) * h + h := by
        conv_lhs => rw [show m = (m - 1) + 1 by omega, add_mul, one_mul]
      omega
  have hnonneg : ∀ m' : Fin frames, 0 ≤ (if hi : m'.1 * h ≤ q ∧ q - m'.1 * h < nFft then
      hann nFft ⟨q - m'.1 * h, hi.2⟩ ^ 2 else 0) := fun m' => by
    split_ifs
    · positivity
    · exact le_rfl
  have hterm : (1 / 4 : ℝ) ≤ (if hi : m * h ≤ q ∧ q - m * h < nFft then
      hann nFft ⟨q - m * h, hi.2⟩ ^ 2 else 0) := by
    rw [dif_pos ⟨by omega, by omega⟩]
    unfold hann
    have hN : (0 : ℝ) < nFft := by exact_mod_cast (by omega : 0 < nFft)
    have hj1 : (nFft : ℝ) ≤ 4 * ((q - m * h : ℕ) : ℝ) := by exact_mod_cast (by omega)
    have hj2 : 4 * ((q - m * h : ℕ) : ℝ) ≤ 3 * nFft := by exact_mod_cast (by omega)
    have hcos : Real.cos (2 * Real.pi * ((q - m * h : ℕ) : ℝ) / nFft) ≤ 0 := by
      apply Real.cos_nonpos_of_pi_div_two_le_of_le
      · rw [div_le_div_iff₀ two_pos hN]
        nlinarith [Real.pi_pos]
      · rw [div_le_iff₀ hN]
        nlinarith [Real.pi_pos]
    have : (0.5 : ℝ) ≤ 0.5 - 0.5 * Real.cos (2 * Real.pi * ((q - m * h : ℕ) : ℝ) / nFft) := by
      linarith
    nlinarith
  have hsum : (1 / 4 : ℝ) ≤ ∑ m' : Fin frames, (if hi : m'.1 * h ≤ q ∧ q - m'.1 * h < nFft then
      hann nFft ⟨q - m'.1 * h, hi.2⟩ ^ 2 else 0) :=
    hterm.trans (Finset.single_le_sum (f := fun m' : Fin frames =>
      (if hi : m'.1 * h ≤ q ∧ q - m'.1 * h < nFft then
        hann nFft ⟨q - m'.1 * h, hi.2⟩ ^ 2 else 0)) (fun m' _ => hnonneg m')
      (Finset.mem_univ (⟨m, by omega⟩ : Fin frames)))
  have hsum' := hsum.trans (le_abs_self _)
  refine lt_of_lt_of_le ?_ hsum'
  norm_num

/-- C80: with the default window and hop (`None`, i.e. a quarter frame) the round trip returns for every
signal longer than half a frame, and reproduces it. -/
theorem stft_default_round_trip (nFft : ℕ) (hf : 4 ≤ nFft) {n : ℕ} (x : Fin n → ℝ)
    (hn : nFft / 2 < n) :
    ∃ Z y, stftForward nFft none (hann nFft) x = .ok Z ∧
      stftInv nFft none (hann nFft) Z = .ok y ∧
      ∀ i, ∃ hi : i.1 < n, y i = x ⟨i, hi⟩ := by
  have hop0 : 0 < hopOf nFft none := by show 0 < nFft / 4; omega
  have hop2 : 2 * hopOf nFft none ≤ nFft := by show 2 * (nFft / 4) ≤ nFft; omega
  have hZ : ∃ Z, stftForward nFft none (hann nFft) x = .ok Z := by
    unfold stftForward
    dsimp only
    rw [if_neg (by omega)]
    exact ⟨_, rfl⟩
  obtain ⟨Z, hZ⟩ := hZ
  obtain ⟨y, hy⟩ := hann_envelope_ok nFft (by omega) none hop0 hop2
    (Nat.add_pos_left one_pos _) Z
  exact ⟨Z, y, hZ, hy, fun i => stft_round_trip nFft none _ x (by omega) Z hZ y hy i⟩

example : ∃ Z, stftForward 4 none (hann 4) (fun i : Fin 10 => (i.1 : ℝ)) = .ok Z :=
  (stft_default_round_trip 4 (by norm_num) (fun i : Fin 10 => (i.1 : ℝ)) (by norm_num)).imp
    fun _ h => h.choose_spec.1

/-- C80: which signals are accepted: exactly those longer than half a frame (and a hop of at least one
sample). -/
theorem stft_accepts (nFft : ℕ) (hop : Option ℕ) (w : Fin nFft → ℝ) {n : ℕ} (x : Fin n → ℝ) :
    (nFft / 2 < n ∧ 0 < hopOf nFft hop → ∃ Z, stftForward nFft hop w x = .ok Z) ∧
    (n ≤ nFft / 2 ∨ hopOf nFft hop = 0 → stftForward nFft hop w x = .error .runtimeError) := by
  constructor
  · rintro ⟨h1, h2⟩
    unfold stftForward
    dsimp only
    rw [if_neg (by omega)]
    exact ⟨_, rfl⟩
  · intro h
    unfold stftForward
    dsimp only
    rw [if_pos h]

/-- C80: what the STFT computes.  There is an extension `xp` of the signal to half a frame on either
side, mirrored at the first and at the last sample, such that bin `k` of frame `m` is the Fourier sum of
the windowed frame that starts at `m * hop - n_fft // 2`; the frames are all those that fit in the
extended signal. -/
theorem stft_frames (nFft : ℕ) (hop : Option ℕ) (w : Fin nFft → ℝ) {n : ℕ} (x : Fin n → ℝ)
    (Z) (hZ : stftForward nFft hop w x = .ok Z) :
    (∃ xp : ℤ → ℝ, (∀ i : Fin n, xp i = x i) ∧
      (∀ t : ℕ, t ≤ nFft / 2 → xp (-t) = xp t ∧ xp (n - 1 + t) = xp (n - 1 - t)) ∧
      ∀ m (k : ℕ), Z m k = ∑ j : Fin nFft, ((w j * xp (m.1 * hopOf nFft hop + j.1 - nFft / 2) : ℝ) : ℂ) *
        Complex.exp (-(2 * Real.pi * Complex.I * (j.1 * k) / nFft))) ∧
    ∀ m : ℕ, m < stftFrames nFft (hopOf nFft hop) n ↔
      m * hopOf nFft hop + nFft ≤ n + 2 * (nFft / 2) := by
  unfold stftForward at hZ
  dsimp only at hZ
  split at hZ
  · cases hZ
  rename_i hc
  push Not at hc
  obtain ⟨hn, hh⟩ := hc
  cases hZ
  constructor
  · refine ⟨fun t => if t < 0 then (if h : (-t).toNat < n then x ⟨(-t).toNat, h⟩ else 0)
      else if t < n then (if h : t.toNat < n then x ⟨t.toNat, h⟩ else 0)
      else (if h : (2 * ((n : ℤ) - 1) - t).toNat < n then x ⟨(2 * ((n : ℤ) - 1) - t).toNat, h⟩ else 0),
      fun i => ?_, fun t ht => ⟨?_, ?_⟩, fun m k => ?_⟩
    · have h1 : ¬ ((i.1 : ℤ) < 0) := by omega
      have h2 : (i.1 : ℤ) < n := by have := i.2; omega
      simp [h1, h2]
    · rcases Nat.eq_zero_or_pos t with rfl | h0
      · simp
      · have h1 : (-(t : ℤ)) < 0 := by omega
        have h2 : ¬ ((t : ℤ) < 0) := by omega
        have h3 : (t : ℤ) < n := by omega
        simp only [h1, h2, h3, if_true, if_false, neg_neg]
    · rcases Nat.eq_zero_or_pos t with rfl | h0
      · simp
      · have h1 : ¬ ((n : ℤ) - 1 + t < 0) := by omega
        have h2 : ¬ ((n : ℤ) - 1 + t < n) := by omega
        have h3 : ¬ ((n : ℤ) - 1 - t < 0) := by omega
        have h4 : ((n : ℤ) - 1 - t < n) := by omega
        have e : (2 * ((n : ℤ) - 1) - (n - 1 + t)) = n - 1 - t := by ring
        simp only [h1, h2, h3, h4, if_true, if_false, e]
    · beta_reduce
      rw [rfft_eq _ _ _ le_rfl]
      refine Finset.sum_congr rfl fun j _ => ?_
      have hm : m.1 * hopOf nFft hop + nFft ≤ n + 2 * (nFft / 2) := by
        have := m.2
        unfold stftFrames at this
        have h2 : m.1 ≤ (n + 2 * (nFft / 2) - nFft) / hopOf nFft hop := by omega
        have := (Nat.le_div_iff_mul_le (Nat.pos_of_ne_zero hh)).1 h2
        omega
      have hj := j.2
      congr 3
      obtain ⟨a, ha⟩ : ∃ a, a = m.1 * hopOf nFft hop := ⟨_, rfl⟩
      rw [← ha] at hm ⊢
      have key : ∀ t : ℤ, t = (a : ℤ) + j.1 - nFft / 2 →
          (if hi : reflectIdx n (nFft / 2) (a + j.1) < n then x ⟨reflectIdx n (nFft / 2) (a + j.1), hi⟩ else 0) =
          if t < 0 then (if h : (-t).toNat < n then x ⟨(-t).toNat, h⟩ else 0)
          else if t < n then (if h : t.toNat < n then x ⟨t.toNat, h⟩ else 0)
          else (if h : (2 * ((n : ℤ) - 1) - t).toNat < n then x ⟨(2 * ((n : ℤ) - 1) - t).toNat, h⟩ else 0) := by
        intro t ht
        have same : ∀ p q : ℕ, p = q →
            (if h : p < n then x ⟨p, h⟩ else 0) = if h : q < n then x ⟨q, h⟩ else 0 := by
          rintro p q rfl; rfl
        by_cases c1 : t < 0
        · rw [if_pos c1]
          exact same _ _ (by unfold reflectIdx; rw [if_pos (by omega)]; omega)
        · rw [if_neg c1]
          by_cases c2 : t < n
          · rw [if_pos c2]
            exact same _ _ (by unfold reflectIdx; rw [if_neg (by omega), if_pos (by omega)]; omega)
          · rw [if_neg c2]
            exact same _ _ (by unfold reflectIdx; rw [if_neg (by omega), if_neg (by omega)]; omega)
      exact key _ (by rw [ha]; push_cast; ring)
  · intro m
    unfold stftFrames
    constructor
    · intro h
      have h2 : m ≤ (n + 2 * (nFft / 2) - nFft) / hopOf nFft hop := by omega
      have := (Nat.le_div_iff_mul_le (Nat.pos_of_ne_zero hh)).1 h2
      omega
    · intro h
      have := (Nat.le_div_iff_mul_le (Nat.pos_of_ne_zero hh)).2
        (show m * hopOf nFft hop ≤ n + 2 * (nFft / 2) - nFft by omega)
      omega

/-- A signal of ten samples is accepted (frames of four samples, hop two). -/
example : ∃ Z, stftForward 4 (some 2) (hann 4) (fun i : Fin 10 => (i.1 : ℝ)) = .ok Z ∧ stftFrames 4 2 10 = 6 :=
  ((stft_accepts 4 (some 2) (hann 4) (fun i : Fin 10 => (i.1 : ℝ))).1 ⟨by norm_num, by decide⟩).imp
    fun _ h => ⟨h, by decide⟩

/-- C91, what holds: with the default window and any hop of at most 99.8 % of the frame, `STFT.inv` accepts every spectrogram
of at least one frame. -/
theorem stft_hop_invertible_partial (nFft : ℕ) (hop : Option ℕ) (hh0 : 0 < hopOf nFft hop)
    (hh : 500 * hopOf nFft hop ≤ 499 * nFft) {frames : ℕ} (hfr : 0 < frames) (Z : Fin frames → ℕ → ℂ) :
    ∃ y, stftInv nFft hop (hann nFft) Z = .ok y := by
  set h := hopOf nFft hop with hhdef
  unfold stftInv
  dsimp only
  rw [if_neg (by rw [← hhdef]; omega), if_pos]
  · exact ⟨_, rfl⟩
  intro i
  have hi : i.1 < nFft + h * (frames - 1) - 2 * (nFft / 2) := i.2
  set q := nFft / 2 + i.1 with hq
  have hex : ∃ m, 2 * q ≤ nFft + h + 2 * (m * h) := by
    refine ⟨q, ?_⟩
    have : q ≤ q * h := Nat.le_mul_of_pos_right q hh0
    omega
  classical
  set m := Nat.find hex with hm
  have hm1 : 2 * q ≤ nFft + h + 2 * (m * h) := Nat.find_spec hex
  have hmf : m ≤ frames - 1 := by
    refine Nat.find_min' hex ?_
    rw [mul_comm (frames - 1) h]
    omega
  have hm2 : nFft + 2 * (m * h) ≤ 2 * q + h := by
    rcases Nat.eq_zero_or_pos m with h0 | h0
    · rw [h0]; omega
    · have := Nat.find_min hex (m := m - 1) (by omega)
      push Not at this
      have e : m * h = (m - 1) * h + h := by
        conv_lhs => rw [show m = (m - 1) + 1 by omega, add_mul, one_mul]
      omega
  have hnonneg : ∀ m' : Fin frames, 0 ≤ (if hi : m'.1 * h ≤ q ∧ q - m'.1 * h < nFft then
      hann nFft ⟨q - m'.1 * h, hi.2⟩ ^ 2 else 0) := fun m' => by
    split_ifs
    · positivity
    · exact le_rfl
  have hterm : ((1 / 500) ^ 4 : ℝ) ≤ (if hi : m * h ≤ q ∧ q - m * h < nFft then
      hann nFft ⟨q - m * h, hi.2⟩ ^ 2 else 0) := by
    rw [dif_pos ⟨by omega, by omega⟩]
    unfold hann
    have hN : (0 : ℝ) < nFft := by exact_mod_cast (by omega : 0 < nFft)
    have hj1 : (nFft : ℝ) - h ≤ 2 * ((q - m * h : ℕ) : ℝ) := by
      have : nFft ≤ 2 * (q - m * h) + h := by omega
      have : (nFft : ℝ) ≤ 2 * ((q - m * h : ℕ) : ℝ) + h := by exact_mod_cast this
      linarith
    have hj2 : 2 * ((q - m * h : ℕ) : ℝ) ≤ nFft + h := by exact_mod_cast (by omega)
    have hr : (1 / 500 : ℝ) ≤ ((nFft : ℝ) - h) / nFft := by
      rw [le_div_iff₀ hN]
      have : (500 * h : ℝ) ≤ 499 * nFft := by exact_mod_cast hh
      linarith
    have hr1 : ((nFft : ℝ) - h) / nFft ≤ 1 := by
      rw [div_le_one hN]
      have : (0 : ℝ) ≤ h := Nat.cast_nonneg _
      linarith
    set r : ℝ := ((nFft : ℝ) - h) / nFft with hrd
    set t : ℝ := 2 * Real.pi * ((q - m * h : ℕ) : ℝ) / nFft with ht
    have hrN : r * nFft = nFft - h := by rw [hrd]; field_simp
    have ht1 : Real.pi * r ≤ t := by
      rw [ht, le_div_iff₀ hN, mul_assoc, hrN]
      nlinarith [Real.pi_pos]
    have ht2 : t ≤ 2 * Real.pi - Real.pi * r := by
      rw [ht, div_le_iff₀ hN, sub_mul, mul_assoc Real.pi r, hrN]
      nlinarith [Real.pi_pos]
    have hcos : Real.cos t ≤ Real.cos (Real.pi * r) := by
      have hpr : Real.pi * r ≤ Real.pi := by nlinarith [Real.pi_pos]
      rcases le_total t Real.pi with h1 | h1
      · exact Real.cos_le_cos_of_nonneg_of_le_pi (by have := Real.pi_pos; positivity) h1 ht1
      · rw [← Real.cos_two_pi_sub t]
        exact Real.cos_le_cos_of_nonneg_of_le_pi (by have := Real.pi_pos; positivity) (by linarith) (by linarith)
    have hsin : r ≤ Real.sin (Real.pi * r / 2) := by
      have := Real.mul_le_sin (x := Real.pi * r / 2) (by have := Real.pi_pos; positivity)
        (by nlinarith [Real.pi_pos])
      have e : 2 / Real.pi * (Real.pi * r / 2) = r := by field_simp
      rwa [e] at this
    have hdbl : Real.cos (Real.pi * r) = 1 - 2 * Real.sin (Real.pi * r / 2) ^ 2 := by
      rw [show Real.pi * r = 2 * (Real.pi * r / 2) by ring, Real.cos_two_mul, Real.cos_sq',
        show 2 * (Real.pi * r / 2) / 2 = Real.pi * r / 2 by ring]
      ring
    have h1 : (1 / 500 : ℝ) ^ 2 ≤ 0.5 - 0.5 * Real.cos t := by
      have h2 : (1 / 500 : ℝ) ≤ Real.sin (Real.pi * r / 2) := hr.trans hsin
      have h3 := pow_le_pow_left₀ (by norm_num) h2 2
      linarith
    have h4 := pow_le_pow_left₀ (by norm_num) h1 2
    calc ((1 / 500) ^ 4 : ℝ) = ((1 / 500) ^ 2) ^ 2 := by norm_num
      _ ≤ _ := h4
  have hsum : ((1 / 500) ^ 4 : ℝ) ≤ ∑ m' : Fin frames, (if hi : m'.1 * h ≤ q ∧ q - m'.1 * h < nFft then
      hann nFft ⟨q - m'.1 * h, hi.2⟩ ^ 2 else 0) :=
    hterm.trans (Finset.single_le_sum (f := fun m' : Fin frames =>
      (if hi : m'.1 * h ≤ q ∧ q - m'.1 * h < nFft then
        hann nFft ⟨q - m'.1 * h, hi.2⟩ ^ 2 else 0)) (fun m' _ => hnonneg m')
      (Finset.mem_univ (⟨m, by omega⟩ : Fin frames)))
  have hsum' := hsum.trans (le_abs_self _)
  refine lt_of_lt_of_le ?_ hsum'
  norm_num

/-- C91, what holds: the whole round trip for every hop of at most 99.8 % of the frame. -/
theorem stft_hop_round_trip_partial (nFft h : ℕ) (hh0 : 0 < h) (hh : 500 * h ≤ 499 * nFft) {n : ℕ} (x : Fin n → ℝ)
    (hn : nFft / 2 < n) :
    ∃ Z y, stftForward nFft (some h) (hann nFft) x = .ok Z ∧ stftInv nFft (some h) (hann nFft) Z = .ok y ∧
      ∀ i, ∃ hi : i.1 < n, y i = x ⟨i, hi⟩ := by
  obtain ⟨Z, hZ⟩ := (stft_accepts nFft (some h) (hann nFft) x).1 ⟨hn, hh0⟩
  obtain ⟨y, hy⟩ := stft_hop_invertible_partial nFft (some h) hh0 hh (Nat.add_pos_left one_pos _) Z
  exact ⟨Z, y, hZ, hy, fun i => stft_round_trip nFft (some h) _ x (by omega) Z hZ y hy i⟩

/-- A frame of 512 and a hop of 500. -/
example (x : Fin 16000 → ℝ) : ∃ Z, stftForward 512 (some 500) (hann 512) x = .ok Z :=
  (stft_hop_round_trip_partial 512 500 (by norm_num) (by norm_num) x (by norm_num)).imp fun _ h => h.choose_spec.1

/-- C91, false: with the default window and a hop within one part in 1800 of the frame (for instance `n_fft - 1` from `n_fft = 1800`
on), the inverse raises `RuntimeError` for every spectrogram of two frames or more. -/
theorem stft_large_hop_violated (nFft h : ℕ) (hh0 : 0 < h) (hle : h ≤ nFft) (hh : 1800 * (nFft - h) ≤ nFft) {frames : ℕ}
    (hfr : 2 ≤ frames) (Z : Fin frames → ℕ → ℂ) :
    stftInv nFft (some h) (hann nFft) Z = .error .runtimeError := by
  unfold stftInv
  dsimp only
  rw [if_neg (by show ¬ (frames = 0 ∨ h = 0 ∨ nFft < h); omega), if_neg]
  intro hall
  have hle' : h ≤ h * (frames - 1) := Nat.le_mul_of_pos_right _ (by omega)
  have h' := hall ⟨h - nFft / 2, by
    show h - nFft / 2 < nFft + h * (frames - 1) - 2 * (nFft / 2); omega⟩
  have e : nFft / 2 + (h - nFft / 2) = h := by omega
  have hN : (0 : ℝ) < nFft := by exact_mod_cast (by omega : 0 < nFft)
  have hz : ∀ m : Fin frames, (if hi : m.1 * h ≤ h ∧ h - m.1 * h < nFft then
      hann nFft ⟨h - m.1 * h, hi.2⟩ ^ 2 else 0) ≤ if m.1 = 0 then (Real.pi / 1800) ^ 4 else 0 := by
    intro m
    split_ifs with hi h0 h0
    · have e1 : h - m.1 * h = h := by rw [h0]; omega
      simp only [hann, e1]
      have hc : (0.5 : ℝ) - 0.5 * Real.cos (2 * Real.pi * h / nFft) = Real.sin (Real.pi * (nFft - h) / nFft) ^ 2 := by
        rw [Real.sin_sq_eq_half_sub]
        have : 2 * (Real.pi * (nFft - h) / nFft) = 2 * Real.pi - 2 * Real.pi * h / nFft := by field_simp
        rw [this, Real.cos_two_pi_sub]
        ring
      have hr : ((nFft : ℝ) - h) / nFft ≤ 1 / 1800 := by
        rw [div_le_div_iff₀ hN (by norm_num)]
        have : (1800 * ((nFft - h : ℕ) : ℝ)) ≤ nFft := by exact_mod_cast hh
        rw [Nat.cast_sub hle] at this
        linarith
      have hr0 : 0 ≤ ((nFft : ℝ) - h) / nFft := by
        have : (h : ℝ) ≤ nFft := by exact_mod_cast hle
        exact div_nonneg (by linarith) hN.le
      have hs1 : 0 ≤ Real.pi * (nFft - h) / nFft := by rw [mul_div_assoc]; have := Real.pi_pos; positivity
      have hs2 : Real.pi * (nFft - h) / nFft ≤ Real.pi / 1800 := by
        rw [mul_div_assoc]; nlinarith [Real.pi_pos]
      have hs3 : Real.sin (Real.pi * (nFft - h) / nFft) ≤ Real.pi / 1800 := (Real.sin_le hs1).trans hs2
      have hs4 : 0 ≤ Real.sin (Real.pi * (nFft - h) / nFft) :=
        Real.sin_nonneg_of_nonneg_of_le_pi hs1 (hs2.trans (by have := Real.pi_pos; linarith))
      rw [hc, ← pow_mul]
      exact pow_le_pow_left₀ hs4 hs3 4
    · have : 1 * h ≤ m.1 * h := Nat.mul_le_mul_right _ (by omega)
      have e1 : h - m.1 * h = 0 := by omega
      simp [hann, e1]
    · positivity
    · exact le_rfl
  have hnn : ∀ m : Fin frames, 0 ≤ (if hi : m.1 * h ≤ h ∧ h - m.1 * h < nFft then
      hann nFft ⟨h - m.1 * h, hi.2⟩ ^ 2 else 0) := fun m => by
    split_ifs
    · positivity
    · exact le_rfl
  simp only [hopOf, Option.getD_some, e] at h'
  rw [abs_of_nonneg (Finset.sum_nonneg fun m _ => hnn m)] at h'
  have h2 := h'.trans_le (Finset.sum_le_sum fun m _ => hz m)
  have h3 : (∑ m : Fin frames, if m.1 = 0 then (Real.pi / 1800) ^ 4 else 0) = (Real.pi / 1800) ^ 4 := by
    have : ∀ m : Fin frames, (m.1 = 0) = (m = ⟨0, by omega⟩) := fun m => by simp [Fin.ext_iff]
    simp only [this, Finset.sum_ite_eq', Finset.mem_univ, if_true]
  rw [h3] at h2
  have h4 : (Real.pi / 1800) ^ 4 ≤ (3.15 / 1800 : ℝ) ^ 4 :=
    pow_le_pow_left₀ (by have := Real.pi_pos; positivity) (by have := Real.pi_lt_d2; linarith) 4
  have h5 := h2.trans_le h4
  norm_num at h5

/-- Hop `n_fft - 1` with a frame of 2048. -/
example (Z : Fin 10 → ℕ → ℂ) : stftInv 2048 (some 2047) (hann 2048) Z = .error .runtimeError :=
  stft_large_hop_violated 2048 2047 (by norm_num) (by norm_num) (by norm_num) (by norm_num) Z

/-- C91, false: with the default window and a hop of a whole frame, the inverse raises `RuntimeError`
for every spectrogram of two frames or more (a Hann window starts with a zero). -/
theorem stft_full_hop_violated (nFft : ℕ) (hf : 0 < nFft) {frames : ℕ} (hfr : 2 ≤ frames)
    (Z : Fin frames → ℕ → ℂ) :
    stftInv nFft (some nFft) (hann nFft) Z = .error .runtimeError := by
  unfold stftInv
  dsimp only
  rw [if_neg (by show ¬ (frames = 0 ∨ nFft = 0 ∨ nFft < nFft); omega), if_neg]
  intro hall
  have hle : nFft + nFft ≤ nFft + nFft * (frames - 1) := by
    have : nFft * 1 ≤ nFft * (frames - 1) := Nat.mul_le_mul_left _ (by omega)
    omega
  have h := hall ⟨nFft - nFft / 2, by
    show nFft - nFft / 2 < nFft + nFft * (frames - 1) - 2 * (nFft / 2); omega⟩
  have e : nFft / 2 + (nFft - nFft / 2) = nFft := by omega
  have hz : ∀ m : Fin frames, (if hi : m.1 * nFft ≤ nFft ∧ nFft - m.1 * nFft < nFft then
      hann nFft ⟨nFft - m.1 * nFft, hi.2⟩ ^ 2 else 0) = 0 := by
    intro m
    split_ifs with hi
    · have hz : nFft - m.1 * nFft = 0 := by
        rcases Nat.eq_zero_or_pos m.1 with h0 | h0
        · rw [h0] at hi; omega
        · have : 1 * nFft ≤ m.1 * nFft := Nat.mul_le_mul_right _ h0
          omega
      simp [hann, hz]
    · rfl
  simp only [hopOf, Option.getD_some, e] at h
  rw [Finset.sum_eq_zero fun m _ => hz m] at h
  norm_num at h

/-- Two frames of four samples. -/
example : stftInv 4 (some 4) (hann 4) (fun _ _ => 1 : Fin 2 → ℕ → ℂ) = .error .runtimeError :=
  stft_full_hop_violated 4 (by norm_num) le_rfl _

/-! ## C54: how much of the output is padding -/

/-- C54: for an even frame length the inverse STFT of a separator that keeps the number of frames covers
the largest multiple of the hop; so the last `n % hop` samples of every output are zero, whatever
the separator does. -/
theorem separator_tail_zero (nFft h n : ℕ) (he : nFft % 2 = 0) (hh : 0 < h)
    (y : Fin (istftLen nFft h (stftFrames nFft h n)) → ℝ) :
    istftLen nFft h (stftFrames nFft h n) = n - n % h ∧
    ∀ i, n - n % h ≤ i → i < n → (fixLength (List.ofFn y) n)[i]? = some 0 := by
  have hlen : istftLen nFft h (stftFrames nFft h n) = n - n % h := by
    unfold istftLen stftFrames
    have e2 : n + 2 * (nFft / 2) - nFft = n := by omega
    rw [e2]
    have e : 1 + n / h - 1 = n / h := Nat.add_sub_cancel_left _ _
    rw [e]
    have := Nat.div_add_mod n h
    omega
  refine ⟨hlen, fun i h1 h2 => ?_⟩
  rw [(fixLength_spec _ n).2 i h2, List.getElem?_eq_none (by rw [List.length_ofFn, hlen]; exact h1)]
  rfl

/-- 1000 samples, hop 128: the last 104 samples are zero. -/
example (y) : (fixLength (List.ofFn (n := istftLen 512 128 (stftFrames 512 128 1000)) y) 1000)[950]? = some 0 :=
  (separator_tail_zero 512 128 1000 (by norm_num) (by norm_num) y).2 950 (by norm_num) (by norm_num)

/-- C54: the truncation branch of `BSSSeparator.forward` is never taken by a separator that keeps the
number of frames. -/
theorem separator_never_truncates (nFft h n : ℕ) (hn : nFft / 2 < n) (hh : 0 < h)
    (y : Fin (istftLen nFft h (stftFrames nFft h n)) → ℝ) :
    fixLength (List.ofFn y) n =
      List.ofFn y ++ List.replicate (n - istftLen nFft h (stftFrames nFft h n)) 0 := by
  have := istft_le nFft h n hn hh
  unfold fixLength
  rw [List.length_ofFn]
  split_ifs with h1 h2
  · rfl
  · omega
  · rw [show n - istftLen nFft h (stftFrames nFft h n) = 0 by omega]; simp

example : istftLen 8 2 (stftFrames 8 2 11) = 10 := by decide

end Torchiva.Props
