import Verif.Props.Stft

/-!
# Exactly which hops can be inverted with the default window (C91)

`torch.istft` rejects a spectrogram when the overlap-added squared window is not above `1e-11`.  With the default window the
smallest value is taken in the middle of the overlap of two consecutive frames.
-/

namespace Torchiva.Props

open Real

private theorem hann_sin (N : ℕ) (hN : 0 < N) (j : Fin N) : hann N j ^ 2 = sin (π * j / N) ^ 4 := by
  have h : hann N j = sin (π * j / N) ^ 2 := by
    unfold hann
    rw [sin_sq_eq_half_sub, show 2 * (π * (j : ℝ) / N) = 2 * π * j / N by ring]
    ring
  rw [h, ← pow_mul]

private theorem sin_rev (N a : ℕ) (hN : 0 < N) (ha : a ≤ N) : sin (π * (N - a : ℕ) / N) = sin (π * a / N) := by
  have hN' : (N : ℝ) ≠ 0 := by exact_mod_cast hN.ne'
  rw [Nat.cast_sub ha, show π * ((N : ℝ) - a) / N = π - π * a / N by field_simp, sin_pi_sub]

private theorem sin4_sum (s t : ℝ) :
    sin ((s + t) / 2) ^ 4 + sin ((s - t) / 2) ^ 4 = (3 - 4 * cos s * cos t + cos (2 * s) * (2 * cos t ^ 2 - 1)) / 4 := by
  have e1 : sin ((s + t) / 2) ^ 4 = ((1 - cos (s + t)) / 2) ^ 2 := by
    rw [show (4 : ℕ) = 2 * 2 from rfl, pow_mul, sin_sq_eq_half_sub, show 2 * ((s + t) / 2) = s + t by ring]
    ring
  have e2 : sin ((s - t) / 2) ^ 4 = ((1 - cos (s - t)) / 2) ^ 2 := by
    rw [show (4 : ℕ) = 2 * 2 from rfl, pow_mul, sin_sq_eq_half_sub, show 2 * ((s - t) / 2) = s - t by ring]
    ring
  rw [e1, e2, cos_add, cos_sub, cos_two_mul]
  have h1 := sin_sq_add_cos_sq s
  have h2 := sin_sq_add_cos_sq t
  have h3 : sin s ^ 2 * sin t ^ 2 = (1 - cos s ^ 2) * (1 - cos t ^ 2) := by
    rw [show sin s ^ 2 = 1 - cos s ^ 2 by linarith, show sin t ^ 2 = 1 - cos t ^ 2 by linarith]
  nlinarith [h3]

/-- Among two points with a given sum, the sum of the fourth powers is smaller when they are closer. -/
private theorem sin4_closer (s t u : ℝ) (hs0 : 0 ≤ s) (hs : s ≤ π / 4) (ht : 0 ≤ t) (htu : t ≤ u) (hu : u ≤ π) :
    sin ((s + t) / 2) ^ 4 + sin ((s - t) / 2) ^ 4 ≤ sin ((s + u) / 2) ^ 4 + sin ((s - u) / 2) ^ 4 := by
  rw [sin4_sum, sin4_sum]
  have hpi := pi_pos
  have hc : cos u ≤ cos t := cos_le_cos_of_nonneg_of_le_pi ht hu htu
  have h2s : cos (2 * s) ≤ cos s := cos_le_cos_of_nonneg_of_le_pi hs0 (by linarith) (by linarith)
  have h2s0 : 0 ≤ cos (2 * s) := cos_nonneg_of_neg_pi_div_two_le_of_le (by linarith) (by linarith)
  have ht1 := cos_le_one t
  have hu1 := cos_le_one u
  have key : 0 ≤ (cos t - cos u) * (4 * cos s - 2 * cos (2 * s) * (cos t + cos u)) := by
    apply mul_nonneg (by linarith)
    have : cos (2 * s) * (cos t + cos u) ≤ cos (2 * s) * 2 := mul_le_mul_of_nonneg_left (by linarith) h2s0
    linarith
  nlinarith [key]

/-- Two positions of the overlap of `d` samples, at distance `a` and `b` from the ends. -/
private theorem overlap_min (N d a b : ℕ) (hN : 0 < N) (hd : 500 * d < N) (hab : a + b = d) :
    sin (π * (d / 2 : ℕ) / N) ^ 4 + sin (π * ((d + 1) / 2 : ℕ) / N) ^ 4 ≤ sin (π * a / N) ^ 4 + sin (π * b / N) ^ 4 := by
  wlog hle : b ≤ a generalizing a b
  · have := this b a (by omega) (by omega)
    linarith
  have hN' : (0 : ℝ) < N := by exact_mod_cast hN
  have hpi := pi_pos
  obtain ⟨c, hc⟩ : ∃ c, c = d / 2 := ⟨_, rfl⟩
  obtain ⟨c', hc'⟩ : ∃ c', c' = (d + 1) / 2 := ⟨_, rfl⟩
  have hcc : c + c' = d := by omega
  have h1 : c ≤ c' := by omega
  have h2 : c' + b ≤ a + c := by omega
  rw [← hc, ← hc']
  have hd' : (d : ℝ) ≤ N / 500 := by
    have : (500 * d : ℝ) < N := by exact_mod_cast hd
    linarith
  have hcR : (c : ℝ) + c' = d := by exact_mod_cast hcc
  have habR : (a : ℝ) + b = d := by exact_mod_cast hab
  have h1R : (c : ℝ) ≤ c' := by exact_mod_cast h1
  have h2R : (c' : ℝ) + b ≤ a + c := by exact_mod_cast h2
  have hb0 : (0 : ℝ) ≤ b := Nat.cast_nonneg _
  have hd0 : (0 : ℝ) ≤ d := Nat.cast_nonneg _
  have hdn : (d : ℝ) / N ≤ 1 / 500 := by rw [div_le_iff₀ hN']; linarith
  have hs : π * d / N ≤ π / 4 := by
    rw [mul_div_assoc]
    nlinarith
  have hs0 : 0 ≤ π * d / N := by positivity
  have ht : 0 ≤ π * (c' - c) / N := by
    have : (0 : ℝ) ≤ c' - c := by linarith
    positivity
  have htu : π * (c' - c) / N ≤ π * (a - b) / N := by
    apply div_le_div_of_nonneg_right _ hN'.le
    exact mul_le_mul_of_nonneg_left (by linarith) hpi.le
  have hu : π * (a - b) / N ≤ π := by
    have : π * (a - b) / N ≤ π * d / N := by
      apply div_le_div_of_nonneg_right _ hN'.le
      exact mul_le_mul_of_nonneg_left (by linarith) hpi.le
    linarith
  have := sin4_closer (π * d / N) (π * (c' - c) / N) (π * (a - b) / N) hs0 hs ht htu hu
  rw [show (π * d / N + π * (c' - c) / N) / 2 = π * c' / N by rw [← hcR]; ring,
    show (π * d / N - π * (c' - c) / N) / 2 = π * c / N by rw [← hcR]; ring,
    show (π * d / N + π * (a - b) / N) / 2 = π * a / N by rw [← habR]; ring,
    show (π * d / N - π * (a - b) / N) / 2 = π * b / N by rw [← habR]; ring] at this
  linarith

/-- Outside the overlaps the window is larger than in the middle of an overlap. -/
private theorem outside_min (N d j : ℕ) (hN : 0 < N) (hd : 500 * d < N) (h1 : d ≤ j) (h2 : j + d ≤ N) :
    sin (π * (d / 2 : ℕ) / N) ^ 4 + sin (π * ((d + 1) / 2 : ℕ) / N) ^ 4 ≤ sin (π * j / N) ^ 4 := by
  have h := overlap_min N d d 0 hN hd (by omega)
  refine h.trans ?_
  simp only [Nat.cast_zero, mul_zero, zero_div, sin_zero]
  have hN' : (0 : ℝ) < N := by exact_mod_cast hN
  have hpi := pi_pos
  wlog hle : 2 * j ≤ N generalizing j
  · have := this (N - j) (by omega) (by omega) (by omega)
    rwa [sin_rev N j hN (by omega)] at this
  have hmono : sin (π * d / N) ≤ sin (π * j / N) := by
    apply sin_le_sin_of_le_of_le_pi_div_two
    · have : 0 ≤ π * d / N := by positivity
      linarith
    · rw [div_le_iff₀ hN']
      have : (2 * j : ℝ) ≤ N := by exact_mod_cast hle
      nlinarith
    · apply div_le_div_of_nonneg_right _ hN'.le
      exact mul_le_mul_of_nonneg_left (by exact_mod_cast h1) hpi.le
  have h0 : 0 ≤ sin (π * d / N) := by
    apply sin_nonneg_of_nonneg_of_le_pi (by positivity)
    rw [div_le_iff₀ hN']
    have : (d : ℝ) ≤ N := by exact_mod_cast (by omega : d ≤ N)
    nlinarith
  have := pow_le_pow_left₀ h0 hmono 4
  simpa using this

/-- The criterion holds for hops up to 99.8 % of the frame. -/
private theorem criterion_small (N h : ℕ) (hh0 : 0 < h) (hle : h ≤ N) (hh : 500 * h ≤ 499 * N) :
    1e-11 < sin (π * ((N - h) / 2 : ℕ) / N) ^ 4 + sin (π * ((N - h + 1) / 2 : ℕ) / N) ^ 4 := by
  have hN : 0 < N := by omega
  have hN' : (0 : ℝ) < N := by exact_mod_cast hN
  obtain ⟨c', hc'⟩ : ∃ c', c' = (N - h + 1) / 2 := ⟨_, rfl⟩
  rw [← hc']
  have h1 : N ≤ 1000 * c' := by omega
  have h2 : 2 * c' ≤ N := by omega
  have h1R : (N : ℝ) ≤ 1000 * c' := by exact_mod_cast h1
  have h2R : (2 * c' : ℝ) ≤ N := by exact_mod_cast h2
  have hpi := pi_pos
  have hr1 : (1 / 1000 : ℝ) ≤ c' / N := by rw [le_div_iff₀ hN']; linarith
  have hr2 : (c' : ℝ) / N ≤ 1 / 2 := by rw [div_le_iff₀ hN']; linarith
  have hs : (1 / 500 : ℝ) ≤ sin (π * c' / N) := by
    have := mul_le_sin (x := π * c' / N) (by positivity) (by rw [mul_div_assoc]; nlinarith)
    have e : 2 / π * (π * c' / N) = 2 * (c' / N) := by field_simp
    rw [e] at this
    linarith
  have h4 := pow_le_pow_left₀ (by norm_num) hs 4
  have h5 : 0 ≤ sin (π * ((N - h) / 2 : ℕ) / N) ^ 4 := by positivity
  have h6 : (1e-11 : ℝ) < (1 / 500) ^ 4 := by norm_num
  linarith

/-- C91, exactly: with the default window and a hop of at most the frame, the inverse of a spectrogram of two frames or more is
computed if and only if the squared windows of two consecutive frames, added up in the middle of their overlap of
`n_fft - hop_length` samples, exceed `1e-11`; otherwise `STFT.inv` raises `RuntimeError`. -/
theorem stft_hop_iff (nFft h : ℕ) (hh0 : 0 < h) (hle : h ≤ nFft) {frames : ℕ} (hfr : 2 ≤ frames) (Z : Fin frames → ℕ → ℂ) :
    ((∃ y, stftInv nFft (some h) (hann nFft) Z = .ok y) ↔
      1e-11 < sin (π * ((nFft - h) / 2 : ℕ) / nFft) ^ 4 + sin (π * ((nFft - h + 1) / 2 : ℕ) / nFft) ^ 4) ∧
    (¬(∃ y, stftInv nFft (some h) (hann nFft) Z = .ok y) → stftInv nFft (some h) (hann nFft) Z = .error .runtimeError) := by
  constructor
  swap
  · intro hn
    unfold stftInv at hn ⊢
    dsimp only at hn ⊢
    split_ifs at hn ⊢ with h1 h2
    · rfl
    · exact absurd ⟨_, rfl⟩ hn
    · rfl
  by_cases hsmall : 500 * h ≤ 499 * nFft
  · exact ⟨fun _ => criterion_small nFft h hh0 hle hsmall,
      fun _ => stft_hop_invertible_partial nFft (some h) hh0 hsmall (by omega) Z⟩
  have hN : 0 < nFft := by omega
  obtain ⟨d, hd⟩ : ∃ d, d = nFft - h := ⟨_, rfl⟩
  have hdN : h + d = nFft := by omega
  have hd5 : 500 * d < nFft := by omega
  rw [← hd]
  have hlast : h ≤ h * (frames - 1) := Nat.le_mul_of_pos_right _ (by omega)
  -- the value of frame `m` at position `q`
  set term : ℕ → Fin frames → ℝ := fun q m => if hi : m.1 * h ≤ q ∧ q - m.1 * h < nFft then
      hann nFft ⟨q - m.1 * h, hi.2⟩ ^ 2 else 0 with hterm
  have hnn : ∀ q m, 0 ≤ term q m := fun q m => by
    simp only [hterm]
    split_ifs
    · positivity
    · exact le_rfl
  have hval : ∀ q (m : Fin frames) j, q = m.1 * h + j → j < nFft → term q m = sin (π * j / nFft) ^ 4 := by
    intro q m j hq hj
    simp only [hterm]
    rw [dif_pos ⟨by omega, by omega⟩, hann_sin nFft hN]
    congr 4
    have : q - m.1 * h = j := by omega
    simp [this]
  have hok : (∃ y, stftInv nFft (some h) (hann nFft) Z = .ok y) ↔
      ∀ i : Fin (istftLen nFft h frames), 1e-11 < ∑ m, term (nFft / 2 + i) m := by
    have habs : ∀ q, |∑ m, term q m| = ∑ m, term q m := fun q => abs_of_nonneg (Finset.sum_nonneg fun m _ => hnn q m)
    constructor
    · rintro ⟨y, hy⟩
      unfold stftInv at hy
      dsimp only at hy
      rw [if_neg (by show ¬ (frames = 0 ∨ h = 0 ∨ nFft < h); omega)] at hy
      split_ifs at hy with hall
      intro i
      have := hall i
      rw [← habs]
      exact this
    · intro hall
      unfold stftInv
      dsimp only
      rw [if_neg (by show ¬ (frames = 0 ∨ h = 0 ∨ nFft < h); omega), if_pos]
      · exact ⟨_, rfl⟩
      · intro i
        have := hall i
        rw [← habs] at this
        exact this
  rw [hok]
  constructor
  · intro hall
    have hi := hall ⟨h + d / 2 - nFft / 2, by
      show h + d / 2 - nFft / 2 < nFft + h * (frames - 1) - 2 * (nFft / 2)
      omega⟩
    dsimp only at hi
    rw [show nFft / 2 + (h + d / 2 - nFft / 2) = h + d / 2 by omega] at hi
    refine hi.trans_le (le_of_eq ?_)
    have h01 : (⟨0, by omega⟩ : Fin frames) ≠ ⟨1, by omega⟩ := by simp
    rw [← Finset.add_sum_erase _ _ (Finset.mem_univ (⟨1, by omega⟩ : Fin frames)),
      ← Finset.add_sum_erase _ _ (Finset.mem_erase.2 ⟨h01, Finset.mem_univ _⟩)]
    rw [hval (h + d / 2) ⟨1, by omega⟩ (d / 2) (by simp) (by omega), Finset.sum_eq_zero, add_zero]
    · congr 1
      by_cases hz : d = 0
      · simp only [hterm]
        rw [dif_neg (by simp; omega)]
        simp [hz]
      · rw [hval (h + d / 2) ⟨0, by omega⟩ (nFft - (d + 1) / 2) (by simp; omega) (by omega), sin_rev nFft _ hN (by omega)]
    · intro m hm
      simp only [Finset.mem_erase, Finset.mem_univ, and_true, ne_eq, Fin.ext_iff] at hm
      simp only [hterm]
      have h2 : 2 * h ≤ m.1 * h := Nat.mul_le_mul_right _ (by omega)
      exact dif_neg (by omega)
  · intro hcrit i
    have hd0 : d ≠ 0 := by
      rintro h0
      rw [h0] at hcrit
      norm_num at hcrit
    have hi : i.1 < nFft + h * (frames - 1) - 2 * (nFft / 2) := i.2
    obtain ⟨q, hq⟩ : ∃ q, q = nFft / 2 + i.1 := ⟨_, rfl⟩
    rw [← hq]
    refine hcrit.trans_le ?_
    have hex : ∃ m, 2 * q ≤ nFft + h + 2 * (m * h) := by
      refine ⟨q, ?_⟩
      have : q ≤ q * h := Nat.le_mul_of_pos_right q hh0
      omega
    classical
    set m := Nat.find hex with hm
    have hm1 : 2 * q ≤ nFft + h + 2 * (m * h) := Nat.find_spec hex
    have hmf : m ≤ frames - 1 := by
      refine Nat.find_min' hex ?_
      rw [mul_comm (frames - 1) h]
      omega
    have hm2 : nFft + 2 * (m * h) ≤ 2 * q + h := by
      rcases Nat.eq_zero_or_pos m with h0 | h0
      · rw [h0]; omega
      · have := Nat.find_min hex (m := m - 1) (by omega)
        push Not at this
        have e : m * h = (m - 1) * h + h := by
          conv_lhs => rw [show m = (m - 1) + 1 by omega, add_mul, one_mul]
        omega
    obtain ⟨j, hj⟩ : ∃ j, q = m * h + j := ⟨q - m * h, by omega⟩
    have hone : ∀ a : Fin frames, term q a ≤ ∑ m, term q m := fun a =>
      Finset.single_le_sum (fun m _ => hnn q m) (Finset.mem_univ a)
    have htwo : ∀ a b : Fin frames, a ≠ b → term q a + term q b ≤ ∑ m, term q m := fun a b hab => by
      rw [← Finset.sum_pair hab]
      exact Finset.sum_le_sum_of_subset_of_nonneg (Finset.subset_univ _) fun m _ _ => hnn q m
    rcases lt_or_ge j d with hjd | hjd
    · -- the previous frame overlaps
      have hm0 : m ≠ 0 := by
        rintro h0
        rw [h0] at hj
        omega
      have e : m * h = (m - 1) * h + h := by
        conv_lhs => rw [show m = (m - 1) + 1 by omega, add_mul, one_mul]
      refine le_trans ?_ (htwo ⟨m, by omega⟩ ⟨m - 1, by omega⟩ (by simp [Fin.ext_iff]; omega))
      rw [hval q ⟨m, by omega⟩ j hj (by omega),
        hval q ⟨m - 1, by omega⟩ (nFft - (d - j)) (by simp only; omega) (by omega), sin_rev nFft _ hN (by omega)]
      exact overlap_min nFft d j (d - j) hN hd5 (by omega)
    · rcases le_or_gt (j + d) nFft with hjn | hjn
      · refine (outside_min nFft d j hN hd5 hjd hjn).trans ?_
        rw [← hval q ⟨m, by omega⟩ j hj (by omega)]
        exact hone _
      · -- the next frame overlaps
        have hml : m ≠ frames - 1 := by
          rintro h0
          rw [h0, mul_comm] at hj
          omega
        have e : (m + 1) * h = m * h + h := by ring
        refine le_trans ?_ (htwo ⟨m, by omega⟩ ⟨m + 1, by omega⟩ (by simp [Fin.ext_iff]))
        have hjN : j < nFft := by omega
        have e1 := hval q ⟨m, by omega⟩ j hj hjN
        have e2 := hval q ⟨m + 1, by omega⟩ (j - h) (by simp only; omega) (by omega)
        have e3 := sin_rev nFft (nFft - j) hN (by omega)
        rw [show nFft - (nFft - j) = j by omega] at e3
        rw [e1, e2, e3]
        exact overlap_min nFft d (nFft - j) (j - h) hN hd5 (by omega)

/-- Frames of 1024 samples with hop 1022: the overlap has two samples, and the inverse exists. -/
example (Z : Fin 5 → ℕ → ℂ) : ∃ y, stftInv 1024 (some 1022) (hann 1024) Z = .ok y := by
  refine (stft_hop_iff 1024 1022 (by norm_num) (by norm_num) (by norm_num) Z).1.2 ?_
  have h := mul_le_sin (x := π * 1 / 1024) (by have := pi_pos; positivity) (by have := pi_pos; linarith)
  have e : 2 / π * (π * 1 / 1024) = 1 / 512 := by field_simp; norm_num
  rw [e] at h
  have h4 := pow_le_pow_left₀ (by norm_num) h 4
  norm_num at h4 ⊢
  linarith

/-- C91, exactly, for the round trip: a signal of more than half a frame, long enough for two frames, comes back from
`STFT(n_fft, hop_length)` followed by `inv` if and only if the hop meets the criterion of `stft_hop_iff`. -/
theorem stft_hop_round_trip_iff (nFft h : ℕ) (hh0 : 0 < h) (hle : h ≤ nFft) {n : ℕ} (x : Fin n → ℝ) (hn : nFft / 2 < n)
    (h2 : nFft + h ≤ n + 2 * (nFft / 2)) :
    (∃ Z y, stftForward nFft (some h) (hann nFft) x = .ok Z ∧ stftInv nFft (some h) (hann nFft) Z = .ok y ∧
      ∀ i, ∃ hi : i.1 < n, y i = x ⟨i, hi⟩) ↔
    1e-11 < sin (π * ((nFft - h) / 2 : ℕ) / nFft) ^ 4 + sin (π * ((nFft - h + 1) / 2 : ℕ) / nFft) ^ 4 := by
  have hfr : 2 ≤ stftFrames nFft (hopOf nFft (some h)) n := by
    show 2 ≤ stftFrames nFft h n
    unfold stftFrames
    have : 1 ≤ (n + 2 * (nFft / 2) - nFft) / h := (Nat.le_div_iff_mul_le hh0).2 (by omega)
    omega
  obtain ⟨Z, hZ⟩ := (stft_accepts nFft (some h) (hann nFft) x).1 ⟨hn, hh0⟩
  constructor
  · rintro ⟨Z', y, hZ', hy, _⟩
    exact (stft_hop_iff nFft h hh0 hle hfr Z').1.1 ⟨y, hy⟩
  · intro hc
    obtain ⟨y, hy⟩ := (stft_hop_iff nFft h hh0 hle hfr Z).1.2 hc
    exact ⟨Z, y, hZ, hy, fun i => stft_round_trip nFft (some h) _ x (by omega) Z hZ y hy i⟩

/-- One second of sound with frames of 512 and hop 511: the criterion decides. -/
example (x : Fin 16000 → ℝ) : (∃ Z y, stftForward 512 (some 511) (hann 512) x = .ok Z ∧
      stftInv 512 (some 511) (hann 512) Z = .ok y ∧ ∀ i, ∃ hi : i.1 < 16000, y i = x ⟨i, hi⟩) ↔
    1e-11 < sin (π * ((512 - 511) / 2 : ℕ) / (512 : ℕ)) ^ 4 + sin (π * ((512 - 511 + 1) / 2 : ℕ) / (512 : ℕ)) ^ 4 :=
  stft_hop_round_trip_iff 512 511 (by norm_num) (by norm_num) x (by norm_num) (by norm_num)

/-- C91: one frame can be inverted with every hop up to the frame (frames of at least two samples). -/
theorem stft_hop_one_frame (nFft h : ℕ) (hf : 2 ≤ nFft) (hh0 : 0 < h) (hle : h ≤ nFft) (Z : Fin 1 → ℕ → ℂ) :
    ∃ y, stftInv nFft (some h) (hann nFft) Z = .ok y := by
  unfold stftInv
  dsimp only
  rw [if_neg (by show ¬ (1 = 0 ∨ h = 0 ∨ nFft < h); omega), if_pos]
  · exact ⟨_, rfl⟩
  intro i
  have hi : i.1 < nFft + h * (1 - 1) - 2 * (nFft / 2) := i.2
  have hi0 : i.1 = 0 := by
    simp only [Nat.sub_self, Nat.mul_zero] at hi
    omega
  have hodd : nFft % 2 = 1 := by
    simp only [Nat.sub_self, Nat.mul_zero] at hi
    omega
  have hN' : (0 : ℝ) < nFft := by exact_mod_cast (by omega : 0 < nFft)
  rw [Fin.sum_univ_one, dif_pos ⟨by simp, by simp; omega⟩, hann_sin nFft (by omega)]
  rw [abs_of_nonneg (by positivity)]
  have e : nFft / 2 + i.1 - (0 : Fin 1).1 * hopOf nFft (some h) = nFft / 2 := by simp [hi0]
  simp only [e]
  have hp : (1 / 3 : ℝ) ≤ ((nFft / 2 : ℕ) : ℝ) / nFft := by
    rw [le_div_iff₀ hN']
    have : nFft ≤ 3 * (nFft / 2) := by omega
    have : (nFft : ℝ) ≤ 3 * ((nFft / 2 : ℕ) : ℝ) := by exact_mod_cast this
    linarith
  have hp2 : ((nFft / 2 : ℕ) : ℝ) / nFft ≤ 1 / 2 := by
    rw [div_le_iff₀ hN']
    have : 2 * (nFft / 2) ≤ nFft := by omega
    have : 2 * ((nFft / 2 : ℕ) : ℝ) ≤ (nFft : ℝ) := by exact_mod_cast this
    linarith
  have hpi := pi_pos
  have hs := mul_le_sin (x := π * ((nFft / 2 : ℕ) : ℝ) / nFft) (by positivity) (by rw [mul_div_assoc]; nlinarith)
  have e2 : 2 / π * (π * ((nFft / 2 : ℕ) : ℝ) / nFft) = 2 * (((nFft / 2 : ℕ) : ℝ) / nFft) := by field_simp
  rw [e2] at hs
  have hs2 : (2 / 3 : ℝ) ≤ sin (π * ((nFft / 2 : ℕ) : ℝ) / nFft) := by linarith
  have h4 := pow_le_pow_left₀ (by norm_num) hs2 4
  refine lt_of_lt_of_le ?_ h4
  norm_num

example (Z : Fin 1 → ℕ → ℂ) : ∃ y, stftInv 5 (some 5) (hann 5) Z = .ok y :=
  stft_hop_one_frame 5 5 (by norm_num) (by norm_num) (by norm_num) Z

end Torchiva.Props
