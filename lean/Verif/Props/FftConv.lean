import Verif.Model.FftConv
import Verif.Spec.FftConv
import Mathlib.RingTheory.RootsOfUnity.Complex
import Mathlib.Algebra.Field.GeomSum

/-! # C52: `fftconvolve` is linear convolution -/

namespace Torchiva.Props

open Torchiva Complex

/-- `exp(2πi a/n)` as a power of the primitive root. -/
theorem exp_pow (n a : ℕ) : exp (2 * Real.pi * I * a / n) = exp (2 * Real.pi * I / n) ^ a := by
  rw [← Complex.exp_nat_mul]; congr 1; ring

/-- Orthogonality: the sum over `k < n` of `exp(2πi k (m - s)/n)`. -/
theorem sum_exp (n m s : ℕ) (hm : m < n) (hs : s < n) :
    ∑ k : Fin n, exp (2 * Real.pi * I * (m * k.1) / n) * exp (-(2 * Real.pi * I * (s * k.1) / n)) =
      if s = m then (n : ℂ) else 0 := by
  have hn : n ≠ 0 := by omega
  have hz := Complex.isPrimitiveRoot_exp n hn
  set ζ := exp (2 * Real.pi * I / n) with hζ
  have hζ0 : ζ ≠ 0 := Complex.exp_ne_zero _
  have e : ∀ k : ℕ, exp (2 * Real.pi * I * (m * k) / n) * exp (-(2 * Real.pi * I * (s * k) / n)) =
      (ζ ^ m * (ζ ^ s)⁻¹) ^ k := by
    intro k
    have h1 := exp_pow n (m * k)
    have h2 := exp_pow n (s * k)
    push_cast at h1 h2
    rw [Complex.exp_neg, h1, h2, mul_pow, inv_pow, ← pow_mul, ← pow_mul]
  rw [Finset.sum_congr rfl fun k _ => e k.1, Fin.sum_univ_eq_sum_range (fun k => (ζ ^ m * (ζ ^ s)⁻¹) ^ k)]
  split_ifs with h
  · subst h
    rw [mul_inv_cancel₀ (pow_ne_zero _ hζ0)]
    simp
  · have hne : ζ ^ m * (ζ ^ s)⁻¹ ≠ 1 := by
      intro h1
      have h2 : ζ ^ m = ζ ^ s := by
        rw [mul_inv_eq_iff_eq_mul₀ (pow_ne_zero _ hζ0), one_mul] at h1; exact h1
      exact h (hz.pow_inj hm hs h2).symm
    rw [geom_sum_eq hne]
    have h3 : (ζ ^ m * (ζ ^ s)⁻¹) ^ n = 1 := by
      rw [mul_pow, inv_pow, ← pow_mul, ← pow_mul, mul_comm m, mul_comm s, pow_mul, pow_mul,
        hz.pow_eq_one]
      simp
    rw [h3]; simp

/-- Only the first `m` samples contribute to the padded transform. -/
theorem rfft_eq {m : ℕ} (x : Fin m → ℝ) (n k : ℕ) (hmn : m ≤ n) :
    rfft x n k = ∑ j : Fin m, (x j : ℂ) * exp (-(2 * Real.pi * I * (j.1 * k) / n)) := by
  unfold rfft
  have h := Fin.sum_univ_eq_sum_range (fun j => (if h : j < m then (x ⟨j, h⟩ : ℂ) else 0) *
    exp (-(2 * Real.pi * I * (j * k) / n))) n
  rw [h]
  have h2 : ∑ j : Fin m, (x j : ℂ) * exp (-(2 * Real.pi * I * (j.1 * k) / n)) =
      ∑ j : Fin m, (fun j : ℕ => (if h : j < m then (x ⟨j, h⟩ : ℂ) else 0) *
        exp (-(2 * Real.pi * I * (j * k) / n))) j.1 :=
    Finset.sum_congr rfl fun j _ => by simp
  rw [h2, Fin.sum_univ_eq_sum_range (fun j : ℕ => (if h : j < m then (x ⟨j, h⟩ : ℂ) else 0) *
        exp (-(2 * Real.pi * I * (j * k) / n)))]
  symm
  refine Finset.sum_subset (Finset.range_mono hmn) fun j _ hj => ?_
  rw [dif_neg (by simpa using hj), zero_mul]

/-- Hermitian symmetry of the transform of a real signal. -/
theorem rfft_herm {m : ℕ} (x : Fin m → ℝ) (n k : ℕ) (hk : k ≤ n) (hn : n ≠ 0) :
    star (rfft x n (n - k)) = rfft x n k := by
  unfold rfft
  rw [star_sum]
  refine Finset.sum_congr rfl fun j _ => ?_
  rw [star_mul']
  have hnC : (n : ℂ) ≠ 0 := by exact_mod_cast hn
  congr 1
  · split_ifs <;> simp
  · have e1 : star (exp (-(2 * Real.pi * I * (j.1 * ((n - k : ℕ) : ℂ)) / n))) =
        exp (2 * Real.pi * I * (j.1 * ((n - k : ℕ) : ℂ)) / n) := by
      show (starRingEnd ℂ) _ = _
      rw [← Complex.exp_conj]
      congr 1
      simp only [map_neg, map_div₀, map_mul, Complex.conj_ofReal, Complex.conj_I, map_natCast,
        map_ofNat]
      ring
    rw [e1, Nat.cast_sub hk]
    have : 2 * Real.pi * I * (j.1 * ((n : ℂ) - k)) / n =
        (j.1 : ℕ) * (2 * Real.pi * I) + -(2 * Real.pi * I * (j.1 * k) / n) := by
      field_simp; ring
    rw [this, Complex.exp_add, Complex.exp_nat_mul, Complex.exp_two_pi_mul_I, one_pow, one_mul]

theorem irfft_conv {n1 n2 : ℕ} (h1 : 0 < n1) (h2 : 0 < n2) (x1 : Fin n1 → ℝ) (x2 : Fin n2 → ℝ)
    (m : ℕ) (hm : m < n1 + n2 - 1) :
    irfft (fun k => rfft x1 (n1 + n2 - 1) k * rfft x2 (n1 + n2 - 1) k) (n1 + n2 - 1) m =
      Spec.linConv x1 x2 m := by
  set n := n1 + n2 - 1 with hn
  have hn0 : n ≠ 0 := by omega
  have hnC : (n : ℂ) ≠ 0 := by exact_mod_cast hn0
  set Z : ℕ → ℂ := fun k => rfft x1 n k * rfft x2 n k with hZ
  have herm : ∀ k ≤ n, star (Z (n - k)) = Z k := fun k hk => by
    simp only [hZ]
    rw [star_mul', rfft_herm _ _ _ hk hn0, rfft_herm _ _ _ hk hn0]
  have hfull : ∀ k : Fin n, (if k.1 = 0 ∨ 2 * k.1 = n then ((Z k.1).re : ℂ)
      else if 2 * k.1 < n then Z k.1 else star (Z (n - k.1))) = Z k.1 := by
    intro k
    split_ifs with a b
    · have hreal : star (Z k.1) = Z k.1 := by
        rcases a with a | a
        · have := herm n le_rfl
          rw [Nat.sub_self] at this
          have e0 : Z n = Z 0 := by
            simp only [hZ]
            have : ∀ {m : ℕ} (x : Fin m → ℝ), rfft x n n = rfft x n 0 := by
              intro m x
              unfold rfft
              refine Finset.sum_congr rfl fun j _ => ?_
              congr 1
              have : -(2 * Real.pi * I * (j.1 * n) / n) = -((j.1 : ℕ) * (2 * Real.pi * I)) := by
                field_simp
              rw [this, Complex.exp_neg, Complex.exp_nat_mul, Complex.exp_two_pi_mul_I]
              simp
            rw [this, this]
          rw [a, this, e0]
        · have := herm k.1 k.2.le
          rwa [show n - k.1 = k.1 by omega] at this
      exact Complex.conj_eq_iff_re.1 hreal
    · rfl
    · exact herm k.1 k.2.le
  unfold irfft
  simp only [hfull]
  have key : ∑ k : Fin n, Z k.1 * exp (2 * Real.pi * I * (m * k.1) / n) =
      (n : ℂ) * (Spec.linConv x1 x2 m : ℂ) := by
    have step : ∀ k : Fin n, Z k.1 * exp (2 * Real.pi * I * (m * k.1) / n) =
        ∑ i : Fin n1, ∑ j : Fin n2, ((x1 i * x2 j : ℝ) : ℂ) *
          (exp (2 * Real.pi * I * (m * k.1) / n) *
            exp (-(2 * Real.pi * I * (((i.1 + j.1 : ℕ) : ℂ) * k.1) / n))) := by
      intro k
      simp only [hZ]
      rw [rfft_eq _ _ _ (by omega), rfft_eq _ _ _ (by omega), Finset.sum_mul_sum, Finset.sum_mul]
      refine Finset.sum_congr rfl fun i _ => ?_
      rw [Finset.sum_mul]
      refine Finset.sum_congr rfl fun j _ => ?_
      have : exp (-(2 * Real.pi * I * (((i.1 + j.1 : ℕ) : ℂ) * k.1) / n)) =
          exp (-(2 * Real.pi * I * (i.1 * k.1) / n)) * exp (-(2 * Real.pi * I * (j.1 * k.1) / n)) := by
        rw [← Complex.exp_add]; congr 1; push_cast; ring
      rw [this]; push_cast; ring
    rw [Finset.sum_congr rfl fun k _ => step k, Finset.sum_comm]
    unfold Spec.linConv
    push_cast
    rw [Finset.mul_sum]
    refine Finset.sum_congr rfl fun i _ => ?_
    rw [Finset.sum_comm, Finset.mul_sum]
    refine Finset.sum_congr rfl fun j _ => ?_
    rw [← Finset.mul_sum]
    have := sum_exp n m (i.1 + j.1) hm (by omega)
    push_cast at this
    rw [this]
    split_ifs <;> push_cast <;> ring
  rw [key, ← mul_assoc, one_div, inv_mul_cancel₀ hnC, one_mul, Complex.ofReal_re]

theorem slice_map_range (g : ℕ → ℝ) (n a len : ℕ) (h : a + len ≤ n) :
    (((List.range n).map g).take (a + len)).drop a = List.ofFn fun k : Fin len => g (a + k.1) := by
  apply List.ext_getElem
  · simp; omega
  · intro i h1 h2
    simp

/-- C52, `mode="full"`: all `n1 + n2 - 1` samples of the linear convolution. -/
theorem fftconvolve_full {n1 n2 : ℕ} (h1 : 0 < n1) (h2 : 0 < n2) (x1 : Fin n1 → ℝ)
    (x2 : Fin n2 → ℝ) :
    fftconvolve x1 x2 "full" =
      .ok (List.ofFn fun k : Fin (n1 + n2 - 1) => Spec.linConv x1 x2 k) := by
  unfold fftconvolve
  dsimp only
  rw [if_pos rfl]
  congr 1
  have := slice_map_range (irfft (fun k => rfft x1 (n1 + n2 - 1) k * rfft x2 (n1 + n2 - 1) k)
    (n1 + n2 - 1)) (n1 + n2 - 1) 0 (n1 + n2 - 1) (by omega)
  rw [zero_add] at this
  rw [this]
  congr 1
  funext k
  rw [zero_add]
  exact irfft_conv h1 h2 x1 x2 k k.2

/-- C52, `mode="same"`: `n1` samples starting at `(n2 - 1) // 2`, i.e. the centred part. -/
theorem fftconvolve_same {n1 n2 : ℕ} (h1 : 0 < n1) (h2 : 0 < n2) (x1 : Fin n1 → ℝ)
    (x2 : Fin n2 → ℝ) :
    fftconvolve x1 x2 "same" =
      .ok (List.ofFn fun k : Fin n1 => Spec.linConv x1 x2 ((n2 - 1) / 2 + k)) := by
  unfold fftconvolve
  dsimp only
  rw [if_neg (by decide), if_pos rfl]
  congr 1
  rw [show n1 + n2 - 1 - n1 = n2 - 1 by omega]
  rw [slice_map_range _ _ _ _ (by omega)]
  congr 1
  funext k
  exact irfft_conv h1 h2 x1 x2 _ (by have := k.2; omega)

/-- `[1,2,3] * [1,10]` in mode `same`. -/
example : fftconvolve ![1, 2, 3] ![1, 10] "same" = .ok [1, 12, 23] := by
  rw [fftconvolve_same (by norm_num) (by norm_num)]
  congr 1
  simp [List.ofFn_succ, Spec.linConv, Fin.sum_univ_succ]
  norm_num

theorem fftconvolve_valid_aux {n1 n2 : ℕ} (h1 : 0 < n1) (h2 : 0 < n2) (x1 : Fin n1 → ℝ)
    (x2 : Fin n2 → ℝ) :
    fftconvolve x1 x2 "valid" = .ok (List.ofFn fun k : Fin (max n1 n2 - min n1 n2 + 1) =>
      Spec.linConv x1 x2 (min n1 n2 - 1 + k)) := by
  unfold fftconvolve
  dsimp only
  rw [if_neg (by decide), if_neg (by decide), if_pos rfl]
  congr 1
  rw [show (n1 + n2 - 1 - (max n1 n2 - min n1 n2 + 1)) / 2 = min n1 n2 - 1 by omega]
  rw [slice_map_range _ _ _ _ (by omega)]
  congr 1
  funext k
  exact irfft_conv h1 h2 x1 x2 _ (by have := k.2; omega)

/-- C52, `mode="valid"` with the second signal not longer than the first: one output for every
position where the second signal, reversed, fits entirely inside the first. -/
theorem fftconvolve_valid {n1 n2 : ℕ} (h2 : 0 < n2) (h12 : n2 ≤ n1) (x1 : Fin n1 → ℝ)
    (x2 : Fin n2 → ℝ) :
    fftconvolve x1 x2 "valid" = .ok (List.ofFn fun k : Fin (n1 - n2 + 1) =>
      ∑ j : Fin n2, x1 ⟨k + (n2 - 1 - j), by have := k.2; have := j.2; omega⟩ * x2 j) := by
  rw [fftconvolve_valid_aux (by omega) h2]
  have e1 : max n1 n2 - min n1 n2 + 1 = n1 - n2 + 1 := by omega
  congr 1
  apply List.ext_getElem
  · simp [e1]
  · intro k hk hk'
    simp only [List.getElem_ofFn]
    simp only [List.length_ofFn] at hk'
    unfold Spec.linConv
    rw [Finset.sum_comm]
    refine Finset.sum_congr rfl fun j _ => ?_
    have hj := j.2
    rw [Finset.sum_eq_single ⟨k + (n2 - 1 - j), by omega⟩]
    · rw [if_pos (by simp only; omega)]
    · intro i _ hi
      rw [if_neg]
      intro h
      apply hi
      ext
      simp only
      omega
    · simp

/-- C52, `mode="valid"` with the first signal not longer than the second. -/
theorem fftconvolve_valid' {n1 n2 : ℕ} (h1 : 0 < n1) (h12 : n1 ≤ n2) (x1 : Fin n1 → ℝ)
    (x2 : Fin n2 → ℝ) :
    fftconvolve x1 x2 "valid" = .ok (List.ofFn fun k : Fin (n2 - n1 + 1) =>
      ∑ i : Fin n1, x1 i * x2 ⟨k + (n1 - 1 - i), by have := k.2; have := i.2; omega⟩) := by
  rw [fftconvolve_valid_aux h1 (by omega)]
  have e1 : max n1 n2 - min n1 n2 + 1 = n2 - n1 + 1 := by omega
  congr 1
  apply List.ext_getElem
  · simp [e1]
  · intro k hk hk'
    simp only [List.getElem_ofFn]
    simp only [List.length_ofFn] at hk'
    unfold Spec.linConv
    refine Finset.sum_congr rfl fun i _ => ?_
    have hi := i.2
    rw [Finset.sum_eq_single ⟨k + (n1 - 1 - i), by omega⟩]
    · rw [if_pos (by simp only; omega)]
    · intro j _ hj
      rw [if_neg]
      intro h
      apply hj
      ext
      simp only
      omega
    · simp

/-- `[1,10] * [1,2,3]` in mode `valid`. -/
example : fftconvolve ![1, 10] ![1, 2, 3] "valid" = .ok [12, 23] := by
  rw [fftconvolve_valid' (by norm_num) (by norm_num)]
  congr 1
  simp [List.ofFn_succ, Fin.sum_univ_succ]
  norm_num

/-- C52: every other mode raises `ValueError`. -/
theorem fftconvolve_bad_mode {n1 n2 : ℕ} (x1 : Fin n1 → ℝ) (x2 : Fin n2 → ℝ) (mode : String)
    (h : mode ∉ ["full", "same", "valid"]) : fftconvolve x1 x2 mode = .error .valueError := by
  simp only [List.mem_cons, List.not_mem_nil, or_false, not_or] at h
  unfold fftconvolve
  dsimp only
  rw [if_neg h.1, if_neg h.2.1, if_neg h.2.2]

/-- A concrete convolution: `[1,2,3] * [1,10]`, full and valid. -/
example : fftconvolve ![1, 2, 3] ![1, 10] "full" = .ok [1, 12, 23, 30] ∧
    fftconvolve ![1, 2, 3] ![1, 10] "valid" = .ok [12, 23] := by
  rw [fftconvolve_full (by norm_num) (by norm_num), fftconvolve_valid (by norm_num) (by norm_num)]
  constructor
  · congr 1
    simp [List.ofFn_succ, Spec.linConv, Fin.sum_univ_succ]
    norm_num
  · congr 1
    simp [List.ofFn_succ, Fin.sum_univ_succ]
    norm_num

example : "circular" ∉ ["full", "same", "valid"] := by decide

end Torchiva.Props
