import Verif.Proofs.Scaling
import Verif.Proofs.Eig2
import Verif.Proofs.Ridge
import Mathlib.Data.Fin.Tuple.Sort

/-!
# Properties C42-C47, C76: scaling
-/

namespace Torchiva.Props

open Torchiva Spec

variable {B C F N : ℕ}

/-! ## C42 minimum distortion -/

/-- **C42.** Every row is multiplied by one complex number `a`, its correlation with the reference over its energy (taken as at least
`1e-7` per frame).  When the mean power of the row is at least `1e-7`, `a`
is the unique least-squares factor; in all cases the error does not exceed the energy of the reference. -/
theorem min_distortion_l2_optimal (hN : 0 < N) (Y : Sig C F N) (ref : Fin F → Fin N → ℂ) (c : Fin C) (f : Fin F) :
    ∃ a : ℂ, (∀ n, minDistL2 Y ref c f n = a * Y c f n) ∧
      a = crossCorr (ref f) (Y c f) / ((N * max (energy (Y c f) / N) 1e-7 : ℝ) : ℂ) ∧
      (1e-7 ≤ energy (Y c f) / N → ∀ a', sqError (ref f) (Y c f) a ≤ sqError (ref f) (Y c f) a' ∧
        (sqError (ref f) (Y c f) a' = sqError (ref f) (Y c f) a → a' = a)) ∧
      sqError (ref f) (Y c f) a ≤ energy (ref f) := by
  have hN' : (0 : ℝ) < N := by exact_mod_cast hN
  set W : ℝ := energy (Y c f) with hW
  set W' : ℝ := N * max (W / N) 1e-7 with hW'
  have hW'pos : 0 < W' := mul_pos hN' (lt_of_lt_of_le (by norm_num) (le_max_right _ _))
  have hWW' : W ≤ W' := by
    rw [hW']
    calc W = N * (W / N) := by field_simp
      _ ≤ _ := mul_le_mul_of_nonneg_left (le_max_left _ _) hN'.le
  have hW0 : 0 ≤ W := Finset.sum_nonneg fun _ _ => by positivity
  set S : ℂ := ∑ n, ((1 : ℝ) : ℂ) * (ref f n * star (Y c f n)) with hS
  have hgap := fun a => wsq_gap (fun _ => 1) (ref f) (Y c f) W' hW'pos.ne' a
  simp only [one_mul, Complex.ofReal_one] at hgap hS
  rw [← hS] at hgap
  refine ⟨S / (W' : ℂ), fun n => ?_, by rw [hS]; rfl, fun hP a' => ?_, ?_⟩
  · have hd : (∑ t, magSq (Y c f t)) / (N : ℝ) = W / N := by
      rw [hW, energy]; simp only [magSq_eq]
    unfold minDistL2
    simp only
    rw [hd, mul_comm]
    congr 1
    rw [star_div₀, star_div₀, star_sum, hS, hW']
    simp only [star_mul', star_star, Complex.star_def, Complex.conj_ofReal, Complex.conj_natCast, Complex.conj_conj]
    rw [div_div]
    push_cast
    rfl
  · have hEq : W' = W := by
      rw [hW', max_eq_left hP]; field_simp
    have h := hgap a'
    have e : ∑ n, ‖Y c f n‖ ^ 2 = W := rfl
    rw [e, hEq, sub_self, zero_mul, zero_mul, add_zero, add_zero] at h
    rw [hEq]
    have hnn : 0 ≤ W * ‖a' - S / (W : ℂ)‖ ^ 2 := by positivity
    refine ⟨?_, fun heq => ?_⟩
    · unfold sqError; linarith
    · unfold sqError at heq
      have h0 : W * ‖a' - S / (W : ℂ)‖ ^ 2 = 0 := by linarith
      have hWpos : 0 < W := hEq ▸ hW'pos
      have : ‖a' - S / (W : ℂ)‖ = 0 := by
        rcases mul_eq_zero.1 h0 with h | h
        · exact absurd h hWpos.ne'
        · exact pow_eq_zero_iff (two_ne_zero) |>.1 h
      exact sub_eq_zero.1 (norm_eq_zero.1 this)
  · have h := hgap 0
    have e : ∑ n, ‖Y c f n‖ ^ 2 = W := rfl
    rw [e] at h
    simp only [zero_mul, sub_zero, norm_zero, ne_eq, OfNat.ofNat_ne_zero, not_false_eq_true, zero_pow, mul_zero,
      add_zero] at h
    have h1 : 0 ≤ W' * ‖0 - S / (W' : ℂ)‖ ^ 2 := by positivity
    have h2 : 0 ≤ (W' - W) * ‖S / (W' : ℂ)‖ ^ 2 := mul_nonneg (by linarith) (by positivity)
    unfold sqError energy
    linarith

/-- **C42.** Rescaling any row by a nonzero factor leaves the output unchanged, as long as the mean power stays
at least `1e-7`. -/
theorem min_distortion_l2_scale_invariant (Y : Sig C F N) (ref : Fin F → Fin N → ℂ) (z : Fin C → Fin F → ℂ) (c : Fin C)
    (f : Fin F) (hz : z c f ≠ 0) (h1 : 1e-7 ≤ energy (Y c f) / N)
    (h2 : 1e-7 ≤ energy (fun n => z c f * Y c f n) / N) (n : Fin N) :
    minDistL2 (fun c f n => z c f * Y c f n) ref c f n = minDistL2 Y ref c f n := by
  have hN : 0 < N := Fin.pos n
  have hN' : (0 : ℝ) < N := by exact_mod_cast hN
  have hNc : (N : ℂ) ≠ 0 := by exact_mod_cast hN.ne'
  unfold minDistL2
  simp only [magSq_eq]
  have e1 : ∑ t, ‖z c f * Y c f t‖ ^ 2 = ‖z c f‖ ^ 2 * energy (Y c f) := by
    rw [energy, Finset.mul_sum]
    exact Finset.sum_congr rfl fun t _ => by rw [norm_mul, mul_pow]
  have h2' : 1e-7 ≤ (‖z c f‖ ^ 2 * energy (Y c f)) / N := by rw [← e1]; exact h2
  have e0 : ∑ t, ‖Y c f t‖ ^ 2 = energy (Y c f) := rfl
  rw [e1, e0, clampMin, clampMin, max_eq_left h1, max_eq_left h2']
  have e2 : ∑ t, star (ref f t) * (z c f * Y c f t) = z c f * ∑ t, star (ref f t) * Y c f t := by
    rw [Finset.mul_sum]
    exact Finset.sum_congr rfl fun t _ => by ring
  rw [e2]
  have hE : energy (Y c f) ≠ 0 := by
    intro h
    rw [h, zero_div] at h1
    norm_num at h1
  have hEc : ((energy (Y c f) : ℝ) : ℂ) ≠ 0 := by exact_mod_cast hE
  have hzz : (((‖z c f‖ ^ 2 : ℝ)) : ℂ) = z c f * star (z c f) := by
    rw [Complex.star_def, Complex.mul_conj']; push_cast; rfl
  have hsz : star (z c f) ≠ 0 := star_ne_zero.2 hz
  simp only [star_div₀, star_mul', Complex.star_def, Complex.conj_ofReal] at hzz hsz ⊢
  push_cast at hzz ⊢
  rw [hzz]
  simp only [Complex.conj_natCast]
  field_simp

/-- A row of mean power 5/2 and a gain of `2i`; the same row is a case of `min_distortion_l2_optimal`. -/
example : (1e-7 : ℝ) ≤ energy ((![1, 2] : Fin 2 → ℂ)) / (2 : ℕ) ∧
    (1e-7 : ℝ) ≤ energy (fun n => 2 * Complex.I * (![1, 2] : Fin 2 → ℂ) n) / (2 : ℕ) := by
  constructor <;> norm_num [energy, Fin.sum_univ_two]

/-- **C42.** `minimum_distortion` without `p`, or with `p = 2` and `q` absent or equal, is the least-squares scaling of each
batch item, whatever `rtol` and `max_iter`. -/
theorem min_distortion_default (p q : Option ℝ) (rtol : ℝ) (maxIter : ℕ) (Y : Fin B → Sig C F N)
    (ref : Fin B → Fin F → Fin N → ℂ) (h : p = none ∨ (p = some 2 ∧ (q = none ∨ q = some 2))) :
    minDist p q rtol maxIter none Y ref = .ok fun b => minDistL2 (Y b) (ref b) := by
  unfold minDist
  rw [if_pos]
  refine ⟨rfl, ?_⟩
  rcases h with h | ⟨h, h' | h'⟩
  · exact Or.inl h
  · exact Or.inr ⟨h, Or.inl h'⟩
  · exact Or.inr ⟨h, Or.inr (h.trans h'.symm)⟩

example (Y : Fin 3 → Sig 2 4 5) (ref) : minDist (some 2) none 1e-2 10 none Y ref = .ok fun b => minDistL2 (Y b) (ref b) :=
  min_distortion_default _ _ _ _ _ _ (Or.inr ⟨rfl, Or.inl rfl⟩)

/-! ## C43 phase-only minimum distortion -/

/-- **C43.** Every row is multiplied by one complex number of modulus at most one, the mean correlation with the reference over its
modulus (taken as at least `1e-5`); when the mean correlation with the
reference is at least `1e-5`, the modulus is one and no other unit factor gives a smaller squared error. -/
theorem min_distortion_phase (Y : Sig C F N) (ref : Fin F → Fin N → ℂ) (c : Fin C) (f : Fin F) :
    ∃ a : ℂ, (∀ n, minDistL2Phase Y ref c f n = a * Y c f n) ∧ ‖a‖ ≤ 1 ∧
      a = crossCorr (ref f) (Y c f) / (N : ℂ) / ((max (‖crossCorr (ref f) (Y c f)‖ / N) 1e-5 : ℝ) : ℂ) ∧
      (1e-5 ≤ ‖crossCorr (ref f) (Y c f)‖ / N → ‖a‖ = 1 ∧
        ∀ a', ‖a'‖ = 1 → sqError (ref f) (Y c f) a ≤ sqError (ref f) (Y c f) a') := by
  set num : ℂ := (∑ t, star (ref f t) * Y c f t) / (N : ℂ) with hnum
  have hsn : star num = crossCorr (ref f) (Y c f) / (N : ℂ) := by
    rw [hnum, star_div₀, star_sum, crossCorr]
    simp only [star_mul', star_star, Complex.star_def, Complex.conj_natCast, Complex.conj_conj]
  have hnorm : ‖num‖ = ‖crossCorr (ref f) (Y c f)‖ / N := by
    rw [← norm_star, hsn, norm_div, Complex.norm_natCast]
  have hcl : 0 < clampMin ‖num‖ 1e-5 := lt_of_lt_of_le (by norm_num) (le_max_right _ _)
  have hna : ‖star (num / ((clampMin ‖num‖ 1e-5 : ℝ) : ℂ))‖ = ‖num‖ / clampMin ‖num‖ 1e-5 := by
    rw [norm_star, norm_div, Complex.norm_real, Real.norm_of_nonneg hcl.le]
  refine ⟨star (num / ((clampMin ‖num‖ 1e-5 : ℝ) : ℂ)), fun n => ?_, ?_, ?_, fun h => ?_⟩
  · unfold minDistL2Phase
    simp only
    rw [← hnum, mul_comm]
  · rw [hna, div_le_one hcl]
    exact le_max_left _ _
  · rw [star_div₀, hsn, ← hnorm, Complex.star_def, Complex.conj_ofReal]
    rfl
  · have hge : 1e-5 ≤ ‖num‖ := by rw [hnorm]; exact h
    have hpos : 0 < ‖num‖ := lt_of_lt_of_le (by norm_num) hge
    have hN : (0 : ℝ) < N := by
      rcases Nat.eq_zero_or_pos N with h0 | h0
      · subst h0; simp [hnum] at hpos
      · exact_mod_cast h0
    have e : clampMin ‖num‖ 1e-5 = ‖num‖ := max_eq_left hge
    have h1 : ‖star (num / ((clampMin ‖num‖ 1e-5 : ℝ) : ℂ))‖ = 1 := by rw [hna, e, div_self hpos.ne']
    refine ⟨h1, fun a' ha' => ?_⟩
    have hexp : ∀ a : ℂ, ‖a‖ = 1 → sqError (ref f) (Y c f) a
        = energy (ref f) + energy (Y c f) - 2 * (star a * crossCorr (ref f) (Y c f)).re := by
      intro a ha
      have := wsq_expand (fun _ => 1) (ref f) (Y c f) a
      simp only [one_mul, Complex.ofReal_one, ha, one_pow] at this
      exact this
    rw [hexp _ h1, hexp _ ha']
    have hcorr : crossCorr (ref f) (Y c f) = star num * (N : ℂ) := by
      have hNc : (N : ℂ) ≠ 0 := by exact_mod_cast hN.ne'
      rw [hsn]; field_simp
    have h2 : (star (star (num / ((clampMin ‖num‖ 1e-5 : ℝ) : ℂ))) * crossCorr (ref f) (Y c f)).re
        = ‖crossCorr (ref f) (Y c f)‖ := by
      rw [star_star, e]
      have hnz : (((‖num‖ : ℝ)) : ℂ) ≠ 0 := by exact_mod_cast hpos.ne'
      have : num / ((‖num‖ : ℝ) : ℂ) * crossCorr (ref f) (Y c f) = ((‖num‖ * N : ℝ) : ℂ) := by
        rw [hcorr]
        have : num * star num = ((‖num‖ ^ 2 : ℝ) : ℂ) := by
          rw [Complex.star_def, Complex.mul_conj']; push_cast; rfl
        rw [div_mul_eq_mul_div, ← mul_assoc, this]
        push_cast
        field_simp
      rw [this, Complex.ofReal_re, hnorm]
      field_simp
    have h3 : (star a' * crossCorr (ref f) (Y c f)).re ≤ ‖crossCorr (ref f) (Y c f)‖ := by
      calc _ ≤ ‖star a' * crossCorr (ref f) (Y c f)‖ := Complex.re_le_norm _
        _ = _ := by rw [norm_mul, norm_star, ha', one_mul]
    linarith

/-! ## C44 termination -/

private lemma minDist_run (p q : Option ℝ) (rtol : ℝ) (maxIter : ℕ) (model : Option (MdErr B F C N → MdWeights B F C N))
    (Y : Fin B → Sig C F N) (ref : Fin B → Fin F → Fin N → ℂ)
    (hd : ¬ (model.isNone ∧ (p = none ∨ (p = some 2 ∧ (q = none ∨ p = q)))))
    (w : MdErr B F C N → MdWeights B F C N) (hw : ∀ E, mdWeights p q model E = .ok (w E)) :
    ∃ k, minDist p q rtol maxIter model Y ref
        = .ok (fun b c f n => Y b c f n * ((wlsUpdate w Y ref)^[k] 1) b f c) ∧
      StopsAt (wlsUpdate w Y ref) rtol maxIter k := by
  have hstep : ∀ k, mdStep p q model Y ref k = .ok (wlsUpdate w Y ref k) := by
    intro k
    unfold mdStep
    simp only [hw, bind, Except.bind]
    show Except.ok _ = Except.ok _
    congr 1
    funext b f c
    unfold wlsUpdate clampMin
    congr 1
    · exact Finset.sum_congr rfl fun n _ => by ring
    · congr 2
      exact Finset.sum_congr rfl fun n _ => by ring
  obtain ⟨k, h1, h2⟩ := mdLoop_none _ _ hstep rtol maxIter
  refine ⟨k, ?_, h2⟩
  unfold minDist
  rw [if_neg hd]
  simp only [h1, bind, Except.bind]
  rfl

/-- **C44.** For `0 < p < 2` (and `q` absent or equal to `p`), `minimum_distortion` always returns: the rows of `Y` scaled by the
result of at most `max_iter` weighted least-squares updates from all-ones, stopping at the first relative change
below `rtol`. -/
theorem min_distortion_lp_run (p : ℝ) (h0 : 0 < p) (h2 : p < 2) (q : Option ℝ) (hq : q = none ∨ q = some p) (rtol : ℝ)
    (maxIter : ℕ) (Y : Fin B → Sig C F N) (ref : Fin B → Fin F → Fin N → ℂ) :
    ∃ k, minDist (some p) q rtol maxIter none Y ref
        = .ok (fun b c f n => Y b c f n * ((wlsUpdate (lpWeights p) Y ref)^[k] 1) b f c) ∧
      StopsAt (wlsUpdate (lpWeights p) Y ref) rtol maxIter k := by
  apply minDist_run
  · rintro ⟨-, h | ⟨h, -⟩⟩
    · cases h
    · have := Option.some.inj h; linarith
  · intro E
    rcases hq with rfl | rfl
    · simp only [mdWeights, lpNorm, if_pos (And.intro h0 h2)]; rfl
    · simp only [mdWeights, lpNorm, if_pos (And.intro h0 h2), if_true]; rfl

/-- The 1-norm, a batch of three. -/
example (Y : Fin 3 → Sig 2 4 5) (ref) : ∃ out, minDist (some 1) none 1e-2 10 none Y ref = .ok out := by
  obtain ⟨k, h, -⟩ := min_distortion_lp_run 1 one_pos (by norm_num) none (Or.inl rfl) 1e-2 10 Y ref
  exact ⟨_, h⟩

/-- **C44.** The same for the mixed norm, `0 < p < q ≤ 2`. -/
theorem min_distortion_lpq_run (p q : ℝ) (h0 : 0 < p) (hpq : p < q) (h2 : q ≤ 2) (rtol : ℝ)
    (maxIter : ℕ) (Y : Fin B → Sig C F N) (ref : Fin B → Fin F → Fin N → ℂ) :
    ∃ k, minDist (some p) (some q) rtol maxIter none Y ref
        = .ok (fun b c f n => Y b c f n * ((wlsUpdate (lpqWeights p q) Y ref)^[k] 1) b f c) ∧
      StopsAt (wlsUpdate (lpqWeights p q) Y ref) rtol maxIter k := by
  have hw : ∀ E : MdErr B F C N, lpqNorm E p q = .ok (lpqWeights p q E) := by
    intro E
    unfold lpqNorm lpqWeights
    rw [if_pos ⟨h0, hpq.le, h2⟩]
    refine congrArg Except.ok ?_
    funext b f c n
    have : 0 ≤ (‖E b f c n‖ + 1e-5) ^ q + 1e-5 := by positivity
    simp only [abs_of_nonneg this]
    rfl
  apply minDist_run
  · rintro ⟨-, h | ⟨h, h' | h'⟩⟩
    · cases h
    · cases h'
    · have := Option.some.inj h'; linarith
  · intro E
    simp only [mdWeights, if_neg hpq.ne, hw]

/-- `p = 1`, `q = 2`. -/
example (Y : Fin 3 → Sig 2 4 5) (ref) : ∃ out, minDist (some 1) (some 2) 1e-2 10 none Y ref = .ok out := by
  obtain ⟨k, h, -⟩ := min_distortion_lpq_run 1 2 one_pos (by norm_num) le_rfl 1e-2 10 Y ref
  exact ⟨_, h⟩

/-- **C44.** With a learnable model the weights are the model outputs *for batch item 0 and frequency 0*, divided by
their sum over time (at least 1e-5); `p` and `q` are ignored. -/
theorem min_distortion_model_run (hB : 0 < B) (hF : 0 < F) (p q : Option ℝ) (m : MdErr B F C N → MdWeights B F C N)
    (rtol : ℝ) (maxIter : ℕ) (Y : Fin B → Sig C F N) (ref : Fin B → Fin F → Fin N → ℂ) :
    ∃ k, minDist p q rtol maxIter (some m) Y ref
        = .ok (fun b c f n => Y b c f n *
          ((wlsUpdate (fun E _ _ c n => m E ⟨0, hB⟩ ⟨0, hF⟩ c n / max (∑ t, m E ⟨0, hB⟩ ⟨0, hF⟩ c t) 1e-5) Y ref)^[k] 1)
            b f c) ∧
      StopsAt (wlsUpdate (fun E _ _ c n => m E ⟨0, hB⟩ ⟨0, hF⟩ c n / max (∑ t, m E ⟨0, hB⟩ ⟨0, hF⟩ c t) 1e-5) Y ref)
        rtol maxIter k := by
  apply minDist_run
  · rintro ⟨h, -⟩
    cases h
  · exact fun E => by simp only [mdWeights, dif_pos (And.intro hB hF)]; rfl

/-- A model that favours the small errors. -/
example (Y : Fin 3 → Sig 2 4 5) (ref) : ∃ out, minDist none none 1e-2 10 (some fun E b f c n => 1 / (1 + ‖E b f c n‖)) Y ref
    = .ok out := by
  obtain ⟨k, h, -⟩ := min_distortion_model_run (by norm_num) (by norm_num) none none
    (fun E b f c n => 1 / (1 + ‖E b f c n‖)) 1e-2 10 Y ref
  exact ⟨_, h⟩

/-- **C87 (violated).** The weights a model gives to a batch item and frequency are not those used there: there is a
model and an input for which one update differs from the weighted least-squares update with the model's own weights. -/
theorem min_distortion_model_weights_violated :
    ∃ (m : MdErr 1 2 1 2 → MdWeights 1 2 1 2) (Y : Fin 1 → Sig 1 2 2) (ref : Fin 1 → Fin 2 → Fin 2 → ℂ),
      minDist none none 0 1 (some m) Y ref ≠ .ok (fun b c f n => Y b c f n *
        wlsUpdate (fun E b f c n => m E b f c n / max (∑ t, m E b f c t) 1e-5) Y ref 1 b f c) := by
  refine ⟨fun _ _ f _ n => if f = 0 ∨ n = 0 then 1 else 0, fun _ _ _ _ => 1,
    fun _ _ n => if n = 0 then 1 else 3, ?_⟩
  intro h
  have h1 : ¬ ((some fun (_ : MdErr 1 2 1 2) (_ : Fin 1) (f : Fin 2) (_ : Fin 1) (n : Fin 2) =>
      if f = 0 ∨ n = 0 then (1 : ℝ) else 0).isNone ∧ ((none : Option ℝ) = none ∨
        ((none : Option ℝ) = some 2 ∧ ((none : Option ℝ) = none ∨ (none : Option ℝ) = none)))) := by simp
  unfold minDist at h
  rw [if_neg h1] at h
  simp only [mdLoop, mdStep, mdWeights, dif_pos (And.intro (Nat.zero_lt_one) (Nat.zero_lt_two)), bind, Except.bind,
    pure, Except.pure] at h
  have h2 := congrFun (congrFun (congrFun (congrFun (Except.ok.inj h) 0) 0) 1) 0
  simp [-Finset.sum_boole, wlsUpdate, Fin.sum_univ_two, clampMin] at h2
  norm_num at h2

/-- **C44.** Exponents outside the admissible range raise as soon as one iteration runs; with `max_iter = 0` the input is
returned unchanged. -/
theorem min_distortion_bad_exponents (p : ℝ) (q : Option ℝ) (rtol : ℝ) (maxIter : ℕ) (Y : Fin B → Sig C F N)
    (ref : Fin B → Fin F → Fin N → ℂ)
    (h : ((q = none ∨ q = some p) ∧ (p ≤ 0 ∨ 2 < p)) ∨ (∃ q', q = some q' ∧ q' ≠ p ∧ (p ≤ 0 ∨ q' < p ∨ 2 < q'))) :
    minDist (some p) q rtol (maxIter + 1) none Y ref = .error .assertionError ∧
    minDist (some p) q rtol 0 none Y ref = .ok Y := by
  have hd : ¬ ((none : Option (MdErr B F C N → MdWeights B F C N)).isNone ∧
      (some p = none ∨ (some p = some 2 ∧ (q = none ∨ some p = q)))) := by
    rintro ⟨-, h' | ⟨h', h''⟩⟩
    · cases h'
    · have hp := Option.some.inj h'
      rcases h with ⟨-, h | h⟩ | ⟨q', rfl, hne, -⟩
      · linarith
      · linarith
      · rcases h'' with h'' | h''
        · cases h''
        · exact hne (Option.some.inj h'').symm
  have hw : ∀ E : MdErr B F C N, mdWeights (some p) q none E = .error .assertionError := by
    intro E
    rcases h with ⟨rfl | rfl, h⟩ | ⟨q', rfl, hne, h⟩
    · simp only [mdWeights, lpNorm]
      rw [if_neg]
      rintro ⟨h1, h2⟩
      rcases h with h | h <;> linarith
    · simp only [mdWeights, lpNorm, if_true]
      rw [if_neg]
      rintro ⟨h1, h2⟩
      rcases h with h | h <;> linarith
    · simp only [mdWeights, if_neg (Ne.symm hne), lpqNorm]
      rw [if_neg]
      rintro ⟨h1, h2, h3⟩
      rcases h with h | h | h <;> linarith
  constructor
  · unfold minDist
    rw [if_neg hd]
    simp only [mdLoop, mdStep, hw, bind, Except.bind]
  · unfold minDist
    rw [if_neg hd]
    simp only [mdLoop, bind, Except.bind]
    show Except.ok _ = Except.ok _
    congr 1
    funext b c f n
    exact mul_one _

/-- `p = 3`, and `p = 2, q = 1`. -/
example (Y : Fin 3 → Sig 2 4 5) (ref) : minDist (some 3) none 1e-2 10 none Y ref = .error .assertionError ∧
    minDist (some 2) (some 1) 1e-2 10 none Y ref = .error .assertionError :=
  ⟨(min_distortion_bad_exponents 3 none 1e-2 9 Y ref (Or.inl ⟨Or.inl rfl, Or.inr (by norm_num)⟩)).1,
    (min_distortion_bad_exponents 2 (some 1) 1e-2 9 Y ref
      (Or.inr ⟨1, rfl, by norm_num, Or.inr (Or.inl (by norm_num))⟩)).1⟩

/-- **C44 (every argument).** Whatever the arguments, whenever `minimum_distortion` returns, each row of the output is the row
of the input times one complex number. -/
theorem min_distortion_rows (p q : Option ℝ) (rtol : ℝ) (maxIter : ℕ) (model : Option (MdErr B F C N → MdWeights B F C N))
    (Y : Fin B → Sig C F N) (ref : Fin B → Fin F → Fin N → ℂ) (out : Fin B → Sig C F N)
    (h : minDist p q rtol maxIter model Y ref = .ok out) (b : Fin B) (c : Fin C) (f : Fin F) :
    ∃ a : ℂ, ∀ n, out b c f n = a * Y b c f n := by
  unfold minDist at h
  split_ifs at h with h1
  · cases h
    exact ⟨_, fun n => mul_comm _ _⟩
  · simp only [bind, Except.bind] at h
    split at h
    · cases h
    · cases h
      exact ⟨_, fun n => mul_comm _ _⟩

/-- `p = q = 1`, three rounds, two items: a constant row stays constant. -/
example (out : Fin 2 → Sig 1 1 4) (h : minDist (some 1) none 1e-2 3 none (fun _ _ _ _ => 1 : Fin 2 → Sig 1 1 4) (fun _ _ _ => 1) = .ok out) :
    ∀ b n, out b 0 0 n = out b 0 0 0 := by
  intro b n
  obtain ⟨a, ha⟩ := min_distortion_rows _ _ _ _ _ _ _ out h b 0 0
  rw [ha, ha]

/-! ## C45 descent -/

/-- **C45.** For `0 < p < 2`, an update whose denominator is not clamped does not increase the (clamped) p-norm error of that
row to the reference, whatever the current factors. -/
theorem min_distortion_lp_descent (p : ℝ) (h0 : 0 < p) (h2 : p < 2) (Y : Fin B → Sig C F N)
    (ref : Fin B → Fin F → Fin N → ℂ) (k : Spec.Scale B F C) (b : Fin B) (f : Fin F) (c : Fin C)
    (hden : 1e-5 ≤ ∑ n, lpWeights p (fun b f c n => ref b f n - k b f c * Y b c f n) b f c n * ‖Y b c f n‖ ^ 2) :
    lpError p (ref b f) (Y b c f) (wlsUpdate (lpWeights p) Y ref k b f c)
      ≤ lpError p (ref b f) (Y b c f) (k b f c) := by
  set e : Fin B → Fin F → Fin C → Fin N → ℂ := fun b f c n => ref b f n - k b f c * Y b c f n with he
  set w : Fin N → ℝ := fun n => lpWeights p e b f c n with hw
  set W : ℝ := ∑ n, w n * ‖Y b c f n‖ ^ 2 with hW
  have hWpos : 0 < W := lt_of_lt_of_le (by norm_num) hden
  have hup : wlsUpdate (lpWeights p) Y ref k b f c = (∑ n, (w n : ℂ) * (ref b f n * star (Y b c f n))) / (W : ℂ) := by
    unfold wlsUpdate
    congr 2
    exact max_eq_left hden
  rw [hup]
  have hgap := wsq_gap w (ref b f) (Y b c f) W hWpos.ne' (k b f c)
  set a := (∑ n, (w n : ℂ) * (ref b f n * star (Y b c f n))) / (W : ℂ) with ha
  rw [← hW, sub_self, zero_mul, zero_mul, add_zero, add_zero] at hgap
  have hnn : 0 ≤ W * ‖k b f c - a‖ ^ 2 := by positivity
  have hmaj : ∀ n, clampedPow p ‖ref b f n - a * Y b c f n‖ ≤ clampedPow p ‖ref b f n - k b f c * Y b c f n‖
      + w n * (‖ref b f n - a * Y b c f n‖ ^ 2 - ‖ref b f n - k b f c * Y b c f n‖ ^ 2) := fun n =>
    clampedPow_majorize h0 h2 (norm_nonneg _) (norm_nonneg _)
  have hsum := Finset.sum_le_sum fun n (_ : n ∈ Finset.univ) => hmaj n
  rw [Finset.sum_add_distrib] at hsum
  simp only [mul_sub, Finset.sum_sub_distrib] at hsum
  unfold lpError
  linarith

/-- **C45 (whole run).** If no denominator is clamped at any visited iterate, the returned scaling has (clamped) p-norm error at
most that of the unscaled input, for every row. -/
theorem min_distortion_lp_run_descent (p : ℝ) (h0 : 0 < p) (h2 : p < 2) (rtol : ℝ) (maxIter : ℕ) (Y : Fin B → Sig C F N)
    (ref : Fin B → Fin F → Fin N → ℂ) (b : Fin B) (f : Fin F) (c : Fin C)
    (hden : ∀ k : Spec.Scale B F C, (∃ i < maxIter, k = (wlsUpdate (lpWeights p) Y ref)^[i] 1) →
      1e-5 ≤ ∑ n, lpWeights p (fun b f c n => ref b f n - k b f c * Y b c f n) b f c n * ‖Y b c f n‖ ^ 2) :
    ∃ out a, minDist (some p) none rtol maxIter none Y ref = .ok out ∧ (∀ n, out b c f n = a * Y b c f n) ∧
      lpError p (ref b f) (Y b c f) a ≤ lpError p (ref b f) (Y b c f) 1 := by
  obtain ⟨k, h1, hk, -⟩ := min_distortion_lp_run p h0 h2 none (Or.inl rfl) rtol maxIter Y ref
  refine ⟨_, _, h1, fun n => mul_comm _ _, ?_⟩
  have : ∀ j ≤ maxIter, lpError p (ref b f) (Y b c f) (((wlsUpdate (lpWeights p) Y ref)^[j] 1) b f c)
      ≤ lpError p (ref b f) (Y b c f) 1 := by
    intro j
    induction j with
    | zero => intro _; exact le_rfl
    | succ j ih =>
      intro hj
      rw [Function.iterate_succ_apply']
      exact (min_distortion_lp_descent p h0 h2 Y ref _ b f c (hden _ ⟨j, by omega, rfl⟩)).trans (ih (by omega))
  exact this k hk

/-- Non-vacuity of `min_distortion_lp_descent` and `min_distortion_lp_run_descent`: the row `(1, 1)` and the reference
`(1, 3)`, `p = 1`.  All iterates are real numbers between 1 and 3, and no denominator is clamped. -/
example (i : ℕ) : ∃ r : ℝ, 1 ≤ r ∧ r ≤ 3 ∧
    (wlsUpdate (lpWeights 1) (fun _ _ _ _ => 1 : Fin 1 → Sig 1 1 2) (fun _ _ => ![1, 3]))^[i] 1 0 0 0 = r ∧
    1e-5 ≤ ∑ n, lpWeights 1 (fun _ _ _ n => (![1, 3] : Fin 2 → ℂ) n -
      (wlsUpdate (lpWeights 1) (fun _ _ _ _ => 1 : Fin 1 → Sig 1 1 2) (fun _ _ => ![1, 3]))^[i] 1 0 0 0 * 1 :
        MdErr 1 1 1 2) 0 0 0 n * ‖(1 : ℂ)‖ ^ 2 := by
  have hw : ∀ z : ℂ, ∀ r : ℝ, 1 ≤ r → r ≤ 3 → z = r → (∀ n : Fin 2, 1 / 4 ≤ 1 / max (2 * ‖(![1, 3] : Fin 2 → ℂ) n - z * 1‖ ^ ((2 : ℝ) - 1)) 1e-5) := by
    rintro z r h1 h3 rfl n
    have hn : ‖(![1, 3] : Fin 2 → ℂ) n - (r : ℂ) * 1‖ ≤ 2 := by
      fin_cases n
      · have : ((1 : ℂ) - (r : ℂ) * 1) = ((1 - r : ℝ) : ℂ) := by push_cast; ring
        simp only [Fin.zero_eta, Matrix.cons_val_zero]
        rw [this, Complex.norm_real, Real.norm_eq_abs, abs_le]
        constructor <;> linarith
      · have : ((3 : ℂ) - (r : ℂ) * 1) = ((3 - r : ℝ) : ℂ) := by push_cast; ring
        simp only [Fin.mk_one, Matrix.cons_val_one, Matrix.cons_val_fin_one]
        rw [this, Complex.norm_real, Real.norm_eq_abs, abs_le]
        constructor <;> linarith
    rw [show (2 : ℝ) - 1 = 1 by norm_num, Real.rpow_one]
    refine one_div_le_one_div_of_le (lt_of_lt_of_le (by norm_num) (le_max_right _ _)) (max_le (by linarith) (by norm_num))
  have hden : ∀ z : ℂ, ∀ r : ℝ, 1 ≤ r → r ≤ 3 → z = r → 1e-5 ≤ ∑ n, lpWeights 1
      (fun _ _ _ n => (![1, 3] : Fin 2 → ℂ) n - z * 1 : MdErr 1 1 1 2) 0 0 0 n * ‖(1 : ℂ)‖ ^ 2 := by
    intro z r h1 h3 hz
    have := hw z r h1 h3 hz
    rw [Fin.sum_univ_two]
    simp only [lpWeights, norm_one, one_pow, mul_one] at this ⊢
    have h0 := this 0
    have h1 := this 1
    linarith
  have key : ∃ r : ℝ, 1 ≤ r ∧ r ≤ 3 ∧
      (wlsUpdate (lpWeights 1) (fun _ _ _ _ => 1 : Fin 1 → Sig 1 1 2) (fun _ _ => ![1, 3]))^[i] 1 0 0 0 = r := by
    induction i with
    | zero => exact ⟨1, le_rfl, by norm_num, by simp⟩
    | succ i ih =>
      obtain ⟨r, h1, h3, hr⟩ := ih
      rw [Function.iterate_succ_apply']
      set k := (wlsUpdate (lpWeights 1) (fun _ _ _ _ => 1 : Fin 1 → Sig 1 1 2) (fun _ _ => ![1, 3]))^[i] 1 with hk
      have hd := hden (k 0 0 0) r h1 h3 hr
      have hp := hw (k 0 0 0) r h1 h3 hr
      set w0 := lpWeights 1 (fun _ _ _ n => (![1, 3] : Fin 2 → ℂ) n - k 0 0 0 * 1 : MdErr 1 1 1 2) 0 0 0 0 with hw0
      set w1 := lpWeights 1 (fun _ _ _ n => (![1, 3] : Fin 2 → ℂ) n - k 0 0 0 * 1 : MdErr 1 1 1 2) 0 0 0 1 with hw1
      have p0 : 1 / 4 ≤ w0 := hp 0
      have p1 : 1 / 4 ≤ w1 := hp 1
      refine ⟨(w0 + 3 * w1) / (w0 + w1), ?_, ?_, ?_⟩
      · rw [le_div_iff₀ (by linarith)]; linarith
      · rw [div_le_iff₀ (by linarith)]; linarith
      · have e : wlsUpdate (lpWeights 1) (fun _ _ _ _ => 1 : Fin 1 → Sig 1 1 2) (fun _ _ => ![1, 3]) k 0 0 0
            = (∑ n, (lpWeights 1 (fun b f c n => (![1, 3] : Fin 2 → ℂ) n - k b f c * 1 : MdErr 1 1 1 2) 0 0 0 n : ℂ)
                * ((![1, 3] : Fin 2 → ℂ) n * star 1))
              / ((max (∑ n, lpWeights 1 (fun b f c n => (![1, 3] : Fin 2 → ℂ) n - k b f c * 1 : MdErr 1 1 1 2) 0 0 0 n
                * ‖(1 : ℂ)‖ ^ 2) 1e-5 : ℝ) : ℂ) := rfl
        have s0 : lpWeights 1 (fun b f c n => (![1, 3] : Fin 2 → ℂ) n - k b f c * 1 : MdErr 1 1 1 2) 0 0 0 0 = w0 := rfl
        have s1 : lpWeights 1 (fun b f c n => (![1, 3] : Fin 2 → ℂ) n - k b f c * 1 : MdErr 1 1 1 2) 0 0 0 1 = w1 := rfl
        rw [e, Fin.sum_univ_two, Fin.sum_univ_two, s0, s1, norm_one, one_pow, mul_one, mul_one,
          max_eq_left (by linarith)]
        simp
        ring
  obtain ⟨r, h1, h3, hr⟩ := key
  exact ⟨r, h1, h3, hr, hden _ r h1 h3 hr⟩

/-! ## C46 batch independence -/

/-- Constant sources and one nonzero reference frame: item `b` has reference `(0, 0, a b)`. -/
noncomputable def stepRef (a : Fin B → ℝ) : Fin B → Fin 1 → Fin 3 → ℂ := fun b _ => ![0, 0, (a b : ℂ)]

private lemma stepRef_update (a x : Fin B → ℝ) (hx : ∀ b, 1e-5 ≤ x b ∧ x b ≤ 1) (ha : ∀ b, x b + 1e-5 ≤ a b) :
    wlsUpdate (lpWeights 1) (fun (_ : Fin B) (_ : Fin 1) (_ : Fin 1) _ => 1) (stepRef a) (fun b _ _ => (x b : ℂ))
      = fun b _ _ => ((a b * x b / (2 * a b - x b) : ℝ) : ℂ) := by
  funext b f c
  have h1 := (hx b).1
  have h1' := (hx b).2
  have h2 := ha b
  have hx0 : 0 < x b := lt_of_lt_of_le (by norm_num) h1
  have hax : 0 < a b - x b := lt_of_lt_of_le (by norm_num : (0 : ℝ) < 1e-5) (by linarith)
  have n0 : ‖(0 : ℂ) - (x b : ℂ) * 1‖ = x b := by
    rw [mul_one, zero_sub, norm_neg, Complex.norm_real, Real.norm_of_nonneg hx0.le]
  have n1 : ‖((a b : ℝ) : ℂ) - (x b : ℂ) * 1‖ = a b - x b := by
    rw [mul_one, ← Complex.ofReal_sub, Complex.norm_real, Real.norm_of_nonneg hax.le]
  have e : (2 - 1 : ℝ) = 1 := by norm_num
  have m0 : max (2 * x b) 1e-5 = 2 * x b := max_eq_left (by linarith)
  have m1 : max (2 * (a b - x b)) 1e-5 = 2 * (a b - x b) := max_eq_left (by linarith)
  unfold wlsUpdate lpWeights stepRef
  simp only [Fin.sum_univ_three, Matrix.cons_val_zero, Matrix.cons_val_one, Matrix.cons_val_two, Matrix.head_cons,
    Matrix.tail_cons, e, Real.rpow_one, n0, n1, m0, m1, Matrix.cons_val]
  have hD : (1e-5 : ℝ) ≤ 1 / (2 * x b) * ‖(1 : ℂ)‖ ^ 2 + 1 / (2 * x b) * ‖(1 : ℂ)‖ ^ 2
      + 1 / (2 * (a b - x b)) * ‖(1 : ℂ)‖ ^ 2 := by
    simp only [norm_one, one_pow, mul_one]
    have : 1 / 2 ≤ 1 / (2 * x b) := by
      apply one_div_le_one_div_of_le <;> linarith
    have : 0 < 1 / (2 * (a b - x b)) := by positivity
    linarith
  rw [max_eq_left hD]
  simp only [norm_one, one_pow, mul_one, star_one, mul_zero, zero_add]
  rw [← Complex.ofReal_mul, ← Complex.ofReal_div]
  congr 1
  have h3 : 2 * a b - x b ≠ 0 := by linarith
  have h4 : a b - x b ≠ 0 := hax.ne'
  have h5 : x b ≠ 0 := hx0.ne'
  have h6 : 1 / (2 * x b) + 1 / (2 * x b) + 1 / (2 * (a b - x b)) ≠ 0 := by positivity
  rw [div_eq_div_iff h6 h3]
  field_simp
  ring

private lemma iterate_ratio {a d e : ℝ} (ha : 0 < a) (hd : 0 < d) (he : 0 < e) (h : e = 2 * d - 1) :
    a * (a / d) / (2 * a - a / d) = a / e := by
  have h1 : 2 * a - a / d = a * e / d := by rw [h]; field_simp
  rw [h1]
  field_simp

/-- The first three iterates. -/
private lemma stepRef_iterates (a : Fin B → ℝ) (ha : ∀ b, 2 ≤ a b) :
    let U := wlsUpdate (lpWeights 1) (fun (_ : Fin B) (_ : Fin 1) (_ : Fin 1) _ => 1) (stepRef a)
    U^[1] 1 = (fun b _ _ => ((a b / (2 * a b - 1) : ℝ) : ℂ)) ∧ U^[2] 1 = (fun b _ _ => ((a b / (4 * a b - 3) : ℝ) : ℂ)) ∧
    U^[3] 1 = (fun b _ _ => ((a b / (8 * a b - 7) : ℝ) : ℂ)) := by
  intro U
  have h1 : U^[1] 1 = (fun b _ _ => ((a b / (2 * a b - 1) : ℝ) : ℂ)) := by
    have := stepRef_update a (fun _ => 1) (fun b => ⟨by norm_num, le_rfl⟩)
      (fun b => by have := ha b; norm_num; linarith)
    simp only [Complex.ofReal_one, mul_one] at this
    exact this
  have h2 : U^[2] 1 = (fun b _ _ => ((a b / (4 * a b - 3) : ℝ) : ℂ)) := by
    rw [Function.iterate_succ_apply', h1]
    show wlsUpdate _ _ _ (fun b _ _ => (((fun b => a b / (2 * a b - 1)) b : ℝ) : ℂ)) = _
    rw [stepRef_update a (fun b => a b / (2 * a b - 1))]
    · funext b f c
      have := ha b
      congr 1
      exact iterate_ratio (d := 2 * a b - 1) (e := 4 * a b - 3) (by linarith) (by linarith) (by linarith) (by ring)
    · intro b
      have := ha b
      have hp : 0 < 2 * a b - 1 := by linarith
      refine ⟨?_, ?_⟩
      · rw [le_div_iff₀ hp]; norm_num; linarith
      · rw [div_le_one hp]; linarith
    · intro b
      have := ha b
      have hp : 0 < 2 * a b - 1 := by linarith
      have : a b / (2 * a b - 1) ≤ 1 := by rw [div_le_one hp]; linarith
      norm_num
      linarith
  refine ⟨h1, h2, ?_⟩
  rw [Function.iterate_succ_apply', h2]
  show wlsUpdate _ _ _ (fun b _ _ => (((fun b => a b / (4 * a b - 3)) b : ℝ) : ℂ)) = _
  rw [stepRef_update a (fun b => a b / (4 * a b - 3))]
  · funext b f c
    have := ha b
    congr 1
    exact iterate_ratio (d := 4 * a b - 3) (e := 8 * a b - 7) (by linarith) (by linarith) (by linarith) (by ring)
  · intro b
    have := ha b
    have hp : 0 < 4 * a b - 3 := by linarith
    refine ⟨?_, ?_⟩
    · rw [le_div_iff₀ hp]; norm_num; linarith
    · rw [div_le_one hp]; linarith
  · intro b
    have := ha b
    have hp : 0 < 4 * a b - 3 := by linarith
    have : a b / (4 * a b - 3) ≤ 1 := by rw [div_le_one hp]; linarith
    norm_num
    linarith

private lemma close_sq (rtol : ℝ) (hr : 0 ≤ rtol) (k k' : Spec.Scale B F C) (hk : 0 < ∑ b, ∑ f, ∑ c, ‖k b f c‖ ^ 2) :
    Close rtol k k' ↔ ∑ b, ∑ f, ∑ c, ‖k' b f c - k b f c‖ ^ 2 < rtol ^ 2 * ∑ b, ∑ f, ∑ c, ‖k b f c‖ ^ 2 := by
  unfold Close scaleNorm
  have e : rtol * √(∑ b, ∑ f, ∑ c, ‖k b f c‖ ^ 2) = √(rtol ^ 2 * ∑ b, ∑ f, ∑ c, ‖k b f c‖ ^ 2) := by
    rw [Real.sqrt_mul (sq_nonneg _), Real.sqrt_sq hr]
  rw [e]
  constructor
  · rintro ⟨-, h⟩
    exact (Real.sqrt_lt_sqrt_iff (Finset.sum_nonneg fun _ _ => Finset.sum_nonneg fun _ _ => Finset.sum_nonneg
      fun _ _ => by positivity)).1 h
  · intro h
    exact ⟨Real.sqrt_pos.2 hk, Real.sqrt_lt_sqrt (Finset.sum_nonneg fun _ _ => Finset.sum_nonneg fun _ _ =>
      Finset.sum_nonneg fun _ _ => by positivity) h⟩

/-- **C46 is violated.** A two-item batch whose first item, scaled in the batch, differs from the same item scaled alone, with the
same arguments (`p = 1`, `rtol = 0.42`, `max_iter = 3`). -/
theorem min_distortion_batch_violated :
    ∃ (Y : Fin 2 → Sig 1 1 3) (ref : Fin 2 → Fin 1 → Fin 3 → ℂ) (out : Fin 2 → Sig 1 1 3) (out0 : Fin 1 → Sig 1 1 3),
      minDist (some 1) none 0.42 3 none Y ref = .ok out ∧
      minDist (some 1) none 0.42 3 none (fun _ => Y 0) (fun _ => ref 0) = .ok out0 ∧ out 0 ≠ out0 0 := by
  set Y : ∀ B : ℕ, Fin B → Sig 1 1 3 := fun _ _ _ _ _ => 1 with hY
  obtain ⟨k, hk, hkm, hks, hke⟩ := min_distortion_lp_run 1 (by norm_num) (by norm_num) none (Or.inl rfl) 0.42 3 (Y 2)
    (stepRef ![2, 10])
  obtain ⟨j, hj, hjm, hjs, hje⟩ := min_distortion_lp_run 1 (by norm_num) (by norm_num) none (Or.inl rfl) 0.42 3 (Y 1)
    (stepRef ![2])
  obtain ⟨i1, i2, i3⟩ := stepRef_iterates (![2, 10] : Fin 2 → ℝ) (by intro b; fin_cases b <;> norm_num)
  obtain ⟨s1, s2, s3⟩ := stepRef_iterates (![2] : Fin 1 → ℝ) (by intro b; fin_cases b; norm_num)
  -- the batch does not stop at two
  have nk : ¬ Close 0.42 ((wlsUpdate (lpWeights 1) (Y 2) (stepRef ![2, 10]))^[2 - 1] 1)
      ((wlsUpdate (lpWeights 1) (Y 2) (stepRef ![2, 10]))^[2] 1) := by
    rw [show 2 - 1 = 1 from rfl, i1, i2, close_sq _ (by norm_num)]
    · simp only [Fin.sum_univ_two, Fin.sum_univ_one, Matrix.cons_val_zero, Matrix.cons_val_one, Matrix.cons_val_fin_one,
        ← Complex.ofReal_sub, Complex.norm_real, Real.norm_eq_abs, sq_abs]
      norm_num
    · simp only [Fin.sum_univ_two, Fin.sum_univ_one, Matrix.cons_val_zero, Matrix.cons_val_one, Matrix.cons_val_fin_one,
        Complex.norm_real, Real.norm_eq_abs, sq_abs]
      norm_num
  have cj : Close 0.42 ((wlsUpdate (lpWeights 1) (Y 1) (stepRef ![2]))^[2 - 1] 1)
      ((wlsUpdate (lpWeights 1) (Y 1) (stepRef ![2]))^[2] 1) := by
    rw [show 2 - 1 = 1 from rfl, s1, s2, close_sq _ (by norm_num)]
    · simp only [Fin.sum_univ_one, Matrix.cons_val_zero, Matrix.cons_val_fin_one,
        ← Complex.ofReal_sub, Complex.norm_real, Real.norm_eq_abs, sq_abs]
      norm_num
    · simp only [Fin.sum_univ_one, Matrix.cons_val_zero, Matrix.cons_val_fin_one,
        Complex.norm_real, Real.norm_eq_abs, sq_abs]
      norm_num
  have k3 : k = 3 := by
    rcases hke with h | ⟨h2, hc⟩
    · exact h
    · rcases Nat.lt_or_ge 2 k with h | h
      · omega
      · have : k = 2 := by omega
        subst this
        exact absurd hc nk
  have j2 : j = 2 := by
    rcases hje with h | ⟨h2, hc⟩
    · subst h
      exact absurd cj (hjs 2 le_rfl (by norm_num))
    · rcases Nat.lt_or_ge 2 j with h | h
      · exact absurd cj (hjs 2 le_rfl h)
      · omega
  subst k3 j2
  have hsr : (fun _ : Fin 1 => stepRef (![2, 10] : Fin 2 → ℝ) 0) = stepRef (![2] : Fin 1 → ℝ) := by
    funext b; fin_cases b; rfl
  refine ⟨Y 2, stepRef ![2, 10], _, _, hk, (by rw [hsr]; exact hj), fun h => ?_⟩
  · have := congrFun (congrFun (congrFun h 0) 0) 0
    simp only [hY, one_mul] at this
    erw [i3, s2] at this
    simp only [Matrix.cons_val_zero] at this
    have h' := Complex.ofReal_injective this
    norm_num at h'

private lemma mdWeights_itemwise (p q : Option ℝ) :
    (∃ w : (Fin F → Fin C → Fin N → ℂ) → Fin F → Fin C → Fin N → ℝ, ∀ (B : ℕ) (E : MdErr B F C N),
      mdWeights p q none E = .ok fun b => w (E b)) ∨
    (∃ e, ∀ (B : ℕ) (E : MdErr B F C N), mdWeights p q none E = .error e) := by
  have hlp : ∀ p : ℝ, (∃ w : (Fin F → Fin C → Fin N → ℂ) → Fin F → Fin C → Fin N → ℝ, ∀ (B : ℕ) (E : MdErr B F C N),
      lpNorm E p = .ok fun b => w (E b)) ∨ (∃ e, ∀ (B : ℕ) (E : MdErr B F C N), lpNorm E p = .error e) := by
    intro p
    unfold lpNorm
    split_ifs with h
    · exact Or.inl ⟨fun E f c n => p / clampMin (2 * ‖E f c n‖ ^ (2 - p)) 1e-5, fun B E => rfl⟩
    · exact Or.inr ⟨_, fun B E => rfl⟩
  have hlpq : ∀ p q : ℝ, (∃ w : (Fin F → Fin C → Fin N → ℂ) → Fin F → Fin C → Fin N → ℝ,
      ∀ (B : ℕ) (E : MdErr B F C N), lpqNorm E p q = .ok fun b => w (E b)) ∨
      (∃ e, ∀ (B : ℕ) (E : MdErr B F C N), lpqNorm E p q = .error e) := by
    intro p q
    unfold lpqNorm
    split_ifs with h
    · exact Or.inl ⟨fun E f c n => p / clampMin (2 * (∑ f, ((‖E f c n‖ + 1e-5) ^ q + 1e-5)) ^ (1 - p / q)
        * |(‖E f c n‖ + 1e-5) ^ q + 1e-5| ^ (2 - q)) 1e-5, fun B E => rfl⟩
    · exact Or.inr ⟨_, fun B E => rfl⟩
  unfold mdWeights
  rcases p with _ | p
  · exact Or.inr ⟨_, fun B E => rfl⟩
  · rcases q with _ | q
    · exact hlp p
    · by_cases h : p = q
      · simp only [h, if_true]
        exact hlp q
      · simp only [h, if_false]
        exact hlpq p q

/-- **C46 (partial: when the stopping rule never fires).** With `rtol ≤ 0` (and no learnable model) every batch item is scaled as
if it were alone, for all `p`, `q` and `max_iter`, including the errors raised. -/
theorem min_distortion_batch_partial (p q : Option ℝ) (rtol : ℝ) (hr : rtol ≤ 0) (maxIter : ℕ) (Y : Fin B → Sig C F N)
    (ref : Fin B → Fin F → Fin N → ℂ) (b : Fin B) :
    (minDist p q rtol maxIter none Y ref).map (fun o => o b)
      = (minDist p q rtol maxIter none (fun _ : Fin 1 => Y b) (fun _ => ref b)).map (fun o => o 0) := by
  have hnot : ∀ (B : ℕ) (k k' : MdScale B F C), ¬ (mdNorm k ≠ 0 ∧ mdNorm (fun b f c => k' b f c - k b f c) / mdNorm k < rtol) := by
    intro B k k' ⟨h1, h2⟩
    have : 0 ≤ mdNorm (fun b f c => k' b f c - k b f c) / mdNorm k := div_nonneg (Real.sqrt_nonneg _) (Real.sqrt_nonneg _)
    linarith
  by_cases hd : p = none ∨ (p = some 2 ∧ (q = none ∨ p = q))
  · unfold minDist
    rw [if_pos ⟨rfl, hd⟩, if_pos ⟨rfl, hd⟩]
    rfl
  unfold minDist
  rw [if_neg (fun h => hd h.2), if_neg (fun h => hd h.2)]
  rcases mdWeights_itemwise (F := F) (C := C) (N := N) p q with ⟨w, hw⟩ | ⟨e, he⟩
  · -- the loop, item by item
    have hstep : ∀ (B : ℕ) (Y : Fin B → Sig C F N) (ref : Fin B → Fin F → Fin N → ℂ) (k : MdScale B F C),
        mdStep p q none Y ref k = .ok fun b f c =>
          (∑ n, ref b f n * star (Y b c f n) * (w (fun f c n => ref b f n - k b f c * Y b c f n) f c n : ℂ)) /
            ((clampMin (∑ n, ‖Y b c f n‖ ^ 2 * w (fun f c n => ref b f n - k b f c * Y b c f n) f c n) 1e-5 : ℝ) : ℂ) := by
      intro B Y ref k
      unfold mdStep
      simp only [hw, bind, Except.bind]
      rfl
    have hloop : ∀ (fuel : ℕ) (pr : Option (MdScale B F C)) (pr1 : Option (MdScale 1 F C)) (k : MdScale B F C)
        (k1 : MdScale 1 F C), k b = k1 0 →
        ∃ o o1, mdLoop (mdStep p q none Y ref) rtol fuel pr k = .ok o ∧
          mdLoop (mdStep p q none (fun _ : Fin 1 => Y b) (fun _ => ref b)) rtol fuel pr1 k1 = .ok o1 ∧ o b = o1 0 := by
      intro fuel
      induction fuel with
      | zero =>
        intro pr pr1 k k1 h
        exact ⟨k, k1, by cases pr <;> rfl, by cases pr1 <;> rfl, h⟩
      | succ fuel ih =>
        intro pr pr1 k k1 h
        have key : ∀ (B : ℕ) (Y : Fin B → Sig C F N) (ref : Fin B → Fin F → Fin N → ℂ) (pr : Option (MdScale B F C))
            (k k' : MdScale B F C), mdStep p q none Y ref k = .ok k' →
            mdLoop (mdStep p q none Y ref) rtol (fuel + 1) pr k
              = mdLoop (mdStep p q none Y ref) rtol fuel (some k') k' := by
          intro B Y ref pr k k' hk
          cases pr with
          | none => simp only [mdLoop, hk, bind, Except.bind]
          | some pr =>
            simp only [mdLoop, hk, bind, Except.bind]
            rw [if_neg (hnot _ _ _)]
        rw [key _ _ _ _ _ _ (hstep _ _ _ _), key _ _ _ _ _ _ (hstep _ _ _ _)]
        apply ih
        funext f c
        simp only [h]
    obtain ⟨o, o1, h1, h2, h3⟩ := hloop maxIter none none (fun _ _ _ => 1) (fun _ _ _ => 1) rfl
    simp only [h1, h2, bind, Except.bind]
    show Except.ok _ = Except.ok _
    congr 1
    funext c f n
    simp only [h3]
  · cases maxIter with
    | zero => rfl
    | succ m => simp only [mdLoop, mdStep, he, bind, Except.bind, Except.map]

example (Y : Fin 3 → Sig 2 4 5) (ref) : (minDist (some 1) none 0 10 none Y ref).map (fun o => o 2)
    = (minDist (some 1) none 0 10 none (fun _ : Fin 1 => Y 2) (fun _ => ref 2)).map (fun o => o 0) :=
  min_distortion_batch_partial _ _ _ le_rfl _ _ _ _

/-! ## C47 projection back -/

/-- **C47.** With at least as many frames as channels, whenever `projection_back` returns there are `C` distinct frames, no other
frame having more total magnitude than any of them, and one factor per row such that on the `k`-th frame the scaled sources
sum to the reference minus `1e-5` times the factor of source `k`. -/
theorem projection_back_reproduces (argsort) (hs : ArgsortContract N argsort) (Y : Sig C F N) (ref : Fin F → Fin N → ℂ)
    (out : Sig C F N) (h : projectionBack argsort Y ref = .ok out) :
    ∃ (fr : Fin C → Fin N) (a : Fin C → Fin F → ℂ), Function.Injective fr ∧
      (∀ k n, n ∉ Set.range fr → ∑ f, ∑ c, ‖Y c f n‖ ≤ ∑ f, ∑ c, ‖Y c f (fr k)‖) ∧
      (∀ c f n, out c f n = a c f * Y c f n) ∧
      ∀ f k, ∑ c, out c f (fr k) + 1e-5 * a k f = ref f (fr k) := by
  unfold projectionBack at h
  split_ifs at h with hCN
  simp only [bind, Except.bind] at h
  split at h
  · cases h
  rename_i sc hsc
  cases h
  set en : Fin N → ℝ := fun n => ∑ f, ∑ c, ‖Y c f n‖ with hen
  set fr : Fin C → Fin N := fun k => argsort en ⟨N - C + k, by omega⟩ with hfr
  refine ⟨fr, fun c f => sc f c (), ?_, ?_, fun c f n => mul_comm _ _, fun f k => ?_⟩
  · intro i j hij
    have := (argsort en).injective hij
    simp only [Fin.mk.injEq] at this
    ext
    omega
  · intro k n hn
    obtain ⟨m, rfl⟩ := (argsort en).surjective n
    apply hs en
    show (m : ℕ) ≤ N - C + k
    by_contra hlt
    push Not at hlt
    apply hn
    refine ⟨⟨m - (N - C), by omega⟩, ?_⟩
    rw [hfr]
    simp only
    congr 1
    ext
    simp only
    omega
  · have h1 := seqAll_ok_iff.1 hsc f
    have h2 := (solve_ok h1).2
    have h3 := congrFun (congrFun h2 k) ()
    rw [Matrix.add_mul, Matrix.add_apply, Matrix.smul_mul, Matrix.one_mul, Matrix.mul_apply] at h3
    simpa using h3

/-- **C47 (outside the hypotheses).** With fewer frames than channels it raises. -/
theorem projection_back_too_few_frames (argsort) (Y : Sig C F N) (ref : Fin F → Fin N → ℂ) (h : N < C) :
    projectionBack argsort Y ref = .error .runtimeError := by
  unfold projectionBack
  rw [dif_neg (by omega)]

example (argsort) (Y : Sig 3 5 2) (ref : Fin 5 → Fin 2 → ℂ) : projectionBack argsort Y ref = .error .runtimeError :=
  projection_back_too_few_frames argsort Y ref (by norm_num)

/-- **C47.** With at least as many frames as channels (equality included) the call returns, provided that at every frequency the
loaded matrix of any `C` distinct frames is invertible. -/
theorem projection_back_succeeds (argsort) (Y : Sig C F N) (ref : Fin F → Fin N → ℂ) (hCN : C ≤ N)
    (h : ∀ (fr : Fin C → Fin N) f, Function.Injective fr →
      ((Matrix.of fun k c => Y c f (fr k)) + (1e-5 : ℂ) • (1 : Matrix (Fin C) (Fin C) ℂ)).det ≠ 0) :
    ∃ out, projectionBack argsort Y ref = .ok out := by
  unfold projectionBack
  rw [dif_pos hCN]
  set en : Fin N → ℝ := fun n => ∑ f, ∑ c, ‖Y c f n‖
  have hinj : Function.Injective fun k : Fin C => argsort en ⟨N - C + k, by omega⟩ := by
    intro i j hij
    have := (argsort en).injective hij
    simp only [Fin.mk.injEq] at this
    ext
    omega
  choose a ha using fun f : Fin F => solve_spec (Matrix.of fun (k : Fin C) (_ : Unit) => ref f (argsort en ⟨N - C + k, by omega⟩))
    (isUnit_iff_ne_zero.2 (h _ f hinj))
  simp only [bind, Except.bind, seqAll_ok_iff.2 fun f => (ha f).1]
  exact ⟨_, rfl⟩

/-- Two sources and two frames, sources active in turn. -/
example (argsort) (ref : Fin 1 → Fin 2 → ℂ) :
    ∃ out, projectionBack argsort (fun c _ n => if c = n then 2 else 0 : Sig 2 1 2) ref = .ok out := by
  refine projection_back_succeeds argsort _ ref le_rfl fun fr f hfr => ?_
  rw [Matrix.det_fin_two]
  have h01 : fr 0 ≠ fr 1 := fun h => absurd (hfr h) (by decide)
  simp only [Matrix.add_apply, Matrix.of_apply, Matrix.smul_apply, Matrix.one_apply, smul_eq_mul]
  generalize fr 0 = a at *
  generalize fr 1 = b at *
  fin_cases a <;> fin_cases b <;> simp at h01 ⊢ <;> norm_num

/-- Non-vacuity of `projection_back_reproduces` (C47): a sorting function exists, and for one source with one loud frame the call returns. -/
example : (∃ argsort, ArgsortContract 2 argsort) ∧ ∀ argsort, ArgsortContract 2 argsort →
    ∃ out, projectionBack argsort (fun _ _ n => if n = 0 then 1 else 2 : Sig 1 1 2) (fun _ _ => 3) = .ok out := by
  refine ⟨⟨fun v => Tuple.sort v, fun v => Tuple.monotone_sort v⟩, fun argsort _ => ?_⟩
  have : ∀ (fr : Fin 1 → Fin 2) (f : Fin 1), ∃ a, solve ((Matrix.of fun k c => (if fr k = 0 then (1 : ℂ) else 2))
      + (1e-5 : ℂ) • (1 : Matrix (Fin 1) (Fin 1) ℂ)) (Matrix.of fun (k : Fin 1) (_ : Unit) => (3 : ℂ)) = .ok a := by
    intro fr f
    unfold solve
    rw [if_pos]
    · exact ⟨_, rfl⟩
    · rw [Matrix.det_fin_one]
      simp only [Matrix.add_apply, Matrix.of_apply, Matrix.smul_apply, Matrix.one_apply_eq, smul_eq_mul, mul_one]
      split_ifs <;> norm_num
  unfold projectionBack
  rw [dif_pos (by norm_num)]
  obtain ⟨a, ha⟩ : ∃ a, seqAll (fun f : Fin 1 => solve _ _) = .ok a :=
    ⟨_, seqAll_ok_iff.2 fun f => (this (fun k => argsort (fun n => ∑ f : Fin 1, ∑ c : Fin 1, ‖(if n = 0 then 1 else 2 : ℂ)‖)
      ⟨2 - 1 + k, by omega⟩) f).choose_spec⟩
  simp only [bind, Except.bind]
  erw [ha]
  exact ⟨_, rfl⟩

/-! ## C76 mixed-norm weights -/

/-- Weights of the majoriser of `(sum_f s_f)^(p/q)`, `s_f = |e_f|^q`, as a function of the (smoothed) powers `s`. -/
noncomputable def mixedWeight (p q : ℝ) (s : Fin F → ℝ) (f : Fin F) : ℝ :=
  p / max (2 * (∑ g, s g) ^ (1 - p / q) * (s f ^ (1 / q)) ^ (2 - q)) 1e-5

/-- **C76 (partial: `q = 1` or `q = 2`).** The weights used with a mixed norm are those of the majoriser of the mixed norm. -/
theorem lpq_weights_partial (p q : ℝ) (h0 : 0 < p) (hpq : p ≤ q) (hq : q = 1 ∨ q = 2) (E : MdErr B F C N) :
    ∃ w, lpqNorm E p q = .ok w ∧
      ∀ b f c n, w b f c n = mixedWeight p q (fun g => (‖E b g c n‖ + 1e-5) ^ q + 1e-5) f := by
  unfold lpqNorm
  rw [if_pos ⟨h0, hpq, by rcases hq with h | h <;> rw [h] <;> norm_num⟩]
  refine ⟨_, rfl, fun b f c n => ?_⟩
  unfold mixedWeight clampMin
  have hpos : 0 < (‖E b f c n‖ + 1e-5) ^ q + 1e-5 := by
    have : 0 ≤ (‖E b f c n‖ + 1e-5) ^ q := Real.rpow_nonneg (by positivity) _
    linarith
  simp only
  rw [abs_of_pos hpos]
  rcases hq with h | h
  · subst h; norm_num
  · subst h; norm_num

/-- `p = 1/2`, `q = 1`. -/
example (E : MdErr 1 2 3 4) : ∃ w, lpqNorm E (1 / 2) 1 = .ok w :=
  (lpq_weights_partial (1 / 2) 1 (by norm_num) (by norm_num) (Or.inl rfl) E).imp fun _ h => h.1

/-- **C76 is violated** for `q = 3/2`: the code raises the power `|e|^q` instead of `|e|` to `2 - q`. -/
theorem lpq_weights_violated :
    ∃ (E : MdErr 1 1 1 1) (w : MdWeights 1 1 1 1), lpqNorm E 1 (3 / 2) = .ok w ∧
      w 0 0 0 0 ≠ mixedWeight 1 (3 / 2) (fun g => (‖E 0 g 0 0‖ + 1e-5) ^ (3 / 2 : ℝ) + 1e-5) 0 := by
  refine ⟨fun _ _ _ _ => 4, ?_⟩
  unfold lpqNorm
  rw [if_pos ⟨by norm_num, by norm_num, by norm_num⟩]
  refine ⟨_, rfl, ?_⟩
  unfold mixedWeight clampMin
  simp only [Fin.sum_univ_one]
  set s : ℝ := (‖(4 : ℂ)‖ + 1e-5) ^ (3 / 2 : ℝ) + 1e-5 with hs
  have hs1 : 1 < s := by
    have : (1 : ℝ) ≤ (‖(4 : ℂ)‖ + 1e-5) ^ (3 / 2 : ℝ) := by
      apply Real.one_le_rpow _ (by norm_num)
      simp; norm_num
    rw [hs]; linarith
  have hs0 : 0 < s := by linarith
  rw [abs_of_pos hs0, ← Real.rpow_mul hs0.le, mul_assoc, mul_assoc, ← Real.rpow_add hs0, ← Real.rpow_add hs0]
  have a1 : (1 : ℝ) ≤ s ^ (1 - 1 / (3 / 2) + (2 - 3 / 2) : ℝ) := Real.one_le_rpow hs1.le (by norm_num)
  have a2 : (1 : ℝ) ≤ s ^ (1 - 1 / (3 / 2) + 1 / (3 / 2) * (2 - 3 / 2) : ℝ) := Real.one_le_rpow hs1.le (by norm_num)
  rw [max_eq_left (by linarith), max_eq_left (by linarith)]
  have hlt : s ^ (1 - 1 / (3 / 2) + 1 / (3 / 2) * (2 - 3 / 2) : ℝ) < s ^ (1 - 1 / (3 / 2) + (2 - 3 / 2) : ℝ) :=
    Real.rpow_lt_rpow_of_exponent_lt hs1 (by norm_num)
  apply ne_of_lt
  exact div_lt_div_of_pos_left (by norm_num) (by linarith) (by linarith)

end Torchiva.Props
