import Verif.Proofs.Rearrange
import Verif.Props.RtfPower
import Verif.Props.Wpe

/-!
# C102: the order of the microphones does not matter to the beamformers and to WPE
-/

namespace Torchiva.Props

open Torchiva Matrix Spec
open scoped ComplexOrder

variable {C S F N : ℕ}

/-- **C102 (MWF).** With the microphones, frames and frequencies listed in another order, another phase convention and `ref_mic`
pointing to the same microphone, the multichannel Wiener filter returns the same signals, in both modes. -/
theorem mwf_microphone_order (r : Reorder F N) (π : Equiv.Perm (Fin C)) (maskModel : (Fin F → Fin N → ℂ) → MaskOut S F N)
    (hm : FollowsMask r maskModel) (ref : Fin C) (eps : ℝ) (timeInvariant : Bool) (X : Sig C F N) (Y : Sig S F N) :
    mwfForward maskModel (π ref) eps timeInvariant X = .ok Y ↔
    mwfForward maskModel ref eps timeInvariant (r.sig (relabel π X)) = .ok (r.sig Y) := by
  refine iff_of_image r (fun Y' => ?_) Y
  unfold mwfForward
  have hmask : maskModel (r.sig (relabel π X) ref) = _ := hm (X (π ref))
  rw [hmask]
  generalize maskModel (X (π ref)) = mo
  obtain ⟨M, masks⟩ := mo
  simp only
  by_cases h2 : 2 ≤ M
  swap
  · rw [dif_neg h2, dif_neg h2]
    exact ⟨fun h => (by cases h), fun ⟨_, h, _⟩ => (by cases h)⟩
  rw [dif_pos h2, dif_pos h2]
  cases timeInvariant with
  | true =>
    simp only [if_true]
    refine forward_one r π X _ _ (fun p => ?_) Y'
    rw [maskCov_rearrange, maskCov_rearrange, mwfBfRef_submatrix]
    rfl
  | false =>
    simp only [Bool.false_eq_true, if_false]
    by_cases h4 : M = 4
    swap
    · rw [dif_neg h4, dif_neg h4]
      exact ⟨fun h => (by cases h), fun ⟨_, h, _⟩ => (by cases h)⟩
    rw [dif_pos h4, dif_pos h4]
    subst h4
    refine forward_frames r π X _ _ (fun p => ?_) Y'
    rw [maskCov_rearrange, maskCov_rearrange, ← smul_submatrix, ← smul_submatrix, mwfBfRef_submatrix]
    rfl

/-- **C102 (MVDR from covariance matrices).** The `scm` variant with two masks follows every order of the microphones. -/
theorem mvdr_scm_microphone_order [NeZero C] (r : Reorder F N) (π : Equiv.Perm (Fin C)) (solver)
    (maskModel : (Fin F → Fin N → ℂ) → MaskOut S F N) (hm : FollowsMask r maskModel) (ref : Fin C) (eps : ℝ) (nPower : Option ℕ)
    (X : Sig C F N) (h2 : (maskModel (X (π ref))).1 = 2) (Y : Sig S F N) :
    mvdrForward solver maskModel (π ref) eps "scm" nPower X = .ok Y ↔
    mvdrForward solver maskModel ref eps "scm" nPower (r.sig (relabel π X)) = .ok (r.sig Y) := by
  refine iff_of_image r (fun Y' => ?_) Y
  unfold mvdrForward
  have hmask : maskModel (r.sig (relabel π X) ref) = _ := hm (X (π ref))
  rw [hmask]
  generalize maskModel (X (π ref)) = mo at *
  obtain ⟨M, masks⟩ := mo
  simp only at h2
  subst h2
  simp only [if_neg (show ¬ ("scm" = "rtf") by decide), if_true]
  refine forward_one r π X _ _ (fun p => ?_) Y'
  rw [maskCov_rearrange, maskCov_rearrange, mvdrBf2_submatrix]
  rfl

private lemma mvdr_rtf_core [NeZero C] (r : Reorder F N) (π : Equiv.Perm (Fin C)) (solver)
    (maskModel : (Fin F → Fin N → ℂ) → MaskOut S F N) (hm : FollowsMask r maskModel) (ref : Fin C) (eps : ℝ) (nPower : Option ℕ)
    (X : Sig C F N) (h3 : (maskModel (X (π ref))).1 = 2 ∨ (maskModel (X (π ref))).1 = 3)
    (hr : ∀ (M : ℕ) (masks : Fin S → Fin M → Fin F → Fin N → ℝ), maskModel (X (π ref)) = ⟨M, masks⟩ → ∀ (a b : Fin M) s f,
      a.1 = 0 → b.1 + 1 = M →
      mvdrRtf solver ((maskCov (masks s a) X f).submatrix π π) ((maskCov (masks s b) X f).submatrix π π) ref nPower
        = (mvdrRtf solver (maskCov (masks s a) X f) (maskCov (masks s b) X f) (π ref) nPower).map fun w => w ∘ π) (Y : Sig S F N) :
    mvdrForward solver maskModel (π ref) eps "rtf" nPower X = .ok Y ↔
    mvdrForward solver maskModel ref eps "rtf" nPower (r.sig (relabel π X)) = .ok (r.sig Y) := by
  refine iff_of_image r (fun Y' => ?_) Y
  unfold mvdrForward
  have hmask : maskModel (r.sig (relabel π X) ref) = _ := hm (X (π ref))
  rw [hmask]
  generalize maskModel (X (π ref)) = mo at *
  obtain ⟨M, masks⟩ := mo
  simp only at h3
  rcases h3 with h3 | h3
  · subst h3
    simp only [if_true]
    refine forward_two r π X _ _ (fun p => ?_) (fun p d => mvdrBf (maskCov (masks p.1 1) X p.2) d eps)
      (fun p d => mvdrBf (maskCov (fun f n => masks p.1 1 (r.freq f) (r.frame n)) (r.sig (relabel π X)) p.2) d eps) (fun p d => ?_) Y'
    · rw [maskCov_rearrange, maskCov_rearrange]
      exact hr 2 masks rfl 0 1 p.1 (r.freq p.2) rfl rfl
    · rw [maskCov_rearrange]
      exact mvdrBf_submatrix π _ d eps
  · subst h3
    simp only
    refine forward_two r π X _ _ (fun p => ?_) (fun p d => mvdrBf (maskCov (masks p.1 1) X p.2) d eps)
      (fun p d => mvdrBf (maskCov (fun f n => masks p.1 1 (r.freq f) (r.frame n)) (r.sig (relabel π X)) p.2) d eps) (fun p d => ?_) Y'
    · rw [maskCov_rearrange, maskCov_rearrange]
      exact hr 3 masks rfl 0 2 p.1 (r.freq p.2) rfl rfl
    · rw [maskCov_rearrange]
      exact mvdrBf_submatrix π _ d eps

/-- **C102 (MVDR with power iterations; partial: the first microphone must stay first).** -/
theorem mvdr_power_microphone_order_partial [NeZero C] (r : Reorder F N) (π : Equiv.Perm (Fin C)) (h0 : π 0 = 0) (solver)
    (maskModel : (Fin F → Fin N → ℂ) → MaskOut S F N) (hm : FollowsMask r maskModel) (ref : Fin C) (eps : ℝ) (n : ℕ)
    (X : Sig C F N) (h3 : (maskModel (X (π ref))).1 = 2 ∨ (maskModel (X (π ref))).1 = 3) (Y : Sig S F N) :
    mvdrForward solver maskModel (π ref) eps "rtf" (some n) X = .ok Y ↔
    mvdrForward solver maskModel ref eps "rtf" (some n) (r.sig (relabel π X)) = .ok (r.sig Y) :=
  mvdr_rtf_core r π solver maskModel hm ref eps (some n) X h3 (fun _ _ _ _ _ _ _ _ _ => rtf_submatrix_power π _ _ solver h0 n ref) Y

/-- **C102 (MVDR with an eigenvalue decomposition).** Every order of the microphones, including the first. -/
theorem mvdr_eig_microphone_order [NeZero C] (hC : C ≠ 2) (r : Reorder F N) (π : Equiv.Perm (Fin C)) (solver) (hc : EighContract C solver)
    (maskModel : (Fin F → Fin N → ℂ) → MaskOut S F N) (hm : FollowsMask r maskModel) (ref : Fin C) (eps : ℝ)
    (X : Sig C F N) (M : ℕ) (hM : M = 2 ∨ M = 3) (masks : Fin S → Fin M → Fin F → Fin N → ℝ)
    (hmask : maskModel (X (π ref)) = ⟨M, masks⟩) (hnn : ∀ s m f n, 0 ≤ masks s m f n)
    (hw : ∀ s f, WellPosed X (masks s ⟨0, by omega⟩) (masks s ⟨M - 1, by omega⟩) f) (Y : Sig S F N) :
    mvdrForward solver maskModel (π ref) eps "rtf" none X = .ok Y ↔
    mvdrForward solver maskModel ref eps "rtf" none (r.sig (relabel π X)) = .ok (r.sig Y) := by
  refine mvdr_rtf_core r π solver maskModel hm ref eps none X (by rw [hmask]; exact hM) ?_ Y
  intro M' masks' h a b s f ha hb
  rw [hmask] at h
  cases h
  have hM0 : 0 < M := by omega
  have hM1 : M - 1 < M := by omega
  rw [show a = ⟨0, hM0⟩ from Fin.ext ha, show b = ⟨M - 1, hM1⟩ from Fin.ext (by simp only; omega)]
  have ht := maskCov_psd (masks s ⟨0, by omega⟩) f (hnn _ _ _) X
  have hn := maskCov_psd (masks s ⟨M - 1, by omega⟩) f (hnn _ _ _) X
  obtain ⟨e, e', h1, h2, h3, h4⟩ := gevd_pair hC π solver hc ht.isHermitian hn.isHermitian (hw s f).1
  exact rtf_submatrix_eig π _ _ solver (posDef_of_bound hn (hw s f).1) ht.isHermitian (hw s f).2 ref e e' h1 h2 h3 h4

/-- **C102 (GEV).** Every order of the microphones. -/
theorem gev_microphone_order [NeZero C] (hC : C ≠ 2) (r : Reorder F N) (π : Equiv.Perm (Fin C)) (solver) (hc : EighContract C solver)
    (maskModel : (Fin F → Fin N → ℂ) → MaskOut S F N) (hm : FollowsMask r maskModel) (ref : Fin C)
    (X : Sig C F N) (M : ℕ) (hM : 2 ≤ M) (masks : Fin S → Fin M → Fin F → Fin N → ℝ)
    (hmask : maskModel (X (π ref)) = ⟨M, masks⟩) (hnn : ∀ s m f n, 0 ≤ masks s m f n)
    (hw : ∀ s f, WellPosed X (masks s ⟨0, by omega⟩) (masks s ⟨1, by omega⟩) f) (Y : Sig S F N) :
    gevForward solver maskModel (π ref) X = .ok Y ↔ gevForward solver maskModel ref (r.sig (relabel π X)) = .ok (r.sig Y) := by
  refine iff_of_image r (fun Y' => ?_) Y
  unfold gevForward
  have hmask' : maskModel (r.sig (relabel π X) ref) = _ := hm (X (π ref))
  rw [hmask', hmask]
  simp only
  rw [dif_pos hM, dif_pos hM]
  refine forward_gev r π X _ _ (fun p => ?_) Y'
  have ht := maskCov_psd (masks p.1 ⟨0, by omega⟩) (r.freq p.2) (hnn _ _ _) X
  have hn := maskCov_psd (masks p.1 ⟨1, by omega⟩) (r.freq p.2) (hnn _ _ _) X
  obtain ⟨e, e', h1, h2, h3, h4⟩ := gevd_pair hC π solver hc ht.isHermitian hn.isHermitian (hw p.1 (r.freq p.2)).1
  rw [maskCov_rearrange, maskCov_rearrange]
  exact gevBf_submatrix π _ _ solver (posDef_of_bound hn (hw p.1 (r.freq p.2)).1) ht.isHermitian (hw p.1 (r.freq p.2)).2 ref e e'
    h1 h2 h3 h4

/-- **C102 (WPE).** The dereverberated channels come in the order of the input channels, for every order, with the default weights
or a source model that pools the channels. -/
theorem wpe_microphone_order {σ : Type} (π : Equiv.Perm (Fin C)) (nIter T D : ℕ) (eps : ℝ) (X : Sig C F N)
    (model : Option (WpeModel σ C F N)) (hm : ∀ m ∈ model, IgnoresOrder π m) (ms : σ) (Y : Sig C F N) :
    wpeForward nIter T D eps X model ms = .ok Y ↔
    wpeForward nIter T D eps (relabel π X) model ms = .ok (relabel π Y) := by
  have one : ∀ (π : Equiv.Perm (Fin C)) (X Y : Sig C F N), (∀ m ∈ model, IgnoresOrder π m) →
      wpeForward nIter T D eps X model ms = .ok Y → wpeForward nIter T D eps (relabel π X) model ms = .ok (relabel π Y) := by
    intro π X Y hm h
    unfold wpeForward at h ⊢
    cases hr : wpeRun nIter T D eps X model ms with
    | error e => rw [hr] at h; cases h
    | ok st =>
      rw [hr] at h
      obtain rfl := Except.ok.inj h
      rw [wpe_relabel π nIter T D eps X model hm ms st hr]
      rfl
  refine ⟨one π X Y hm, fun h => ?_⟩
  have e : ∀ Z : Sig C F N, relabel π.symm (relabel π Z) = Z := fun Z => by funext c; simp [relabel]
  have e' : ∀ Z : Sig C F N, relabel π (relabel π.symm Z) = Z := fun Z => by funext c; simp [relabel]
  have := one π.symm _ _ (fun m hmm ms Z => by rw [← hm m hmm ms (relabel π.symm Z), e']) h
  rwa [e, e] at this

/-! ## The first microphone -/

/-- One source on each of two microphones, one after the other. -/
def turns : Sig 2 1 2 := fun c _ n => if c = n then 1 else 0

/-- Target masks that favour the second frame, noise masks that are constant. -/
def favour : Fin 1 → Fin 2 → Fin 1 → Fin 2 → ℝ := fun _ m _ n => if m = 0 then (n.1 : ℝ) + 1 else 1

private lemma cov_noise : maskCov (F := 1) (fun _ _ => 1) turns 0 = 1 := by
  ext c d
  fin_cases c <;> fin_cases d <;> simp [maskCov, turns, Fin.sum_univ_two]

private lemma cov_noise' : maskCov (F := 1) (fun _ _ => 1) (relabel (Equiv.swap 0 1) turns) 0 = 1 := by
  ext c d
  fin_cases c <;> fin_cases d <;> simp [maskCov, relabel, turns, Fin.sum_univ_two, Equiv.swap_apply_left, Equiv.swap_apply_right]

private lemma cov_target : maskCov (F := 1) (fun _ n => (n.1 : ℝ) + 1) turns 0 = Matrix.diagonal ![1, 2] := by
  ext c d
  fin_cases c <;> fin_cases d <;> simp [maskCov, turns, Fin.sum_univ_two] <;> norm_num

private lemma cov_target' : maskCov (F := 1) (fun _ n => (n.1 : ℝ) + 1) (relabel (Equiv.swap 0 1) turns) 0 = Matrix.diagonal ![2, 1] := by
  ext c d
  fin_cases c <;> fin_cases d <;>
    simp [maskCov, relabel, turns, Fin.sum_univ_two, Equiv.swap_apply_left, Equiv.swap_apply_right] <;> norm_num

private lemma rtf_diag (solver) (a b : ℂ) (ha : a ≠ 0) (n : ℕ) (hn : 1 ≤ n) (ref : Fin 2) :
    (ref = 0 → ∃ d, mvdrRtf solver (Matrix.diagonal ![a, b]) 1 ref (some n) = .ok d) ∧
    (ref = 1 → mvdrRtf solver (Matrix.diagonal ![a, b]) 1 ref (some n) = .error .nonFinite) := by
  have hL : IsLoaded (1 : Matrix (Fin 2) (Fin 2) ℂ) (1 + ((max (1e-5 * 1) 1e-5 : ℝ) : ℂ) • 1) := by
    refine ⟨1, ⟨⟨(0, 0), by simp⟩, ?_⟩, rfl⟩
    rintro _ ⟨⟨i, j⟩, rfl⟩
    by_cases h : i = j
    · subst h; simp
    · simp [Matrix.one_apply_ne h]
  obtain ⟨v, r, hv, hr, hc⟩ := rtf_power_form solver (Matrix.diagonal ![a, b]) 1 _ Matrix.PosSemidef.one hL n hn
  have hl : ((1 : Matrix (Fin 2) (Fin 2) ℂ) + ((max (1e-5 * 1) 1e-5 : ℝ) : ℂ) • 1)⁻¹ = (1 + ((max (1e-5 * 1) 1e-5 : ℝ) : ℂ))⁻¹ • 1 := by
    refine Matrix.inv_eq_right_inv ?_
    have h0 : (1 + ((max (1e-5 * 1) 1e-5 : ℝ) : ℂ)) ≠ 0 := by
      have : (0 : ℝ) < 1 + max (1e-5 * 1) 1e-5 := by positivity
      exact_mod_cast this.ne'
    rw [show (1 : Matrix (Fin 2) (Fin 2) ℂ) + ((max (1e-5 * 1) 1e-5 : ℝ) : ℂ) • 1 = (1 + ((max (1e-5 * 1) 1e-5 : ℝ) : ℂ)) • 1 by
      rw [add_smul, one_smul]]
    rw [Matrix.smul_mul, Matrix.one_mul, smul_smul, mul_inv_cancel₀ h0, one_smul]
  have h0 : (1 + ((max (1e-5 * 1) 1e-5 : ℝ) : ℂ))⁻¹ ≠ 0 := by
    have : (0 : ℝ) < 1 + max (1e-5 * 1) 1e-5 := by positivity
    exact inv_ne_zero (by exact_mod_cast this.ne')
  generalize (1 + ((max (1e-5 * 1) 1e-5 : ℝ) : ℂ))⁻¹ = q at *
  rw [hl, Matrix.smul_mul, Matrix.one_mul, smul_pow, Matrix.diagonal_pow] at hc
  have v0 : v 0 ≠ 0 := by
    rw [hc]
    have hr' : (r : ℂ) ≠ 0 := by exact_mod_cast hr.ne'
    simp [hr', h0, ha]
  have v1 : v 1 = 0 := by
    rw [hc]
    simp
  constructor
  · rintro rfl
    unfold mvdrRtf
    rw [hv]
    simp only [bind, Except.bind, Matrix.one_mulVec]
    rw [if_neg v0]
    exact ⟨_, rfl⟩
  · rintro rfl
    unfold mvdrRtf
    rw [hv]
    simp only [bind, Except.bind, Matrix.one_mulVec]
    rw [if_pos v1]

/-- **C102, violated by the MVDR with power iterations.** The iterations start from the first microphone. With two microphones that
record one source each, the output exists for the first one as reference; exchange the two microphones, keep the reference, and
the call divides by zero, for every number of iterations. -/
theorem mvdr_power_microphone_order_violated (solver) (eps : ℝ) (he : 0 < eps) (n : ℕ) (hn : 1 ≤ n) :
    (∃ Y, mvdrForward solver (fun _ => ⟨2, favour⟩) 0 eps "rtf" (some n) turns = .ok Y) ∧
    mvdrForward solver (fun _ => ⟨2, favour⟩) 1 eps "rtf" (some n) (relabel (Equiv.swap 0 1) turns) = .error .nonFinite := by
  constructor
  · obtain ⟨d, hd⟩ := (rtf_diag solver 1 2 one_ne_zero n hn 0).1 rfl
    obtain ⟨m, x, -, hx, -⟩ := solve_loaded_psd (1 : Matrix (Fin 2) (Fin 2) ℂ) Matrix.PosSemidef.one (colVec d) eps he
    have hb : ∃ w, mvdrBf (1 : Matrix (Fin 2) (Fin 2) ℂ) d eps = .ok w := by
      unfold mvdrBf
      rw [hx]
      simp only [bind, Except.bind]
      exact ⟨_, if_neg (lt_of_lt_of_le he (le_max_right _ _)).ne'⟩
    obtain ⟨w, hw⟩ := hb
    have h1 : seqAll (fun p : Fin 1 × Fin 1 => mvdrRtf solver (maskCov (favour p.1 0) turns p.2)
        (maskCov (favour p.1 1) turns p.2) 0 (some n)) = .ok fun _ => d := seqAll_ok_iff.2 fun p => by
      obtain ⟨s, f⟩ := p
      obtain rfl : f = 0 := Subsingleton.elim _ _
      have e1 : maskCov (favour s 0) turns 0 = _ := cov_target
      have e2 : maskCov (favour s 1) turns 0 = _ := cov_noise
      simp only
      rw [e1, e2]
      exact hd
    have h2 : seqAll (fun p : Fin 1 × Fin 1 => mvdrBf (maskCov (favour p.1 1) turns p.2) d eps) = .ok fun _ => w :=
      seqAll_ok_iff.2 fun p => by
        obtain ⟨s, f⟩ := p
        obtain rfl : f = 0 := Subsingleton.elim _ _
        have e2 : maskCov (favour s 1) turns 0 = _ := cov_noise
        simp only
        rw [e2]
        exact hw
    refine ⟨applyBf turns fun _ => w, ?_⟩
    unfold mvdrForward
    simp only [if_true]
    refine (bind_ok_iff _ _ _).2 ⟨_, h1, (bind_ok_iff _ _ _).2 ⟨_, h2, rfl⟩⟩
  · have hd := (rtf_diag solver 2 1 two_ne_zero n hn 1).2 rfl
    have h1 : seqAll (fun p : Fin 1 × Fin 1 => mvdrRtf solver (maskCov (favour p.1 0) (relabel (Equiv.swap 0 1) turns) p.2)
        (maskCov (favour p.1 1) (relabel (Equiv.swap 0 1) turns) p.2) 1 (some n)) = .error .nonFinite := by
      refine seqAll_error fun p => ?_
      obtain ⟨s, f⟩ := p
      obtain rfl : f = 0 := Subsingleton.elim _ _
      have e1 : maskCov (favour s 0) (relabel (Equiv.swap 0 1) turns) 0 = _ := cov_target'
      have e2 : maskCov (favour s 1) (relabel (Equiv.swap 0 1) turns) 0 = _ := cov_noise'
      simp only
      rw [e1, e2]
      exact hd
    unfold mvdrForward
    simp only [if_true]
    erw [h1]
    rfl

example (solver) : mvdrForward solver (fun _ => ⟨2, favour⟩) 1 1e-5 "rtf" (some 3) (relabel (Equiv.swap 0 1) turns) = .error .nonFinite :=
  (mvdr_power_microphone_order_violated solver 1e-5 (by norm_num) 3 (by norm_num)).2

/-! ## Concrete cases

Three microphones, each of them loud in one of four frames, an order of the microphones that moves all of them, three frequencies
and four frames in reverse order with a phase that depends on both, and masks that follow the reference microphone. -/

private noncomputable def demoR : Reorder 3 4 where
  u f n := if f.1 = 1 then Complex.I else if n.1 = 2 then -1 else 1
  unit f n := by split_ifs <;> simp
  freq := Fin.revPerm
  frame := Fin.revPerm

/-- Each microphone is loud in its own frame; nothing in the last frame. -/
def micDemo : Sig 3 3 4 := fun c _ n => if c.1 = n.1 then 1 else 0

private noncomputable def demoMask (M : ℕ) : (Fin 3 → Fin 4 → ℂ) → MaskOut 2 3 4 := fun x =>
  ⟨M, fun _ m f n => if m.1 = 0 then ‖x f n‖ ^ 2 else 1⟩

private def cycle : Equiv.Perm (Fin 3) := finRotate 3

private lemma demo_follows (M : ℕ) : FollowsMask demoR (demoMask M) := by
  intro x
  simp only [demoMask]
  congr 1
  funext s m f n
  rw [norm_mul, demoR.unit, one_mul]

private lemma demo_nonneg (M : ℕ) (x) (s : Fin 2) (m : Fin M) (f n) : 0 ≤ (demoMask M x).2 s m f n := by
  simp only [demoMask]
  split_ifs <;> positivity

lemma micDemo_noise (f : Fin 3) : (fun c d => ∑ n, ((1 : ℝ) : ℂ) * micDemo c f n * star (micDemo d f n)) = (1 : Matrix (Fin 3) (Fin 3) ℂ) := by
  funext c d
  fin_cases c <;> fin_cases d <;> simp [micDemo, Fin.sum_univ_four]

lemma micDemo_target (k f : Fin 3) : (fun c d => ∑ n, ((‖micDemo k f n‖ ^ 2 : ℝ) : ℂ) * micDemo c f n * star (micDemo d f n))
    = (Matrix.of fun c d => if c = k ∧ d = k then 1 else 0 : Matrix (Fin 3) (Fin 3) ℂ) := by
  funext c d
  fin_cases k <;> fin_cases c <;> fin_cases d <;> simp [micDemo, Fin.sum_univ_four]

private lemma power_one (v : Fin 3 → ℂ) : power (1 : Matrix (Fin 3) (Fin 3) ℂ) v = ∑ k, ‖v k‖ ^ 2 := by
  have := power_load (0 : Matrix (Fin 3) (Fin 3) ℂ) 1 v
  simpa [power] using this

private lemma power_unit (k : Fin 3) (v : Fin 3 → ℂ) :
    power (Matrix.of fun c d => if c = k ∧ d = k then 1 else 0 : Matrix (Fin 3) (Fin 3) ℂ) v = ‖v k‖ ^ 2 := by
  have h : (star (v k) * v k).re = ‖v k‖ ^ 2 := by
    rw [Complex.star_def, Complex.conj_mul', ← Complex.ofReal_pow, Complex.ofReal_re]
  rw [← h]
  unfold power
  congr 1
  fin_cases k <;> simp [Matrix.mulVec, dotProduct, Fin.sum_univ_three]

lemma micDemo_well (k f : Fin 3) : WellPosed micDemo (fun f n => ‖micDemo k f n‖ ^ 2) (fun _ _ => 1) f := by
  unfold WellPosed
  rw [micDemo_noise, micDemo_target]
  constructor
  · intro v
    rw [power_one]
    have : 0 ≤ ∑ k, ‖v k‖ ^ 2 := Finset.sum_nonneg fun _ _ => by positivity
    nlinarith
  · have key : ∀ v : Fin 3 → ℂ, IsMaxSnr (Matrix.of fun c d => if c = k ∧ d = k then 1 else 0 : Matrix (Fin 3) (Fin 3) ℂ) 1 v →
        v k ≠ 0 ∧ ∀ c, c ≠ k → v c = 0 := by
      intro v hv
      have h1 := hv.1
      have h2 := hv.2 (Pi.single k 1)
      rw [power_one] at h1
      rw [power_unit, power_unit, power_one, power_one] at h2
      have e : ∑ c, ‖(Pi.single k 1 : Fin 3 → ℂ) c‖ ^ 2 = 1 := by
        rw [Finset.sum_eq_single k] <;> simp +contextual [Pi.single_apply]
      rw [e, Pi.single_eq_same, norm_one, one_pow, one_mul, mul_one, ← Finset.add_sum_erase _ _ (Finset.mem_univ k)] at h2
      have h3 : ∑ c ∈ Finset.univ.erase k, ‖v c‖ ^ 2 = 0 := le_antisymm (by linarith) (Finset.sum_nonneg fun _ _ => by positivity)
      have h4 : ∀ c, c ≠ k → v c = 0 := fun c hc => by
        have := (Finset.sum_eq_zero_iff_of_nonneg (fun _ _ => by positivity)).1 h3 c (Finset.mem_erase.2 ⟨hc, Finset.mem_univ _⟩)
        simpa using this
      refine ⟨fun h => ?_, h4⟩
      rw [← Finset.add_sum_erase _ _ (Finset.mem_univ k), h3, h] at h1
      simp at h1
    intro v w hv hw
    obtain ⟨v0, v1⟩ := key v hv
    obtain ⟨-, w1⟩ := key w hw
    refine ⟨w k / v k, funext fun c => ?_⟩
    by_cases hc : c = k
    · subst hc
      simp [v0]
    · simp [v1 c hc, w1 c hc]

example : demoR.sig (relabel cycle micDemo) ≠ micDemo := by
  intro h
  have := congrFun (congrFun (congrFun h 0) 0) 0
  simp [Reorder.sig, demoR, micDemo, relabel, Fin.revPerm, cycle] at this

example : ∃ Y, mwfForward (demoMask 2) (cycle 0) 1e-5 true micDemo = .ok Y ∧
    mwfForward (demoMask 2) 0 1e-5 true (demoR.sig (relabel cycle micDemo)) = .ok (demoR.sig Y) := by
  obtain ⟨Y, h, -⟩ := mwf_forward_time_invariant (demoMask 2) (cycle 0) 1e-5 micDemo 2 le_rfl _ rfl (demo_nonneg _ _)
  exact ⟨Y, h, (mwf_microphone_order demoR cycle _ (demo_follows 2) 0 1e-5 true micDemo Y).1 h⟩

example : ∃ Y, mwfForward (demoMask 4) (cycle 0) 1e-5 false micDemo = .ok Y ∧
    mwfForward (demoMask 4) 0 1e-5 false (demoR.sig (relabel cycle micDemo)) = .ok (demoR.sig Y) := by
  obtain ⟨Y, h, -⟩ := mwf_forward_time_varying (demoMask 4) (cycle 0) 1e-5 micDemo _ rfl (demo_nonneg _ _)
  exact ⟨Y, h, (mwf_microphone_order demoR cycle _ (demo_follows 4) 0 1e-5 false micDemo Y).1 h⟩

example : ∃ solver Y, gevForward solver (demoMask 2) (cycle 0) micDemo = .ok Y ∧
    gevForward solver (demoMask 2) 0 (demoR.sig (relabel cycle micDemo)) = .ok (demoR.sig Y) := by
  obtain ⟨solver, hc⟩ := eighContract_exists 3
  have hnn := demo_nonneg 2 (micDemo (cycle 0))
  obtain ⟨Y, h, -⟩ := gev_forward solver (demoMask 2) (cycle 0) micDemo (by norm_num) hc 2 le_rfl _ rfl hnn
    (fun s f => (micDemo_well (cycle 0) f).1)
  exact ⟨solver, Y, h, (gev_microphone_order (by norm_num) demoR cycle solver hc _ (demo_follows 2) 0 micDemo 2 le_rfl _ rfl hnn
    (fun s f => micDemo_well (cycle 0) f) Y).1 h⟩

example (M : ℕ) (hM : M = 2 ∨ M = 3) : ∃ solver, ∀ Y, mvdrForward solver (demoMask M) (cycle 0) 1e-5 "rtf" none micDemo = .ok Y ↔
    mvdrForward solver (demoMask M) 0 1e-5 "rtf" none (demoR.sig (relabel cycle micDemo)) = .ok (demoR.sig Y) := by
  obtain ⟨solver, hc⟩ := eighContract_exists 3
  have hnn := demo_nonneg M (micDemo (cycle 0))
  refine ⟨solver, fun Y => mvdr_eig_microphone_order (by norm_num) demoR cycle solver hc _ (demo_follows M) 0 1e-5 micDemo M hM _ rfl hnn
    (fun s f => ?_) Y⟩
  have h := micDemo_well (cycle 0) f
  have h1 : M - 1 ≠ 0 := by omega
  simpa [demoMask, h1] using h

example (solver) (Y) : mvdrForward solver (demoMask 2) (cycle 0) 1e-5 "scm" none micDemo = .ok Y ↔
    mvdrForward solver (demoMask 2) 0 1e-5 "scm" none (demoR.sig (relabel cycle micDemo)) = .ok (demoR.sig Y) :=
  mvdr_scm_microphone_order demoR cycle solver _ (demo_follows 2) 0 1e-5 none micDemo rfl Y

/-- Both sides of the last equivalence return. -/
example (solver) : ∃ Y, mvdrForward solver (demoMask 2) (cycle 0) 1e-5 "scm" none micDemo = .ok Y := by
  refine ⟨fun s f n => _, (mvdr_forward_scm solver _ _ _ _ _ _ rfl _).2 fun s f => ⟨?_, ?_, fun n => rfl⟩⟩
  · have h : (Matrix.of fun c d => ∑ n, ((1 : ℝ) : ℂ) * micDemo c f n * star (micDemo d f n) : Matrix (Fin 3) (Fin 3) ℂ).det ≠ 0 := by
      rw [show (Matrix.of fun c d => ∑ n, ((1 : ℝ) : ℂ) * micDemo c f n * star (micDemo d f n) : Matrix (Fin 3) (Fin 3) ℂ) = 1 from
        micDemo_noise f, Matrix.det_one]
      exact one_ne_zero
    exact h
  · have h : ((Matrix.of fun c d => ∑ n, ((1 : ℝ) : ℂ) * micDemo c f n * star (micDemo d f n) : Matrix (Fin 3) (Fin 3) ℂ)⁻¹ *
        (Matrix.of fun c d => ∑ n, ((‖micDemo (cycle 0) f n‖ ^ 2 : ℝ) : ℂ) * micDemo c f n * star (micDemo d f n))).trace ≠ 0 := by
      rw [show (Matrix.of fun c d => ∑ n, ((1 : ℝ) : ℂ) * micDemo c f n * star (micDemo d f n) : Matrix (Fin 3) (Fin 3) ℂ) = 1 from
        micDemo_noise f, show (Matrix.of fun c d => ∑ n, ((‖micDemo (cycle 0) f n‖ ^ 2 : ℝ) : ℂ) * micDemo c f n * star (micDemo d f n) :
        Matrix (Fin 3) (Fin 3) ℂ) = _ from micDemo_target (cycle 0) f, inv_one, Matrix.one_mul]
      simp [Matrix.trace, Finset.sum_ite_eq']
    exact h

/-- The two last microphones exchanged. -/
example (solver) (Y) : mvdrForward solver (demoMask 3) 2 1e-5 "rtf" (some 5) micDemo = .ok Y ↔
    mvdrForward solver (demoMask 3) 1 1e-5 "rtf" (some 5) (demoR.sig (relabel (Equiv.swap 1 2) micDemo)) = .ok (demoR.sig Y) :=
  mvdr_power_microphone_order_partial demoR (Equiv.swap 1 2) (by decide) solver _ (demo_follows 3) 1 1e-5 5 micDemo (.inr rfl) Y

example : ∃ Y : Sig 3 3 4,
    wpeForward 3 2 1 1e-5 (Demo.sig 3 3 4) (none : Option (WpeModel Unit 3 3 4)) () = .ok Y ∧
    wpeForward 3 2 1 1e-5 (relabel cycle (Demo.sig 3 3 4)) (none : Option (WpeModel Unit 3 3 4)) () = .ok (relabel cycle Y) := by
  obtain ⟨Y, h⟩ := wpe_total (T := 2) 3 1 1e-5 (by norm_num) (Demo.sig 3 3 4) (none : Option (WpeModel Unit 3 3 4))
    (by rintro m ⟨⟩) ()
  exact ⟨Y, h, (wpe_microphone_order cycle _ _ _ _ _ _ (by rintro m ⟨⟩) _ Y).1 h⟩

end Torchiva.Props
