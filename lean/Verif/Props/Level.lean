import Verif.Proofs.Level
import Verif.Props.Wpe
import Verif.Props.Rearrange

/-!
# C105: the level of the recording only scales the output
-/

namespace Torchiva.Props

open Torchiva Matrix _root_.Spec
open scoped ComplexOrder

variable {C S F N : ℕ}

private lemma seqAll_congr {φ α : Type} {g g' : φ → Except Err α} (h : ∀ p, g' p = g p) : seqAll g' = seqAll g := by
  rw [show g' = g from funext h]

private lemma map_gain_apply (α : Fin F → ℂ) (X : Sig C F N) (r : Except Err (Fin S × Fin F → Fin C → ℂ)) :
    (r >>= fun bf => (.ok (applyBf (gain α X) bf) : Except Err (Sig S F N)))
      = (r >>= fun bf => .ok (applyBf X bf)).map (gain α) := by
  cases r with
  | error e => rfl
  | ok bf => simp only [bind, Except.bind, Except.map, applyBf_gain]

private lemma sq_pos {α : Fin F → ℂ} (hα : ∀ f, α f ≠ 0) (f : Fin F) : 0 < ‖α f‖ ^ 2 := by
  have := norm_pos_iff.2 (hα f)
  positivity

/-- **C105 (MVDR from covariance matrices).** Any gain, per frequency, of the recording is a gain of the output; in particular the
level of the recording does not matter. The call fails for one level iff it fails for the other, in the same way. -/
theorem mvdr_scm_level [NeZero C] (α : Fin F → ℂ) (hα : ∀ f, α f ≠ 0) (solver) (maskModel : (Fin F → Fin N → ℂ) → MaskOut S F N)
    (ref : Fin C) (eps : ℝ) (nPower : Option ℕ) (X : Sig C F N) (h2 : (maskModel (X ref)).1 = 2)
    (hm : maskModel (gain α X ref) = maskModel (X ref)) :
    mvdrForward solver maskModel ref eps "scm" nPower (gain α X)
      = (mvdrForward solver maskModel ref eps "scm" nPower X).map (gain α) := by
  unfold mvdrForward
  rw [hm]
  generalize maskModel (X ref) = mo at *
  obtain ⟨M, masks⟩ := mo
  simp only at h2
  subst h2
  simp only [if_neg (show ¬ ("scm" = "rtf") by decide), if_true]
  rw [seqAll_congr (g := fun p : Fin S × Fin F => mvdrBf2 (maskCov (masks p.1 0) X p.2) (maskCov (masks p.1 1) X p.2) ref) fun p => ?_]
  · exact map_gain_apply α X _
  · rw [maskCov_gain, maskCov_gain, mvdrBf2_gain _ _ _ (by exact_mod_cast (sq_pos hα p.2).ne')]

/-- **C105 (GEV).** Any gain for which the noise covariance stays bounded away from zero. -/
theorem gev_level [NeZero C] (hC : C ≠ 2) (α : Fin F → ℂ) (hα : ∀ f, α f ≠ 0) (solver) (hc : EighContract C solver)
    (maskModel : (Fin F → Fin N → ℂ) → MaskOut S F N) (ref : Fin C)
    (X : Sig C F N) (M : ℕ) (hM : 2 ≤ M) (masks : Fin S → Fin M → Fin F → Fin N → ℝ)
    (hmask : maskModel (X ref) = ⟨M, masks⟩) (hnn : ∀ s m f n, 0 ≤ masks s m f n)
    (hw : ∀ s f, WellPosed X (masks s ⟨0, by omega⟩) (masks s ⟨1, by omega⟩) f)
    (hw' : ∀ s f, WellPosed (gain α X) (masks s ⟨0, by omega⟩) (masks s ⟨1, by omega⟩) f)
    (hm : maskModel (gain α X ref) = maskModel (X ref)) :
    gevForward solver maskModel ref (gain α X) = (gevForward solver maskModel ref X).map (gain α) := by
  unfold gevForward
  rw [hm, hmask]
  simp only
  rw [dif_pos hM, dif_pos hM]
  rw [seqAll_congr (g := fun p : Fin S × Fin F => gevBf solver (maskCov (masks p.1 ⟨0, by omega⟩) X p.2)
    (maskCov (masks p.1 ⟨1, by omega⟩) X p.2) ref) fun p => ?_]
  · generalize seqAll _ = r
    cases r with
    | error e => rfl
    | ok bf =>
      simp only [bind, Except.bind, Except.map, pure, Except.pure]
      congr 1
      funext s f n
      simp only [gain, Finset.mul_sum]
      exact Finset.sum_congr rfl fun c _ => by ring
  · have ht := maskCov_psd (masks p.1 ⟨0, by omega⟩) p.2 (hnn _ _ _) X
    have hn := maskCov_psd (masks p.1 ⟨1, by omega⟩) p.2 (hnn _ _ _) X
    have ht' := maskCov_psd (masks p.1 ⟨0, by omega⟩) p.2 (hnn _ _ _) (gain α X)
    have hn' := maskCov_psd (masks p.1 ⟨1, by omega⟩) p.2 (hnn _ _ _) (gain α X)
    obtain ⟨e, h1, h2⟩ := gevd_general hC solver hc _ _ ht.isHermitian hn.isHermitian (hw p.1 p.2).1 1e-15
    obtain ⟨e', h1', h2'⟩ := gevd_general hC solver hc _ _ ht'.isHermitian hn'.isHermitian (hw' p.1 p.2).1 1e-15
    have hp' := posDef_of_bound hn' (hw' p.1 p.2).1
    rw [maskCov_gain] at ht' hp' 
    rw [maskCov_gain, maskCov_gain] at h1' h2'
    rw [maskCov_gain, maskCov_gain]
    exact gevBf_gain _ _ solver _ (sq_pos hα p.2) (posDef_of_bound hn (hw p.1 p.2).1) ht.isHermitian (hw p.1 p.2).2 hp' ht'.isHermitian
      ref e e' h1 h2 h1' h2'

/-- **C105 (MWF; partial: the sum of the two covariance matrices must have an entry of at least one at both levels).** -/
theorem mwf_level_partial (α : Fin F → ℂ) (hα : ∀ f, α f ≠ 0) (maskModel : (Fin F → Fin N → ℂ) → MaskOut S F N) (ref : Fin C)
    (eps : ℝ) (X : Sig C F N) (M : ℕ) (hM : 2 ≤ M) (masks : Fin S → Fin M → Fin F → Fin N → ℝ)
    (hmask : maskModel (X ref) = ⟨M, masks⟩)
    (hl : ∀ s f, Loud (covOf (masks s ⟨0, by omega⟩) X f + covOf (masks s ⟨1, by omega⟩) X f))
    (hl' : ∀ s f, Loud (covOf (masks s ⟨0, by omega⟩) (gain α X) f + covOf (masks s ⟨1, by omega⟩) (gain α X) f))
    (hm : maskModel (gain α X ref) = maskModel (X ref)) :
    mwfForward maskModel ref eps true (gain α X) = (mwfForward maskModel ref eps true X).map (gain α) := by
  unfold mwfForward
  rw [hm, hmask]
  simp only
  rw [dif_pos hM, dif_pos hM]
  simp only [if_true]
  rw [seqAll_congr (g := fun p : Fin S × Fin F => mwfBfRef (maskCov (masks p.1 ⟨0, by omega⟩) X p.2)
    (maskCov (masks p.1 ⟨1, by omega⟩) X p.2) eps ref) fun p => ?_]
  · exact map_gain_apply α X _
  · have h' := hl' p.1 p.2
    rw [maskCov_covOf, maskCov_covOf, maskCov_gain, maskCov_gain, ← smul_add] at h'
    rw [maskCov_gain, maskCov_gain]
    exact mwfBfRef_gain _ _ _ (sq_pos hα p.2) _ _ (hl p.1 p.2) h'

/-- **C105 (time-varying MWF; partial in the same way, at every frame).** -/
theorem mwf_frames_level_partial (α : Fin F → ℂ) (hα : ∀ f, α f ≠ 0) (maskModel : (Fin F → Fin N → ℂ) → MaskOut S F N) (ref : Fin C)
    (eps : ℝ) (X : Sig C F N) (masks : Fin S → Fin 4 → Fin F → Fin N → ℝ)
    (hmask : maskModel (X ref) = ⟨4, masks⟩)
    (hl : ∀ s f n, Loud ((masks s 2 f n : ℂ) • covOf (masks s 0) X f + (masks s 3 f n : ℂ) • covOf (masks s 1) X f))
    (hl' : ∀ s f n, Loud ((masks s 2 f n : ℂ) • covOf (masks s 0) (gain α X) f + (masks s 3 f n : ℂ) • covOf (masks s 1) (gain α X) f))
    (hm : maskModel (gain α X ref) = maskModel (X ref)) :
    mwfForward maskModel ref eps false (gain α X) = (mwfForward maskModel ref eps false X).map (gain α) := by
  unfold mwfForward
  rw [hm, hmask]
  simp only [dif_pos (show 2 ≤ 4 by norm_num), Bool.false_eq_true, if_false, dite_true]
  rw [seqAll_congr (g := fun p : (Fin S × Fin F) × Fin N => mwfBfRef
    ((masks p.1.1 ⟨2, by omega⟩ p.1.2 p.2 : ℂ) • maskCov (masks p.1.1 ⟨0, by omega⟩) X p.1.2)
    ((masks p.1.1 ⟨3, by omega⟩ p.1.2 p.2 : ℂ) • maskCov (masks p.1.1 ⟨1, by omega⟩) X p.1.2) eps ref) fun p => ?_]
  · generalize seqAll _ = r
    cases r with
    | error e => rfl
    | ok bf =>
      simp only [bind, Except.bind, Except.map, pure, Except.pure]
      congr 1
      funext s f n
      simp only [gain, Finset.mul_sum]
      exact Finset.sum_congr rfl fun c _ => by ring
  · have h' := hl' p.1.1 p.1.2 p.2
    rw [maskCov_covOf, maskCov_covOf, maskCov_gain, maskCov_gain, smul_comm, smul_comm (masks p.1.1 3 p.1.2 p.2 : ℂ), ← smul_add] at h'
    rw [maskCov_gain, maskCov_gain, smul_comm, smul_comm (masks p.1.1 ⟨3, by omega⟩ p.1.2 p.2 : ℂ)]
    exact mwfBfRef_gain _ _ _ (sq_pos hα p.1.2) _ _ (hl p.1.1 p.1.2 p.2) h'

private lemma mvdr_rtf_gain [NeZero C] (α : Fin F → ℂ) (hα : ∀ f, α f ≠ 0) (solver) (maskModel : (Fin F → Fin N → ℂ) → MaskOut S F N)
    (ref : Fin C) (eps : ℝ) (he : 0 < eps) (he1 : eps ≤ 1) (nPower : Option ℕ) (X : Sig C F N) (M : ℕ) (hM : M = 2 ∨ M = 3)
    (masks : Fin S → Fin M → Fin F → Fin N → ℝ) (hmask : maskModel (X ref) = ⟨M, masks⟩) (hnn : ∀ s m f n, 0 ≤ masks s m f n)
    (hl : ∀ s f, Loud (covOf (masks s ⟨1, by omega⟩) X f) ∧ Loud (covOf (masks s ⟨1, by omega⟩) (gain α X) f))
    (hb : ∀ s f, Below (1 / (2 * eps)) (covOf (masks s ⟨1, by omega⟩) X f) ∧
      Below (1 / (2 * eps)) (covOf (masks s ⟨1, by omega⟩) (gain α X) f))
    (hm : maskModel (gain α X ref) = maskModel (X ref))
    (hr : ∀ s f, mvdrRtf solver (maskCov (masks s ⟨0, by omega⟩) (gain α X) f) (maskCov (masks s ⟨M - 1, by omega⟩) (gain α X) f) ref nPower
      = mvdrRtf solver (maskCov (masks s ⟨0, by omega⟩) X f) (maskCov (masks s ⟨M - 1, by omega⟩) X f) ref nPower) :
    mvdrForward solver maskModel ref eps "rtf" nPower (gain α X)
      = (mvdrForward solver maskModel ref eps "rtf" nPower X).map (gain α) := by
  have main : ∀ (Rt Rs Rt' Rs' : Fin S × Fin F → Matrix (Fin C) (Fin C) ℂ) (m1 : Fin M), m1.1 = 1 →
      (∀ p, mvdrRtf solver (Rt' p) (Rs' p) ref nPower = mvdrRtf solver (Rt p) (Rs p) ref nPower) →
      (seqAll (fun p => mvdrRtf solver (Rt' p) (Rs' p) ref nPower) >>= fun rtf =>
        seqAll (fun p : Fin S × Fin F => mvdrBf (maskCov (masks p.1 m1) (gain α X) p.2) (rtf p) eps) >>= fun bf =>
          (.ok (applyBf (gain α X) bf) : Except Err (Sig S F N)))
      = (seqAll (fun p => mvdrRtf solver (Rt p) (Rs p) ref nPower) >>= fun rtf =>
        seqAll (fun p : Fin S × Fin F => mvdrBf (maskCov (masks p.1 m1) X p.2) (rtf p) eps) >>= fun bf =>
          (.ok (applyBf X bf) : Except Err (Sig S F N))).map (gain α) := by
    intro Rt Rs Rt' Rs' m1 hm1 hrr
    rw [seqAll_congr hrr]
    cases h : seqAll (fun p => mvdrRtf solver (Rt p) (Rs p) ref nPower) with
    | error e => rfl
    | ok rtf =>
      simp only [bind, Except.bind]
      rw [seqAll_congr (g := fun p : Fin S × Fin F => mvdrBf (maskCov (masks p.1 m1) X p.2) (rtf p) eps) fun p => ?_]
      · exact map_gain_apply α X _
      · have h1 := seqAll_ok_iff.1 h p
        have hM1 : 1 < M := by omega
        obtain rfl : m1 = ⟨1, hM1⟩ := Fin.ext hm1
        have h' := (hl p.1 p.2).2
        have b' := (hb p.1 p.2).2
        have hps := maskCov_psd (masks p.1 ⟨1, by omega⟩) p.2 (hnn _ _ _) (gain α X)
        rw [maskCov_covOf, maskCov_gain] at h' b'
        rw [maskCov_gain] at hps
        rw [maskCov_gain]
        exact mvdrBf_gain _ (sq_pos hα p.2) _ (maskCov_psd _ p.2 (hnn _ _ _) X) hps (rtf p) ref
          (rtf_reference_one solver _ _ ref nPower _ h1) eps he he1 (hl p.1 p.2).1 h' (hb p.1 p.2).1 b'
  unfold mvdrForward
  rw [hm, hmask]
  rcases hM with rfl | rfl
  · simp only [if_true]
    exact main _ _ _ _ 1 rfl fun p => hr p.1 p.2
  · simp only
    exact main _ _ _ _ 1 rfl fun p => hr p.1 p.2

/-- **C105 (MVDR with power iterations; partial: the noise covariance matrices must have an entry of at least one and none above
`1 / (2 eps)`, at both levels).** -/
theorem mvdr_power_level_partial [NeZero C] (α : Fin F → ℂ) (hα : ∀ f, α f ≠ 0) (solver) (maskModel : (Fin F → Fin N → ℂ) → MaskOut S F N)
    (ref : Fin C) (eps : ℝ) (he : 0 < eps) (he1 : eps ≤ 1) (n : ℕ) (X : Sig C F N) (M : ℕ) (hM : M = 2 ∨ M = 3)
    (masks : Fin S → Fin M → Fin F → Fin N → ℝ) (hmask : maskModel (X ref) = ⟨M, masks⟩) (hnn : ∀ s m f n, 0 ≤ masks s m f n)
    (hl : ∀ s f m, m ≠ ⟨0, by omega⟩ → Loud (covOf (masks s m) X f) ∧ Loud (covOf (masks s m) (gain α X) f))
    (hb : ∀ s f, Below (1 / (2 * eps)) (covOf (masks s ⟨1, by omega⟩) X f) ∧
      Below (1 / (2 * eps)) (covOf (masks s ⟨1, by omega⟩) (gain α X) f))
    (hm : maskModel (gain α X ref) = maskModel (X ref)) :
    mvdrForward solver maskModel ref eps "rtf" (some n) (gain α X)
      = (mvdrForward solver maskModel ref eps "rtf" (some n) X).map (gain α) := by
  refine mvdr_rtf_gain α hα solver maskModel ref eps he he1 (some n) X M hM masks hmask hnn
    (fun s f => hl s f _ (by simp)) hb hm fun s f => ?_
  have h := hl s f ⟨M - 1, by omega⟩ (by simp only [ne_eq, Fin.mk.injEq]; omega)
  have h' := h.2
  rw [maskCov_covOf, maskCov_gain] at h'
  rw [maskCov_gain, maskCov_gain]
  exact rtf_gain_power _ _ solver _ (sq_pos hα f) n ref h.1 h'

/-- **C105 (MVDR with an eigenvalue decomposition; partial in the same way).** -/
theorem mvdr_eig_level_partial [NeZero C] (hC : C ≠ 2) (α : Fin F → ℂ) (hα : ∀ f, α f ≠ 0) (solver) (hc : EighContract C solver)
    (maskModel : (Fin F → Fin N → ℂ) → MaskOut S F N)
    (ref : Fin C) (eps : ℝ) (he : 0 < eps) (he1 : eps ≤ 1) (X : Sig C F N) (M : ℕ) (hM : M = 2 ∨ M = 3)
    (masks : Fin S → Fin M → Fin F → Fin N → ℝ) (hmask : maskModel (X ref) = ⟨M, masks⟩) (hnn : ∀ s m f n, 0 ≤ masks s m f n)
    (hl : ∀ s f, Loud (covOf (masks s ⟨1, by omega⟩) X f) ∧ Loud (covOf (masks s ⟨1, by omega⟩) (gain α X) f))
    (hb : ∀ s f, Below (1 / (2 * eps)) (covOf (masks s ⟨1, by omega⟩) X f) ∧
      Below (1 / (2 * eps)) (covOf (masks s ⟨1, by omega⟩) (gain α X) f))
    (hw : ∀ s f, WellPosed X (masks s ⟨0, by omega⟩) (masks s ⟨M - 1, by omega⟩) f)
    (hw' : ∀ s f, WellPosed (gain α X) (masks s ⟨0, by omega⟩) (masks s ⟨M - 1, by omega⟩) f)
    (hm : maskModel (gain α X ref) = maskModel (X ref)) :
    mvdrForward solver maskModel ref eps "rtf" none (gain α X)
      = (mvdrForward solver maskModel ref eps "rtf" none X).map (gain α) := by
  refine mvdr_rtf_gain α hα solver maskModel ref eps he he1 none X M hM masks hmask hnn hl hb hm fun s f => ?_
  have ht := maskCov_psd (masks s ⟨0, by omega⟩) f (hnn _ _ _) X
  have hn := maskCov_psd (masks s ⟨M - 1, by omega⟩) f (hnn _ _ _) X
  have ht' := maskCov_psd (masks s ⟨0, by omega⟩) f (hnn _ _ _) (gain α X)
  have hn' := maskCov_psd (masks s ⟨M - 1, by omega⟩) f (hnn _ _ _) (gain α X)
  obtain ⟨e, h1, h2⟩ := gevd_general hC solver hc _ _ ht.isHermitian hn.isHermitian (hw s f).1 1e-15
  obtain ⟨e', h1', h2'⟩ := gevd_general hC solver hc _ _ ht'.isHermitian hn'.isHermitian (hw' s f).1 1e-15
  have hp' := posDef_of_bound hn' (hw' s f).1
  rw [maskCov_gain] at ht' hp'
  rw [maskCov_gain, maskCov_gain] at h1' h2'
  rw [maskCov_gain, maskCov_gain]
  exact rtf_gain_eig _ _ solver _ (sq_pos hα f) (posDef_of_bound hn (hw s f).1) ht.isHermitian (hw s f).2 hp' ht'.isHermitian
    ref e e' h1 h2 h1' h2'

/-- **C105 (WPE; partial: the guards must be idle at both levels, in every iteration).** -/
theorem wpe_level_partial {σ : Type} [NeZero N] (α : Fin F → ℂ) (hα : ∀ f, α f ≠ 0) (nIter T D : ℕ) (eps : ℝ) (he : 0 < eps)
    (X : Sig C F N) (ms : σ)
    (h : ∀ i < nIter, ∀ Y, wpeForward i T D eps X none ms = .ok Y → WpeIdle T D eps X Y ∧ WpeIdle T D eps (gain α X) (gain α Y)) :
    wpeForward nIter T D eps (gain α X) none ms = (wpeForward nIter T D eps X none ms).map (gain α) := by
  have run : ∀ k ≤ nIter, wpeRun k T D eps (gain α X) none ms
      = (wpeRun k T D eps X none ms).map fun st => ⟨gain α st.Y, st.ms⟩ := by
    intro k
    induction k with
    | zero => intro _; rfl
    | succ k ih =>
      intro hk
      have ihk := ih (by omega)
      unfold wpeRun at ihk ⊢
      rw [iterM_snoc, iterM_snoc, ihk]
      cases hst : iterM (wpeStep X (delayedTaps X T D) none eps) k ⟨X, ms⟩ with
      | error e => rfl
      | ok st =>
        have hy : wpeForward k T D eps X none ms = .ok st.Y := by
          unfold wpeForward wpeRun
          rw [hst]
          rfl
        obtain ⟨h1, h2⟩ := h k (by omega) _ hy
        exact wpeStep_gain α hα T D eps he X st h1 h2
  unfold wpeForward
  rw [run nIter le_rfl]
  cases wpeRun nIter T D eps X none ms <;> rfl

/-! ## Concrete cases

Three microphones and three frequencies with the gains `i`, `2i` and `3i`; masks that tell where the reference microphone is active. -/

private noncomputable def demoGain : Fin 3 → ℂ := fun f => ((f.1 : ℝ) + 1 : ℝ) * Complex.I

open Classical in
private noncomputable def activeMasks (M : ℕ) (x : Fin 3 → Fin 4 → ℂ) : Fin 2 → Fin M → Fin 3 → Fin 4 → ℝ :=
  fun _ m f n => if m.1 = 0 then (if x f n = 0 then 0 else 1) else 1

private noncomputable def activeMask (M : ℕ) : (Fin 3 → Fin 4 → ℂ) → MaskOut 2 3 4 := fun x => ⟨M, activeMasks M x⟩

private lemma demoGain_norm (f : Fin 3) : ‖demoGain f‖ = (f.1 : ℝ) + 1 := by
  unfold demoGain
  rw [norm_mul, Complex.norm_I, mul_one, Complex.norm_of_nonneg (by positivity)]

private lemma demoGain_ne (f : Fin 3) : demoGain f ≠ 0 := by
  rw [← norm_pos_iff, demoGain_norm]
  positivity

private lemma demoGain_sq (f : Fin 3) : 1 ≤ ‖demoGain f‖ ^ 2 ∧ ‖demoGain f‖ ^ 2 ≤ 9 := by
  rw [demoGain_norm]
  have h0 : (0 : ℝ) ≤ f.1 := by positivity
  have h : (f.1 : ℝ) ≤ 2 := by exact_mod_cast (by omega : f.1 ≤ 2)
  constructor <;> nlinarith

private lemma active_gain (M : ℕ) (X : Sig 3 3 4) (ref : Fin 3) : activeMask M (gain demoGain X ref) = activeMask M (X ref) := by
  unfold activeMask activeMasks gain
  simp [demoGain_ne]

private lemma active_nonneg (M : ℕ) (x) (s : Fin 2) (m : Fin M) (f n) : 0 ≤ activeMasks M x s m f n := by
  simp only [activeMasks]
  split_ifs <;> norm_num

private lemma active_target (M : ℕ) (hM : 0 < M) (k : Fin 3) (s : Fin 2) :
    activeMasks M (micDemo k) s ⟨0, hM⟩ = fun f n => ‖micDemo k f n‖ ^ 2 := by
  funext f n
  simp only [activeMasks, micDemo]
  split_ifs <;> simp_all

private lemma active_noise (M : ℕ) (k : Fin 3) (s : Fin 2) (m : Fin M) (hm : m.1 ≠ 0) :
    activeMasks M (micDemo k) s m = fun _ _ => 1 := by
  funext f n
  simp [activeMasks, hm]

/-- A gain of at least one keeps the problem well posed. -/
lemma wellPosed_gain {C F N : ℕ} {α : Fin F → ℂ} {X : Sig C F N} {target noise : Fin F → Fin N → ℝ} {f : Fin F} (h1 : 1 ≤ ‖α f‖ ^ 2)
    (h : WellPosed X target noise f) : WellPosed (gain α X) target noise f := by
  have e : ∀ mask : Fin F → Fin N → ℝ, (fun c d => ∑ n, (mask f n : ℂ) * gain α X c f n * star (gain α X d f n))
      = ((‖α f‖ ^ 2 : ℝ) : ℂ) • (fun c d => ∑ n, (mask f n : ℂ) * X c f n * star (X d f n) : Matrix (Fin C) (Fin C) ℂ) :=
    fun mask => maskCov_gain α mask X f
  obtain ⟨ha, hb⟩ := h
  unfold WellPosed
  rw [e, e]
  constructor
  · intro v
    have h2 := ha v
    refine le_trans ?_ (power_smul_mat (‖α f‖ ^ 2) _ v).ge
    have h3 : (0 : ℝ) ≤ 1e-5 * ∑ k, ‖v k‖ ^ 2 := by positivity
    nlinarith
  · intro v w hv hw
    have hp : 0 < ‖α f‖ ^ 2 := by linarith
    exact hb v w (isMaxSnr_gain _ _ _ hp hv) (isMaxSnr_gain _ _ _ hp hw)

private lemma demo_cov (f : Fin 3) : covOf (fun _ _ => 1) micDemo f = 1 := micDemo_noise f

private lemma demo_cov_gain (f : Fin 3) : covOf (fun _ _ => 1) (gain demoGain micDemo) f = ((‖demoGain f‖ ^ 2 : ℝ) : ℂ) • 1 := by
  rw [maskCov_covOf, maskCov_gain, ← maskCov_covOf, demo_cov]

private lemma demo_loud (f : Fin 3) : Loud (covOf (fun _ _ => 1) micDemo f) ∧ Loud (covOf (fun _ _ => 1) (gain demoGain micDemo) f) := by
  rw [demo_cov, demo_cov_gain]
  refine ⟨⟨0, 0, by simp⟩, 0, 0, ?_⟩
  have := (demoGain_sq f).1
  simpa using this

private lemma demo_below (f : Fin 3) : Below (1 / (2 * 1e-5)) (covOf (fun _ _ => 1) micDemo f) ∧
    Below (1 / (2 * 1e-5)) (covOf (fun _ _ => 1) (gain demoGain micDemo) f) := by
  rw [demo_cov, demo_cov_gain]
  have h1 : ∀ i j, ‖(1 : Matrix (Fin 3) (Fin 3) ℂ) i j‖ ≤ 1 := by
    intro i j
    by_cases h : i = j
    · subst h; simp
    · simp [Matrix.one_apply_ne h]
  have h9 := (demoGain_sq f).2
  constructor
  · intro i j
    refine (h1 i j).trans (by norm_num)
  · intro i j
    rw [Matrix.smul_apply, smul_eq_mul, norm_mul, Complex.norm_of_nonneg (by positivity)]
    have := h1 i j
    calc ‖demoGain f‖ ^ 2 * ‖(1 : Matrix (Fin 3) (Fin 3) ℂ) i j‖ ≤ 9 * 1 := by gcongr
      _ ≤ _ := by norm_num

example : gain demoGain micDemo ≠ micDemo := by
  intro h
  have := congrFun (congrFun (congrFun h 0) 1) 0
  simp [gain, micDemo, demoGain] at this
  have := congrArg Complex.re this
  simp at this

/-- `mvdr_scm_level` applies, and the call returns at both levels. -/
example (solver) : ∃ Y, mvdrForward solver (activeMask 2) 0 1e-5 "scm" none micDemo = .ok Y ∧
    mvdrForward solver (activeMask 2) 0 1e-5 "scm" none (gain demoGain micDemo) = .ok (gain demoGain Y) := by
  have hw : ∀ p : Fin 2 × Fin 3, mvdrBf2 (maskCov (activeMasks 2 (micDemo 0) p.1 0) micDemo p.2)
      (maskCov (activeMasks 2 (micDemo 0) p.1 1) micDemo p.2) 0 = .ok (Pi.single 0 1) := by
    intro p
    rw [show activeMasks 2 (micDemo 0) p.1 0 = _ from active_target 2 (by norm_num) 0 p.1,
      active_noise 2 0 p.1 1 (by norm_num), ← maskCov_covOf, ← maskCov_covOf, demo_cov,
      show covOf (fun f n => ‖micDemo 0 f n‖ ^ 2) micDemo p.2 = _ from micDemo_target 0 p.2]
    have hs : solve (1 : Matrix (Fin 3) (Fin 3) ℂ) (Matrix.of fun c d : Fin 3 => if c = 0 ∧ d = 0 then (1 : ℂ) else 0)
        = .ok (Matrix.of fun c d => if c = 0 ∧ d = 0 then 1 else 0) := solve_ok_iff.2 ⟨by simp, Matrix.one_mul _⟩
    unfold mvdrBf2
    simp only [hs, bind, Except.bind, Matrix.of_apply, Fin.sum_univ_three]
    rw [if_neg (by simp)]
    simp only [pure, Except.pure]
    congr 1
    funext c
    simp [Pi.single_apply]
  have hY : ∃ Y, mvdrForward solver (activeMask 2) 0 1e-5 "scm" none micDemo = .ok Y := by
    unfold mvdrForward
    exact ⟨_, (bind_ok_iff _ _ _).2 ⟨_, seqAll_ok_iff.2 hw, rfl⟩⟩
  obtain ⟨Y, hY⟩ := hY
  refine ⟨Y, hY, ?_⟩
  rw [mvdr_scm_level demoGain demoGain_ne solver (activeMask 2) 0 1e-5 none micDemo rfl (active_gain 2 _ _), hY]
  rfl

/-- `gev_level` applies, and the call returns at both levels. -/
example : ∃ solver Y, gevForward solver (activeMask 2) 0 micDemo = .ok Y ∧
    gevForward solver (activeMask 2) 0 (gain demoGain micDemo) = .ok (gain demoGain Y) := by
  obtain ⟨solver, hc⟩ := eighContract_exists 3
  have hnn := active_nonneg 2 (micDemo 0)
  have hw : ∀ (s : Fin 2) (f : Fin 3), WellPosed micDemo (activeMasks 2 (micDemo 0) s ⟨0, by omega⟩)
      (activeMasks 2 (micDemo 0) s ⟨1, by omega⟩) f := by
    intro s f
    rw [active_target 2 (by norm_num) 0 s, active_noise 2 0 s ⟨1, by omega⟩ (by norm_num)]
    exact micDemo_well 0 f
  obtain ⟨Y, h, -⟩ := gev_forward solver (activeMask 2) 0 micDemo (by norm_num) hc 2 le_rfl (activeMasks 2 (micDemo 0)) rfl hnn (fun s f => (hw s f).1)
  refine ⟨solver, Y, h, ?_⟩
  rw [gev_level (by norm_num) demoGain demoGain_ne solver hc (activeMask 2) 0 micDemo 2 le_rfl (activeMasks 2 (micDemo 0)) rfl hnn hw
    (fun s f => wellPosed_gain (demoGain_sq f).1 (hw s f)) (active_gain 2 _ _), h]
  rfl

/-- `mwf_level_partial` applies, and the call returns at both levels. -/
example : ∃ Y, mwfForward (activeMask 2) 0 1e-5 true micDemo = .ok Y ∧
    mwfForward (activeMask 2) 0 1e-5 true (gain demoGain micDemo) = .ok (gain demoGain Y) := by
  have hnn := active_nonneg 2 (micDemo 0)
  obtain ⟨Y, h, -⟩ := mwf_forward_time_invariant (activeMask 2) 0 1e-5 micDemo 2 le_rfl (activeMasks 2 (micDemo 0)) rfl hnn
  refine ⟨Y, h, ?_⟩
  have ht : ∀ f : Fin 3, covOf (fun f n => ‖micDemo 0 f n‖ ^ 2) micDemo f
      = Matrix.of fun c d => if c = 0 ∧ d = 0 then 1 else 0 := micDemo_target 0
  rw [mwf_level_partial demoGain demoGain_ne (activeMask 2) 0 1e-5 micDemo 2 le_rfl (activeMasks 2 (micDemo 0)) rfl (fun s f => ?_) (fun s f => ?_)
    (active_gain 2 _ _), h]
  · rfl
  · refine ⟨0, 0, ?_⟩
    rw [active_target 2 (by norm_num) 0 s, active_noise 2 0 s ⟨1, by omega⟩ (by norm_num), demo_cov, ht]
    norm_num [Matrix.add_apply]
  · refine ⟨0, 0, ?_⟩
    rw [active_target 2 (by norm_num) 0 s, active_noise 2 0 s ⟨1, by omega⟩ (by norm_num), maskCov_covOf, maskCov_covOf, maskCov_gain,
      maskCov_gain, ← maskCov_covOf, ← maskCov_covOf, demo_cov, ht, ← smul_add]
    have := (demoGain_sq f).1
    simp only [Matrix.smul_apply, Matrix.add_apply, Matrix.of_apply, Matrix.one_apply_eq, and_self, if_true, smul_eq_mul, norm_mul]
    rw [Complex.norm_of_nonneg (by positivity)]
    norm_num
    linarith

/-- `mwf_frames_level_partial` applies, and the call returns at both levels. -/
example : ∃ Y, mwfForward (activeMask 4) 0 1e-5 false micDemo = .ok Y ∧
    mwfForward (activeMask 4) 0 1e-5 false (gain demoGain micDemo) = .ok (gain demoGain Y) := by
  have hnn := active_nonneg 4 (micDemo 0)
  obtain ⟨Y, h, -⟩ := mwf_forward_time_varying (activeMask 4) 0 1e-5 micDemo (activeMasks 4 (micDemo 0)) rfl hnn
  refine ⟨Y, h, ?_⟩
  have ht : ∀ f : Fin 3, covOf (fun f n => ‖micDemo 0 f n‖ ^ 2) micDemo f
      = Matrix.of fun c d => if c = 0 ∧ d = 0 then 1 else 0 := micDemo_target 0
  have h0 : ∀ s, activeMasks 4 (micDemo 0) s 0 = fun f n => ‖micDemo 0 f n‖ ^ 2 := active_target 4 (by norm_num) 0
  have h1 : ∀ s, activeMasks 4 (micDemo 0) s 1 = fun _ _ => 1 := fun s => active_noise 4 0 s 1 (by norm_num)
  have h2 : ∀ s, activeMasks 4 (micDemo 0) s 2 = fun _ _ => 1 := fun s => active_noise 4 0 s 2 (by norm_num)
  have h3 : ∀ s, activeMasks 4 (micDemo 0) s 3 = fun _ _ => 1 := fun s => active_noise 4 0 s 3 (by norm_num)
  rw [mwf_frames_level_partial demoGain demoGain_ne (activeMask 4) 0 1e-5 micDemo (activeMasks 4 (micDemo 0)) rfl (fun s f n => ?_) (fun s f n => ?_)
    (active_gain 4 _ _), h]
  · rfl
  · refine ⟨0, 0, ?_⟩
    rw [h0, h1, h2, h3, demo_cov, ht]
    norm_num [Matrix.add_apply]
  · refine ⟨0, 0, ?_⟩
    rw [h0, h1, h2, h3, maskCov_covOf, maskCov_covOf, maskCov_gain, maskCov_gain, ← maskCov_covOf, ← maskCov_covOf, demo_cov, ht,
      Complex.ofReal_one, one_smul, one_smul, ← smul_add]
    have := (demoGain_sq f).1
    simp only [Matrix.smul_apply, Matrix.add_apply, Matrix.of_apply, Matrix.one_apply_eq, and_self, if_true, smul_eq_mul, norm_mul]
    rw [Complex.norm_of_nonneg (by positivity)]
    norm_num
    linarith

/-- The hypotheses of `mvdr_power_level_partial` hold, for any number of iterations and two or three masks. -/
example (solver) (n M : ℕ) (hM : M = 2 ∨ M = 3) :
    mvdrForward solver (activeMask M) 0 1e-5 "rtf" (some n) (gain demoGain micDemo)
      = (mvdrForward solver (activeMask M) 0 1e-5 "rtf" (some n) micDemo).map (gain demoGain) := by
  refine mvdr_power_level_partial demoGain demoGain_ne solver (activeMask M) 0 1e-5 (by norm_num) (by norm_num) n micDemo M hM (activeMasks M (micDemo 0)) rfl
    (active_nonneg M _) (fun s f m hm => ?_) (fun s f => ?_) (active_gain M _ _)
  · rw [active_noise M 0 s m fun h => hm (Fin.ext h)]
    exact demo_loud f
  · rw [active_noise M 0 s _ (by norm_num)]
    exact demo_below f

/-- The hypotheses of `mvdr_eig_level_partial` hold. -/
example (M : ℕ) (hM : M = 2 ∨ M = 3) : ∃ solver,
    mvdrForward solver (activeMask M) 0 1e-5 "rtf" none (gain demoGain micDemo)
      = (mvdrForward solver (activeMask M) 0 1e-5 "rtf" none micDemo).map (gain demoGain) := by
  obtain ⟨solver, hc⟩ := eighContract_exists 3
  have hw : ∀ (s : Fin 2) (f : Fin 3), WellPosed micDemo (activeMasks M (micDemo 0) s ⟨0, by omega⟩)
      (activeMasks M (micDemo 0) s ⟨M - 1, by omega⟩) f := by
    intro s f
    rw [active_target M (by omega) 0 s, active_noise M 0 s ⟨M - 1, by omega⟩ (by simp only; omega)]
    exact micDemo_well 0 f
  refine ⟨solver, mvdr_eig_level_partial (by norm_num) demoGain demoGain_ne solver hc (activeMask M) 0 1e-5 (by norm_num) (by norm_num)
    micDemo M hM (activeMasks M (micDemo 0)) rfl (active_nonneg M _) (fun s f => ?_) (fun s f => ?_) hw
    (fun s f => wellPosed_gain (demoGain_sq f).1 (hw s f)) (active_gain M _ _)⟩
  · rw [active_noise M 0 s _ (by norm_num)]
    exact demo_loud f
  · rw [active_noise M 0 s _ (by norm_num)]
    exact demo_below f

/-- `wpe_level_partial` applies to a constant recording of two channels, two frequencies and three frames. -/
example : wpeForward 1 1 0 1e-3 (gain (fun _ => 2) fun (_ : Fin 2) (_ : Fin 2) (_ : Fin 3) => (2 : ℂ)) none ()
    = (wpeForward 1 1 0 1e-3 (fun (_ : Fin 2) (_ : Fin 2) (_ : Fin 3) => (2 : ℂ)) none ()).map (gain fun _ => 2) := by
  refine wpe_level_partial (fun _ => 2) (fun _ => two_ne_zero) 1 1 0 1e-3 (by norm_num) _ () fun i hi Y hY => ?_
  obtain rfl : i = 0 := by omega
  obtain rfl := Except.ok.inj hY
  have key : ∀ z : ℂ, 2 ≤ ‖z‖ → WpeIdle 1 0 1e-3 (fun (_ : Fin 2) (_ : Fin 2) (_ : Fin 3) => z) (fun _ _ _ => z) := by
    intro z hz
    have hp : ∀ f n, avgPower (fun (_ : Fin 2) (_ : Fin 2) (_ : Fin 3) => z) f n = ‖z‖ ^ 2 := by
      intro f n
      simp [avgPower]
    constructor
    · intro f n
      rw [hp]
      norm_num
      nlinarith
    · intro f
      refine ⟨0, 1, le_rfl, le_rfl, ?_⟩
      simp only [hp, Fin.sum_univ_three]
      have h0 : Torchiva.Spec.past (fun _ : Fin 3 => z) 1 0 = 0 := rfl
      have h1 : Torchiva.Spec.past (fun _ : Fin 3 => z) 1 1 = z := rfl
      have h2 : Torchiva.Spec.past (fun _ : Fin 3 => z) 1 2 = z := rfl
      rw [h0, h1, h2]
      have h4 : 0 < ‖z‖ ^ 2 := by nlinarith
      have h5 : 1 / ‖z‖ ^ 2 * ‖z‖ ^ 2 = 1 := by field_simp
      have h6 : 1 / ‖z‖ ^ 2 ≤ 1 / 4 := one_div_le_one_div_of_le (by norm_num) (by nlinarith)
      rw [h5, norm_zero]
      linarith
  refine ⟨key 2 (by simp), ?_⟩
  have : gain (fun _ => 2) (fun (_ : Fin 2) (_ : Fin 2) (_ : Fin 3) => (2 : ℂ)) = fun _ _ _ => 4 := by
    funext c f n
    norm_num [gain]
  rw [this]
  exact key 4 (by simp; norm_num)

/-! ## Levels that change the output -/

lemma solveLoaded_single {ι κ : Type} [Fintype ι] [DecidableEq ι] [Unique ι] (A : Matrix ι ι ℂ) (b : Matrix ι κ ℂ) (r load : ℝ)
    (hA : A = Matrix.of fun _ _ => (r : ℂ)) (hr : 0 ≤ r) (hl : 0 < load) :
    solveLoaded A b load = .ok (Matrix.of fun i k => b i k / ((r + max (load * r) load : ℝ) : ℂ)) := by
  obtain ⟨m, hm, hg⟩ := maxAbs_greatest A
  have hmr : m = r := by
    obtain ⟨⟨p, hp⟩, -⟩ := hg
    rw [← hp, hA]
    simp only [Matrix.of_apply]
    exact Complex.norm_of_nonneg hr
  subst hmr
  have h0 : ((m + max (load * m) load : ℝ) : ℂ) ≠ 0 := by
    have : 0 < m + max (load * m) load := add_pos_of_nonneg_of_pos hr (lt_of_lt_of_le hl (le_max_right _ _))
    exact_mod_cast this.ne'
  have hM : ∀ i j, (A + ((max (load * m) load : ℝ) : ℂ) • (1 : Matrix ι ι ℂ)) i j = ((m + max (load * m) load : ℝ) : ℂ) := by
    intro i j
    obtain rfl : i = j := Subsingleton.elim _ _
    rw [hA]
    simp [Matrix.add_apply, Matrix.smul_apply]
  unfold solveLoaded
  rw [hm]
  refine solve_ok_iff.2 ⟨?_, ?_⟩
  · rw [Matrix.det_unique]
    exact isUnit_iff_ne_zero.2 (by rw [show clampMin (load * m) load = max (load * m) load from rfl, hM]; exact h0)
  · ext i k
    rw [Matrix.mul_apply, Fintype.sum_unique, show clampMin (load * m) load = max (load * m) load from rfl, hM, Matrix.of_apply,
      Unique.eq_default i]
    field_simp

/-- One microphone, one frequency, one frame: a constant. -/
def constant (C F N : ℕ) : Sig C F N := fun _ _ _ => 1

private lemma cov_constant (a : ℝ) (m : Fin 1 → Fin 1 → ℝ) (hm : m = fun _ _ => 1) :
    maskCov m (gain (fun _ => (a : ℂ)) (constant 1 1 1)) 0 = Matrix.of fun _ _ => ((a ^ 2 : ℝ) : ℂ) := by
  subst hm
  ext c d
  simp [maskCov, gain, constant, sq]

private lemma gain_one {C F N : ℕ} (X : Sig C F N) : gain (fun _ => ((1 : ℝ) : ℂ)) X = X := by
  funext c f n
  simp [gain]

private lemma seqAll_single {α : Type} {g : Fin 1 × Fin 1 → Except Err α} {x : α} (h : g (0, 0) = .ok x) : seqAll g = .ok fun _ => x :=
  seqAll_ok_iff.2 fun p => by rw [Subsingleton.elim p (0, 0)]; exact h

/-- All masks are one. -/
def flatMasks (M : ℕ) : Fin 1 → Fin M → Fin 1 → Fin 1 → ℝ := fun _ _ _ _ => 1

private lemma mwf_constant (eps a : ℝ) :
    mwfForward (fun _ => ⟨2, flatMasks 2⟩) 0 eps true (gain (fun _ => (a : ℂ)) (constant 1 1 1))
      = .ok fun _ _ _ => (a : ℂ) * ((a ^ 2 / (2 * a ^ 2 + max (1e-6 * (2 * a ^ 2)) 1e-6) : ℝ) : ℂ) := by
  have hw : mwfBfRef (maskCov (flatMasks 2 0 0) (gain (fun _ => (a : ℂ)) (constant 1 1 1)) 0)
      (maskCov (flatMasks 2 0 1) (gain (fun _ => (a : ℂ)) (constant 1 1 1)) 0) eps 0
      = .ok fun _ => ((a ^ 2 / (2 * a ^ 2 + max (1e-6 * (2 * a ^ 2)) 1e-6) : ℝ) : ℂ) := by
    rw [cov_constant a (flatMasks 2 0 0) rfl, cov_constant a (flatMasks 2 0 1) rfl]
    unfold mwfBfRef
    rw [solveLoaded_single _ _ (2 * a ^ 2) 1e-6 (by ext; simp; ring) (by positivity) (by norm_num)]
    simp only [bind, Except.bind, pure, Except.pure, colVec, Matrix.of_apply]
    congr 1
    funext _
    push_cast
    rfl
  unfold mwfForward
  simp only [dif_pos (le_refl 2), if_true]
  refine (bind_ok_iff _ _ _).2 ⟨_, seqAll_single hw, ?_⟩
  simp only [pure, Except.pure]
  congr 1
  funext s f n
  simp [applyBf, gain, constant]

/-- **C105, violated by the MWF on quiet recordings.** One microphone, one source and masks of one: for every gain below `1/√2` (and
hence for every quiet enough level) the attenuation of the constant recording differs from the one at level one: the
diagonal load stops following the level. -/
theorem mwf_level_violated (eps a : ℝ) (ha : 0 < a) (ha1 : 2 * a ^ 2 < 1) :
    ∃ Y, mwfForward (fun _ => ⟨2, flatMasks 2⟩) 0 eps true (constant 1 1 1) = .ok Y ∧
      ∃ Y', mwfForward (fun _ => ⟨2, flatMasks 2⟩) 0 eps true (gain (fun _ => (a : ℂ)) (constant 1 1 1)) = .ok Y' ∧
        Y' ≠ gain (fun _ => (a : ℂ)) Y := by
  have h1 := mwf_constant eps 1
  rw [gain_one] at h1
  refine ⟨_, h1, _, mwf_constant eps a, fun h => ?_⟩
  have := congrFun (congrFun (congrFun h 0) 0) 0
  simp only [gain] at this
  have ha0 : (a : ℂ) ≠ 0 := by exact_mod_cast ha.ne'
  have h2 := mul_left_cancel₀ ha0 this
  rw [Complex.ofReal_one, one_mul, Complex.ofReal_inj] at h2
  rw [max_eq_right (by nlinarith : (1e-6 : ℝ) * (2 * a ^ 2) ≤ 1e-6), max_eq_left (by norm_num)] at h2
  rw [div_eq_div_iff (by positivity) (by norm_num)] at h2
  nlinarith

example : ∃ Y, mwfForward (fun _ => ⟨2, flatMasks 2⟩) 0 1e-5 true (constant 1 1 1) = .ok Y ∧
    ∃ Y', mwfForward (fun _ => ⟨2, flatMasks 2⟩) 0 1e-5 true (gain (fun _ => ((1e-3 : ℝ) : ℂ)) (constant 1 1 1)) = .ok Y' ∧
      Y' ≠ gain (fun _ => ((1e-3 : ℝ) : ℂ)) Y := mwf_level_violated 1e-5 1e-3 (by norm_num) (by norm_num)

private lemma mvdr_constant (solver) (eps a : ℝ) (he : 0 < eps) (ha : 1 ≤ a) (n : ℕ) (hn : 1 ≤ n) :
    mvdrForward solver (fun _ => ⟨2, flatMasks 2⟩) 0 eps "rtf" (some n) (gain (fun _ => (a : ℂ)) (constant 1 1 1))
      = .ok fun _ _ _ => (a : ℂ) *
        (((a ^ 2 * (1 + eps))⁻¹ / max (a ^ 2 * (1 + eps))⁻¹ eps : ℝ) : ℂ) := by
  have ha2 : 1 ≤ a ^ 2 := by nlinarith
  set R : Matrix (Fin 1) (Fin 1) ℂ := Matrix.of fun _ _ => ((a ^ 2 : ℝ) : ℂ) with hR
  have hR0 : (R 0 0) ≠ 0 := by
    rw [hR]
    simp only [Matrix.of_apply]
    exact_mod_cast (by positivity : a ^ 2 ≠ 0)
  have hps : R.PosSemidef := by
    have : R = ((a ^ 2 : ℝ) : ℂ) • (1 : Matrix (Fin 1) (Fin 1) ℂ) := by
      ext i j
      obtain rfl : i = j := Subsingleton.elim _ _
      simp [hR]
    rw [this]
    exact (posDef_load (by positivity)).posSemidef
  obtain ⟨d, hd⟩ : ∃ d, mvdrRtf solver R R 0 (some n) = .ok d := by
    obtain ⟨L, hL⟩ : ∃ L, IsLoaded R L := by
      obtain ⟨m, x, hm, -, -⟩ := solve_loaded_psd R hps R 1e-5 (by norm_num)
      exact ⟨_, m, hm, rfl⟩
    have hpd : L.PosDef := by
      obtain ⟨m, -, rfl⟩ := hL
      exact Matrix.PosDef.posSemidef_add hps (posDef_load (lt_of_lt_of_le (by norm_num) (le_max_right _ _)))
    refine ⟨_, (rtf_power_value solver R R L hps hL n hn 0 _).2 ⟨?_, fun c => rfl⟩⟩
    have e : ∀ M : Matrix (Fin 1) (Fin 1) ℂ, M 0 0 = M.det := fun M => (Matrix.det_fin_one M).symm
    rw [e (R * (L⁻¹ * R) ^ n), Matrix.det_mul, Matrix.det_pow, Matrix.det_mul]
    rw [e R] at hR0
    have h1 : L⁻¹.det ≠ 0 := (isUnit_det_of_posDef hpd.inv).ne_zero
    exact mul_ne_zero hR0 (pow_ne_zero _ (mul_ne_zero h1 hR0))
  have hd1 : d = fun _ => 1 := by
    funext c
    obtain rfl : c = 0 := Subsingleton.elim _ _
    exact rtf_reference_one solver R R 0 (some n) d hd
  have hb : mvdrBf R d eps = .ok fun _ => (((a ^ 2 * (1 + eps))⁻¹ / max (a ^ 2 * (1 + eps))⁻¹ eps : ℝ) : ℂ) := by
    have hmax : max (eps * a ^ 2) eps = eps * a ^ 2 := max_eq_left (by nlinarith)
    unfold mvdrBf
    rw [solveLoaded_single R _ (a ^ 2) eps hR (by positivity) he, hmax, hd1]
    simp only [bind, Except.bind, colVec, Matrix.of_apply, Fin.sum_univ_one, star_one, one_mul]
    rw [show a ^ 2 + eps * a ^ 2 = a ^ 2 * (1 + eps) by ring]
    have e : ((1 : ℂ) / ((a ^ 2 * (1 + eps) : ℝ) : ℂ)) = (((a ^ 2 * (1 + eps))⁻¹ : ℝ) : ℂ) := by
      push_cast
      rw [one_div]
    rw [e, Complex.ofReal_re]
    rw [if_neg (show clampMin _ _ ≠ 0 from (lt_of_lt_of_le he (le_max_right _ _)).ne')]
    simp only [pure, Except.pure]
    congr 1
    funext _
    rw [Complex.ofReal_div]
    rfl
  unfold mvdrForward
  simp only [if_true]
  have e0 : ∀ m, maskCov (flatMasks 2 0 m) (gain (fun _ => (a : ℂ)) (constant 1 1 1)) 0 = R := fun m => cov_constant a _ rfl
  refine (bind_ok_iff _ _ _).2 ⟨_, seqAll_single (x := d) (by simp only [e0]; exact hd),
    (bind_ok_iff _ _ _).2 ⟨_, seqAll_single (by simp only [e0]; exact hb), ?_⟩⟩
  simp only [pure, Except.pure]
  congr 1
  funext s f n
  simp [applyBf, gain, constant]

/-- **C105, violated by the MVDR on loud recordings.** One microphone, one source and masks of one: at level one the output is the
recording. For every gain with `a² eps ≥ 1` (316 for the default `eps = 1e-5`; samples of 16-bit audio reach 32767) the output is
weaker than the recording by the factor `a² (1 + eps) eps`: the guard of the denominator becomes active. -/
theorem mvdr_level_violated (solver) (eps a : ℝ) (he : 0 < eps) (he1 : eps ≤ 1 / 2) (ha : 1 ≤ a) (hae : 1 ≤ a ^ 2 * eps)
    (n : ℕ) (hn : 1 ≤ n) :
    mvdrForward solver (fun _ => ⟨2, flatMasks 2⟩) 0 eps "rtf" (some n) (constant 1 1 1) = .ok (constant 1 1 1) ∧
      ∃ Y', mvdrForward solver (fun _ => ⟨2, flatMasks 2⟩) 0 eps "rtf" (some n) (gain (fun _ => (a : ℂ)) (constant 1 1 1)) = .ok Y' ∧
        Y' = gain (fun _ => ((a / (a ^ 2 * (1 + eps) * eps) : ℝ) : ℂ)) (constant 1 1 1) ∧
        Y' ≠ gain (fun _ => (a : ℂ)) (constant 1 1 1) := by
  have h1 := mvdr_constant solver eps 1 he le_rfl n hn
  rw [gain_one] at h1
  have ha2 : 0 < a ^ 2 := by positivity
  have hclamp : max (a ^ 2 * (1 + eps))⁻¹ eps = eps := by
    refine max_eq_right ?_
    rw [inv_le_iff_one_le_mul₀ (by positivity)]
    nlinarith
  have hval : (a : ℂ) * (((a ^ 2 * (1 + eps))⁻¹ / max (a ^ 2 * (1 + eps))⁻¹ eps : ℝ) : ℂ)
      = ((a / (a ^ 2 * (1 + eps) * eps) : ℝ) : ℂ) := by
    rw [hclamp, ← Complex.ofReal_mul]
    congr 1
    field_simp
  refine ⟨?_, _, mvdr_constant solver eps a he ha n hn, ?_, fun h => ?_⟩
  · rw [h1]
    congr 1
    funext c f n
    have : eps ≤ ((1 : ℝ) ^ 2 * (1 + eps))⁻¹ := by
      rw [one_pow, one_mul, le_inv_comm₀ he (by positivity), ← one_div, le_div_iff₀ he]
      nlinarith
    rw [max_eq_left this, div_self (by positivity)]
    simp [constant]
  · funext c f n
    simp only [gain, constant, mul_one]
    exact hval
  · have := congrFun (congrFun (congrFun h 0) 0) 0
    simp only [gain, constant, mul_one] at this
    rw [hval, Complex.ofReal_inj, div_eq_iff (by positivity)] at this
    nlinarith [mul_pos (mul_pos ha2 he) he]

example (solver) : ∃ Y', mvdrForward solver (fun _ => ⟨2, flatMasks 2⟩) 0 1e-5 "rtf" (some 1)
    (gain (fun _ => ((1e4 : ℝ) : ℂ)) (constant 1 1 1)) = .ok Y' ∧ Y' ≠ gain (fun _ => ((1e4 : ℝ) : ℂ)) (constant 1 1 1) := by
  obtain ⟨-, Y', h, -, h'⟩ := mvdr_level_violated solver 1e-5 1e4 (by norm_num) (by norm_num) (by norm_num) (by norm_num) 1 le_rfl
  exact ⟨Y', h, h'⟩

private lemma wpe_constant {σ : Type} (eps a : ℝ) (he : 0 < eps) (ha : 0 < a) (ms : σ) :
    ∃ Y, wpeForward 1 1 0 eps (gain (fun _ => (a : ℂ)) (constant 1 1 2)) none ms = .ok Y ∧
      Y 0 0 1 = ((a - a * (a ^ 2 / 2 / (a ^ 2 / 2 + max (eps * (a ^ 2 / 2)) eps)) : ℝ) : ℂ) := by
  set X := gain (fun _ => (a : ℂ)) (constant 1 1 2) with hX
  have hXv : ∀ c f n, X c f n = (a : ℂ) := fun c f n => by simp [hX, gain, constant]
  have hw : wpeDefaultWeights X eps = .ok fun _ _ => 1 / 2 := by
    have hd : ∀ f n, clampMin ((∑ c, magSq (X c f n)) / (1 : ℕ)) eps = max (a ^ 2) eps := by
      intro f n
      simp [magSq_eq, hXv, clampMin]
    have hpos : 0 < max (a ^ 2) eps := lt_of_lt_of_le he (le_max_right _ _)
    unfold wpeDefaultWeights
    simp only [hd, Fin.sum_univ_two]
    rw [if_neg]
    · congr 1
      funext f n
      field_simp
      norm_num
    · rintro ⟨p, h | h⟩
      · exact hpos.ne' h
      · have : 0 < 1 / max (a ^ 2) eps + 1 / max (a ^ 2) eps := by positivity
        exact this.ne' h
  have ht0 : ∀ c f t, delayedTaps X 1 0 c f t 0 = 0 := by
    intro c f t
    rw [delayedTaps_past]
    exact dif_neg (by simp)
  have ht1 : ∀ c f t, delayedTaps X 1 0 c f t 1 = (a : ℂ) := by
    intro c f t
    rw [delayedTaps_past]
    have : t.1 = 0 := by omega
    unfold Torchiva.Spec.past
    rw [dif_pos (by simp [this]), hXv]
  have hH : wpeFilter (fun _ _ => 1 / 2) X (delayedTaps X 1 0) eps
      = .ok fun _ => Matrix.of fun _ _ => ((a ^ 2 / 2 / (a ^ 2 / 2 + max (eps * (a ^ 2 / 2)) eps) : ℝ) : ℂ) := by
    refine seqAll_ok_iff.2 fun f => ?_
    haveI : Unique (Fin 1 × Fin 1) := ⟨⟨(0, 0)⟩, fun _ => Subsingleton.elim _ _⟩
    rw [solveLoaded_single _ _ (a ^ 2 / 2) eps (by ext p q; simp [wpeAcm, Fin.sum_univ_two, ht0, ht1]; ring) (by positivity) he]
    congr 1
    ext p q
    simp [wpeXcv, Fin.sum_univ_two, ht0, ht1, hXv]
    ring
  refine ⟨wpeDerev (fun _ => Matrix.of fun _ _ => ((a ^ 2 / 2 / (a ^ 2 / 2 + max (eps * (a ^ 2 / 2)) eps) : ℝ) : ℂ))
    X (delayedTaps X 1 0), ?_, ?_⟩
  · unfold wpeForward wpeRun
    simp only [iterM, wpeStep, hw, Except.map, bind, Except.bind, hH]
    rfl
  · simp [wpeDerev, hXv, ht1]
    ring

/-- **C105, violated by WPE on quiet recordings.** A constant recording of one channel and two frames, one tap: for every gain below
one the prediction of the second frame from the first is weaker than at level one, because the diagonal load does not follow the
level. -/
theorem wpe_level_violated {σ : Type} (eps a : ℝ) (he : 0 < eps) (ha : 0 < a) (ha1 : a < 1) (ms : σ) :
    ∃ Y, wpeForward 1 1 0 eps (constant 1 1 2) none ms = .ok Y ∧
      ∃ Y', wpeForward 1 1 0 eps (gain (fun _ => (a : ℂ)) (constant 1 1 2)) none ms = .ok Y' ∧
        Y' ≠ gain (fun _ => (a : ℂ)) Y := by
  obtain ⟨Y, h1, h2⟩ := wpe_constant eps 1 he one_pos ms
  obtain ⟨Y', h1', h2'⟩ := wpe_constant eps a he ha ms
  rw [gain_one] at h1
  refine ⟨Y, h1, Y', h1', fun h => ?_⟩
  have := congrFun (congrFun (congrFun h 0) 0) 1
  rw [h2'] at this
  simp only [gain] at this
  rw [h2, ← Complex.ofReal_mul, Complex.ofReal_inj] at this
  have ha2 : a ^ 2 < 1 := by nlinarith
  rw [max_eq_right (by nlinarith : eps * (a ^ 2 / 2) ≤ eps), max_eq_right (by nlinarith : eps * ((1 : ℝ) ^ 2 / 2) ≤ eps)] at this
  have h3 : a * (a ^ 2 / 2 / (a ^ 2 / 2 + eps)) = a * ((1 : ℝ) ^ 2 / 2 / ((1 : ℝ) ^ 2 / 2 + eps)) := by linarith
  have h4 := mul_left_cancel₀ ha.ne' h3
  rw [div_eq_div_iff (by positivity) (by positivity)] at h4
  nlinarith

example : ∃ Y, wpeForward 1 1 0 1e-3 (constant 1 1 2) none () = .ok Y ∧
    ∃ Y', wpeForward 1 1 0 1e-3 (gain (fun _ => ((1e-2 : ℝ) : ℂ)) (constant 1 1 2)) none () = .ok Y' ∧
      Y' ≠ gain (fun _ => ((1e-2 : ℝ) : ℂ)) Y := wpe_level_violated 1e-3 1e-2 (by norm_num) (by norm_num) (by norm_num) ()

end Torchiva.Props
