import Verif.Model.Ip2State
import Verif.Props.ContrastIp
import Verif.Props.Ilrma
import Verif.Props.TensorNmf

/-!
# AuxIVA-IP2 with the NMF model (C150)
-/

namespace Torchiva.Props

open Torchiva Matrix _root_.Spec

variable {σ : Type} {F N K : ℕ}

/-- **C150.**  A call leaves the source model in a defined state exactly when it returns: whatever the reference microphone, this state
is the one after `n` calls of the reset model with the unprojected outputs of `0, 1, ..., n - 1` iterations. -/
theorem ip2_model_state (nIter : ℕ) (mic : Option ℤ) (eps : ℝ) (X : Sig 2 F N) (model : SourceModel σ F N) (reset : σ → σ) (ms : σ)
    (hm : ∀ m ∈ mic, 0 ≤ m ∧ m < ((2 : ℕ) : ℤ)) :
    ((∃ m, auxiva2ModelState nIter mic eps X model reset ms = .ok m) ↔ ∃ Y, auxiva2Forward nIter mic eps X model reset ms = .ok Y) ∧
    auxiva2ModelState 0 mic eps X model reset ms = .ok (reset ms) ∧
    ∀ m', auxiva2ModelState (nIter + 1) mic eps X model reset ms = .ok m' →
      ∃ m Y, auxiva2ModelState nIter mic eps X model reset ms = .ok m ∧ auxiva2Forward nIter none eps X model reset ms = .ok Y ∧
        m' = (model 2 m Y).2 := by
  have hn : ∀ m ∈ (none : Option ℤ), 0 ≤ m ∧ m < ((2 : ℕ) : ℤ) := fun m hm => by cases hm
  unfold auxiva2ModelState auxiva2Forward
  simp only [dif_pos rfl, if_pos hm, if_pos hn, Fin.cast_eq_self]
  refine ⟨?_, rfl, ?_⟩
  · cases iterM (ip2Epoch X model eps) nIter ⟨X, fun _ => 1, fun _ => 1, reset ms⟩ with
    | error e => simp [bind, Except.bind]
    | ok st =>
      simp only [bind, Except.bind, pure, Except.pure]
      refine ⟨fun _ => ?_, fun _ => ⟨_, rfl⟩⟩
      cases mic with
      | none => exact ⟨_, rfl⟩
      | some m => by_cases h : 0 < nIter <;> simp [h]
  · intro m' h
    rw [iterM_snoc] at h
    cases hst : iterM (ip2Epoch X model eps) nIter ⟨X, fun _ => 1, fun _ => 1, reset ms⟩ with
    | error e => rw [hst] at h; cases h
    | ok st =>
      rw [hst] at h
      simp only [bind, Except.bind, pure, Except.pure] at h ⊢
      refine ⟨st.ms, st.X, rfl, rfl, ?_⟩
      cases hst' : ip2Epoch X model eps st with
      | error e => rw [hst'] at h; cases h
      | ok st' =>
        rw [hst'] at h
        obtain rfl := Except.ok.inj h
        unfold ip2Epoch at hst'
        simp only at hst'
        cases hW : seqAll (fun f => ip2Update (fun c => X c f) (fun k n => (model 2 st.ms st.X).1 k f n
            * clampMin ((∑ f, ∑ n, magSq (st.X k f n)) / (F * N)) 1e-5) eps) with
        | error e => rw [hW] at hst'; cases hst'
        | ok W =>
          rw [hW] at hst'
          obtain rfl := Except.ok.inj hst'
          rfl

example : auxiva2ModelState 0 (some 1) 1e-5 (fun _ _ _ => 1 : Sig 2 1 1) (fun _ (m : ℕ) _ => (fun _ _ _ => 1, m + 1)) (fun _ => 0) 7 = .ok 0 :=
  (ip2_model_state 0 (some 1) 1e-5 _ _ _ _ (by simp)).2.1

/-- Two runs that differ by one iteration, with the state of the source model. -/
private lemma ip2_two_runs (nIter : ℕ) (eps : ℝ) (X : Sig 2 F N) (model : SourceModel σ F N) (reset : σ → σ) (ms : σ)
    (Y Y' : Sig 2 F N) (m m' : σ) (h : auxiva2Forward nIter none eps X model reset ms = .ok Y)
    (hm : auxiva2ModelState nIter none eps X model reset ms = .ok m)
    (h' : auxiva2Forward (nIter + 1) none eps X model reset ms = .ok Y')
    (hm' : auxiva2ModelState (nIter + 1) none eps X model reset ms = .ok m') :
    m' = (model 2 m Y).2 ∧ ∃ W' : Fin F → Matrix (Fin 2) (Fin 2) ℂ,
      (∀ f, ip2Update (fun c => X c f) (fun k n => (model 2 m Y).1 k f n
        * max ((∑ f, ∑ n, ‖Y k f n‖ ^ 2) / (F * N)) 1e-5) eps = .ok (W' f)) ∧
      Y' = fun k f n => out (W' f) (fun c => X c f) k n := by
  have hcond : ∀ m ∈ (none : Option ℤ), 0 ≤ m ∧ m < ((2 : ℕ) : ℤ) := fun m hm => by cases hm
  unfold auxiva2Forward at h h'
  unfold auxiva2ModelState at hm hm'
  rw [dif_pos rfl, if_pos hcond] at h h' hm hm'
  simp only [Fin.cast_eq_self] at h h' hm hm'
  rw [iterM_snoc] at h' hm'
  cases hst : iterM (ip2Epoch X model eps) nIter ⟨X, fun _ => 1, fun _ => 1, reset ms⟩ with
  | error e => rw [hst] at h; cases h
  | ok st =>
    rw [hst] at h h' hm hm'
    simp only [bind, Except.bind, pure, Except.pure, Except.ok.injEq] at h h' hm hm'
    subst h hm
    unfold ip2Epoch at h' hm'
    simp only [clampMin, magSq_eq] at h' hm'
    cases hW : seqAll (fun f => ip2Update (fun c => X c f) (fun k n => (model 2 st.ms st.X).1 k f n
        * max ((∑ f, ∑ n, ‖st.X k f n‖ ^ 2) / (F * N)) 1e-5) eps) with
    | error e => rw [hW] at h'; cases h'
    | ok W' =>
      rw [hW] at h' hm'
      simp only [bind, Except.bind, pure, Except.pure, Except.ok.injEq] at h' hm'
      subst h' hm'
      exact ⟨rfl, W', fun f => seqAll_ok_iff.1 hW f, rfl⟩

private lemma ip2_state_inv (eps : ℝ) (X : Sig 2 F N) (model : SourceModel σ F N) (reset : σ → σ) (ms : σ) (I : σ → Prop)
    (h0 : I (reset ms)) (hI : ∀ m Y, I m → I (model 2 m Y).2) (nIter : ℕ) (m : σ)
    (hm : auxiva2ModelState nIter none eps X model reset ms = .ok m) : I m := by
  induction nIter generalizing m with
  | zero => rw [(ip2_model_state 0 none eps X model reset ms (by simp)).2.1] at hm; obtain rfl := Except.ok.inj hm; exact h0
  | succ n ih =>
    obtain ⟨m0, Y, h1, -, rfl⟩ := (ip2_model_state n none eps X model reset ms (by simp)).2.2 m hm
    exact hI _ _ (ih m0 h1)

/-- **C150.**  Two channels, the AuxIVA-IP2 separator with `NMFModel` and no projection back.  `Y` and `m` are the output and the source
model after some number of iterations, `Y'` and `m'` those after one more.  If no floor of the source model was active in its last call
and the weighted covariances of the input are away from the clamps, then `Y'` is the output of invertible demixing matrices and the
negative log-likelihood of the signals and the low-rank variances, minimised over the scale of the sources, does not increase. -/
theorem ip2_nmf_descent (nIter : ℕ) (eps : ℝ) (he : 0 < eps) (hF : 0 < F) (hN : 0 < N) (X : Sig 2 F N)
    {e : ℝ} (hee : 0 < e) (m0 : NmfItem 2 F N K) (hT : ∀ c f k, 0 ≤ m0.uT c f k) (hV : ∀ c n k, 0 ≤ m0.uV c n k)
    (Y Y' : Sig 2 F N) (m m' : NmfItem 2 F N K)
    (h : auxiva2Forward nIter none eps X (nmfModel e) nmfItemReset m0 = .ok Y)
    (hm : auxiva2ModelState nIter none eps X (nmfModel e) nmfItemReset m0 = .ok m)
    (h' : auxiva2Forward (nIter + 1) none eps X (nmfModel e) nmfItemReset m0 = .ok Y')
    (hm' : auxiva2ModelState (nIter + 1) none eps X (nmfModel e) nmfItemReset m0 = .ok m')
    (hfl : FloorsInactive e (m.factors e) (m'.factors e))
    (hreg : ∀ f, Ip2Regular (fun c => X c f) (fun k n => (lowRank (m'.factors e).T (m'.factors e).V k f n)⁻¹
      * max ((∑ f, ∑ n, ‖Y k f n‖ ^ 2) / (F * N)) 1e-5) eps)
    (W : Fin F → Matrix (Fin 2) (Fin 2) ℂ) (hW : ∀ f, (W f).det ≠ 0)
    (hY : ∀ k f n, Y k f n = ∑ c, W f k c * X c f n) :
    ∃ W' : Fin F → Matrix (Fin 2) (Fin 2) ℂ, (∀ f, (W' f).det ≠ 0) ∧
      (∀ k f n, Y' k f n = ∑ c, W' f k c * X c f n) ∧
      ilrmaLoss Y' (lowRank (m'.factors e).T (m'.factors e).V) + logdetTerm W'
        ≤ ilrmaLoss Y (lowRank (m.factors e).T (m.factors e).V) + logdetTerm W := by
  haveI : NeZero F := ⟨by omega⟩
  haveI : NeZero N := ⟨by omega⟩
  obtain ⟨hms, W', hup, hY'⟩ := ip2_two_runs nIter eps X (nmfModel e) nmfItemReset m0 Y Y' m m' h hm h' hm'
  have hg : NmfGood e (m.factors e) := ip2_state_inv eps X (nmfModel e) nmfItemReset m0 (fun m => NmfGood e (m.factors e))
    (reset_good m0 hT hV) (fun m Y hm => step_good hee m Y hm) nIter m hm
  have heq := nmfModel_eq hee m Y hg
  set b := nmfHalfV e (fun c f n => magSq (Y c f n)) (nmfHalfT e (fun c f n => magSq (Y c f n)) (m.factors e)) with hb
  have hb' : m'.factors e = b := by rw [hms, heq]; rfl
  rw [hb'] at hfl hreg ⊢
  have hbg : NmfGood e b := nmfHalfV_good hee _ (nmfHalfT_good hee _ hg)
  have rb : ∀ k f n, 0 < lowRank b.T b.V k f n := fun k f n => lt_of_lt_of_le hee (hfl.after k f n)
  have hw : ∀ k f n, b.iR k f n = (lowRank b.T b.V k f n)⁻¹ := fun k f n => by
    rw [hbg.2.2]; exact congrArg _ (max_eq_left (hfl.after k f n))
  have hmod : (nmfModel e 2 m Y).1 = fun k f n => (lowRank b.T b.V k f n)⁻¹ := by
    rw [heq]; funext k f n; exact hw k f n
  rw [hmod] at hup
  obtain ⟨hdet', hns, hfree⟩ := ip2_step_free eps he hF X (fun k f n => (lowRank b.T b.V k f n)⁻¹)
    (fun k f n => (inv_pos.2 (rb k f n)).le) Y W' hup hreg W hW hY
  rw [← hY'] at hfree
  refine ⟨W', hdet', fun k f n => by rw [hY']; rfl, ?_⟩
  simp only [srcEnergy_white _ (lowRank b.T b.V) (fun _ _ _ => rfl)] at hfree
  have hpos : ∀ k, ∃ f n, Y' k f n ≠ 0 := fun k => by
    obtain ⟨n, hn⟩ := hns k ⟨0, hF⟩
    exact ⟨⟨0, hF⟩, n, by rw [hY']; exact hn⟩
  obtain ⟨hE, hl⟩ := log_of_prod (fun k => whitePower (Y k) (lowRank b.T b.V k)) _ _ _
    (fun f => norm_pos_iff.2 (hW f)) (fun f => norm_pos_iff.2 (hdet' f))
    (fun k => div_nonneg (Finset.sum_nonneg fun f _ => Finset.sum_nonneg fun n _ => div_nonneg (by positivity) (rb k f n).le)
      (Nat.cast_nonneg N))
    (fun k => by
      obtain ⟨f, n, hn⟩ := hpos k
      exact whitePower_pos hN _ _ (rb k) f n hn) hF hfree
  have hYnz : ∀ k, ∃ f n, Y k f n ≠ 0 := by
    intro k
    by_contra hc
    push Not at hc
    have := hE k
    simp [whitePower, hc] at this
  have hstep := nmf_step_free hee Y hg hfl hYnz
  rw [← hb] at hstep
  have e1 : ∀ (Y : Sig 2 F N) (R : Fin 2 → Fin F → Fin N → ℝ), ilrmaLoss Y R =
      (∑ k, F * Real.log (whitePower (Y k) (R k))) + ∑ k, (∑ f, ∑ n, Real.log (R k f n)) / N := fun Y R => by
    simp only [ilrmaLoss, Finset.sum_add_distrib]
  rw [e1 Y (lowRank b.T b.V)] at hstep
  rw [e1 Y']
  simp only [logdetTerm]
  linarith

/-- Non-vacuity of `ip2_nmf_descent`: two frames, the channels `(1/4, 1/2)` and `(1/2, 1/4)`, one component drawn so that the low-rank
variances are the powers of the input; from no iteration to one iteration. -/
example : ∃ (X Y' : Sig 2 1 2) (m0 m m' : NmfItem 2 1 2 1), (∀ c f k, 0 ≤ m0.uT c f k) ∧ (∀ c n k, 0 ≤ m0.uV c n k) ∧
    auxiva2Forward 0 none 1e-5 X (nmfModel 1e-5) nmfItemReset m0 = .ok X ∧
    auxiva2ModelState 0 none 1e-5 X (nmfModel 1e-5) nmfItemReset m0 = .ok m ∧
    auxiva2Forward 1 none 1e-5 X (nmfModel 1e-5) nmfItemReset m0 = .ok Y' ∧
    auxiva2ModelState 1 none 1e-5 X (nmfModel 1e-5) nmfItemReset m0 = .ok m' ∧
    FloorsInactive 1e-5 (m.factors 1e-5) (m'.factors 1e-5) ∧
    (∀ f, Ip2Regular (fun c => X c f) (fun k n => (lowRank (m'.factors 1e-5).T (m'.factors 1e-5).V k f n)⁻¹
      * max ((∑ f, ∑ n, ‖X k f n‖ ^ 2) / ((1 : ℕ) * (2 : ℕ))) 1e-5) 1e-5) ∧
    (∀ k f n, X k f n = ∑ c, (1 : Matrix (Fin 2) (Fin 2) ℂ) k c * X c f n) := by
  set X : Sig 2 1 2 := fun k _ n => if k = n then 1 / 4 else 1 / 2 with hX
  set m : NmfItem 2 1 2 1 := ⟨fun _ _ _ => 4 / 9, fun k n _ => if k = n then 1 / 36 else 4 / 9, none⟩ with hm
  have he : (0 : ℝ) < 1e-5 := by norm_num
  have hT : ∀ c f k, 0 ≤ m.uT c f k := fun c f k => by norm_num [hm]
  have hV : ∀ c n k, 0 ≤ m.uV c n k := fun c n k => by simp only [hm]; split_ifs <;> norm_num
  have hg : NmfGood 1e-5 (m.factors 1e-5) := reset_good m hT hV
  have heq := nmfModel_eq he m X hg
  set P : Fin 2 → Fin 1 → Fin 2 → ℝ := fun c f n => magSq (X c f n) with hP
  have hPv : ∀ k f n, P k f n = if k = n then 1 / 16 else 1 / 4 := fun k f n => by
    simp only [hP, magSq_eq, hX]; split_ifs <;> norm_num
  have hP0 : ∀ k f n, 1 / 16 ≤ P k f n := fun k f n => by rw [hPv k f n]; split_ifs <;> norm_num
  have aT : ∀ k f j, (m.factors 1e-5).T k f j = 1 / 2 := fun k f j => by norm_num [NmfItem.factors, nmfInit, nmfRecompute, hm]
  have aV : ∀ k n j, (m.factors 1e-5).V k n j = 2 * P k 0 n := fun k n j => by
    rw [hPv k 0 n]
    simp only [NmfItem.factors, nmfInit, nmfRecompute, hm]
    split_ifs with h <;> norm_num [h]
  set a := m.factors 1e-5 with ha
  set c := nmfHalfT 1e-5 P a with hc
  set b := nmfHalfV 1e-5 P c with hb
  have hcg : NmfGood 1e-5 c := nmfHalfT_good he _ hg
  have iRa : ∀ k f n, a.iR k f n = (P k f n)⁻¹ := fun k f n => by
    obtain rfl : f = 0 := Subsingleton.elim _ _
    rw [hg.2.2, Fin.sum_univ_one, aT, aV, max_eq_left (by linarith [hP0 k 0 n])]
    congr 1; ring
  have hPne : ∀ k f n, P k f n ≠ 0 := fun k f n => (lt_of_lt_of_le (by norm_num) (hP0 k f n)).ne'
  have cT : ∀ k f j, c.T k f j = 1 / 2 := fun k f j => by
    obtain rfl : f = 0 := Subsingleton.elim _ _
    show clampMin (a.T k 0 j * √((∑ n, P k 0 n * a.iR k 0 n ^ 2 * a.V k n j) / ∑ n, a.iR k 0 n * a.V k n j)) 1e-5 = _
    have h1 : ∀ n, P k 0 n * a.iR k 0 n ^ 2 * a.V k n j = 2 := fun n => by
      rw [iRa, aV]; have := hPne k 0 n; field_simp
    have h2 : ∀ n, a.iR k 0 n * a.V k n j = 2 := fun n => by
      rw [iRa, aV]; have := hPne k 0 n; field_simp
    simp only [h1, h2, aT, clampMin]
    norm_num
  have cV : ∀ k n j, c.V k n j = 2 * P k 0 n := aV
  have iRc : ∀ k f n, c.iR k f n = (P k f n)⁻¹ := fun k f n => by
    obtain rfl : f = 0 := Subsingleton.elim _ _
    rw [hcg.2.2, Fin.sum_univ_one, cT, cV, max_eq_left (by linarith [hP0 k 0 n])]
    congr 1; ring
  have bT : ∀ k f j, b.T k f j = 1 / 2 := cT
  have bV : ∀ k n j, b.V k n j = 2 * P k 0 n := fun k n j => by
    show clampMin (c.V k n j * √((∑ f, P k f n * c.iR k f n ^ 2 * c.T k f j) / ∑ f, c.iR k f n * c.T k f j)) 1e-5 = _
    have hne := hPne k 0 n
    rw [Fin.sum_univ_one, Fin.sum_univ_one, iRc, cT, cV,
      show P k 0 n * (P k 0 n)⁻¹ ^ 2 * (1 / 2) / ((P k 0 n)⁻¹ * (1 / 2)) = 1 by field_simp, Real.sqrt_one, mul_one]
    exact max_eq_left (by linarith [hP0 k 0 n])
  have hlow : ∀ k f n, lowRank b.T b.V k f n = P k f n := fun k f n => by
    obtain rfl : f = 0 := Subsingleton.elim _ _
    simp only [lowRank, Fin.sum_univ_one, bT, bV]; ring
  have hfl : FloorsInactive 1e-5 a b := by
    refine ⟨fun k f n => ?_, fun k f n => ?_, fun k f n => ?_, fun k f j => ?_, fun k n j => ?_⟩
    · obtain rfl : f = 0 := Subsingleton.elim _ _
      simp only [lowRank, Fin.sum_univ_one, aT, aV]; linarith [hP0 k 0 n]
    · obtain rfl : f = 0 := Subsingleton.elim _ _
      simp only [lowRank, Fin.sum_univ_one, bT, aV]; linarith [hP0 k 0 n]
    · rw [hlow]; linarith [hP0 k f n]
    · rw [bT]; norm_num
    · rw [bV]; linarith [hP0 k 0 n]
  have h0 : auxiva2Forward 0 none 1e-5 X (nmfModel 1e-5) nmfItemReset m = .ok X := ip2_zero_iterations none 1e-5 X _ _ _
  have hm0 := (ip2_model_state 0 none 1e-5 X (nmfModel 1e-5) nmfItemReset m (by simp)).2.1
  obtain ⟨Y', h1⟩ : ∃ Y', auxiva2Forward 1 none 1e-5 X (nmfModel 1e-5) nmfItemReset m = .ok Y' :=
    ip2_succeeds 1 none 1e-5 he X (nmfModel 1e-5) (fun s' ms Y k f n => nmfModel_nonneg he s' ms Y k f n) nmfItemReset m
  obtain ⟨m', hm'⟩ := (ip2_model_state 1 none 1e-5 X (nmfModel 1e-5) nmfItemReset m (by simp)).1.2 ⟨Y', h1⟩
  have hms := (ip2_two_runs 0 1e-5 X (nmfModel 1e-5) nmfItemReset m X Y' _ m' h0 hm0 h1 hm').1
  have hb' : m'.factors 1e-5 = b := by rw [hms, show nmfItemReset m = m from rfl, heq]; rfl
  refine ⟨X, Y', m, _, m', hT, hV, h0, hm0, h1, hm', ?_, fun f => ?_, fun k f n => ?_⟩
  · rw [hb']; exact hfl
  · obtain rfl : f = 0 := Subsingleton.elim _ _
    rw [hb']
    have hwt : (fun (k n : Fin 2) => (lowRank b.T b.V k 0 n)⁻¹ * max ((∑ f, ∑ n, ‖X k f n‖ ^ 2) / ((1 : ℕ) * (2 : ℕ))) 1e-5)
        = fun k n => if k = n then 5 / 2 else 5 / 8 := by
      funext k n
      have : (∑ f, ∑ n, ‖X k f n‖ ^ 2) = 5 / 16 := by
        simp only [hX, Fin.sum_univ_one, Fin.sum_univ_two]
        fin_cases k <;> norm_num
      rw [this, hlow, hPv k 0 n]
      split_ifs
      · rw [max_eq_left (by norm_num)]; norm_num
      · rw [max_eq_left (by norm_num)]; norm_num
    have hV0 : wcov (fun c => X c 0) (fun n => if (0 : Fin 2) = n then 5 / 2 else 5 / 8) = !![5/32, 25/128; 25/128, 85/256] := by
      ext i j
      fin_cases i <;> fin_cases j <;> simp [wcov, hX, Fin.sum_univ_two, Complex.conj_ofNat] <;> norm_num
    have hV1 : wcov (fun c => X c 0) (fun n => if (1 : Fin 2) = n then 5 / 2 else 5 / 8) = !![85/256, 25/128; 25/128, 5/32] := by
      ext i j
      fin_cases i <;> fin_cases j <;> simp [wcov, hX, Fin.sum_univ_two, Complex.conj_ofNat] <;> norm_num
    have hre : ∀ z : ℂ, ‖z‖ ^ 2 = z.re ^ 2 + z.im ^ 2 := fun z => by
      rw [Complex.sq_norm, Complex.normSq_apply]; ring
    rw [hwt]
    refine ⟨?_, ?_, ?_, ?_⟩
    · rw [hV0]; simp [Matrix.det_fin_two]; norm_num
    · rw [hV0, hV1]
      simp [Matrix.det_fin_two, Matrix.adjugate_fin_two, Matrix.trace, Matrix.mul_apply, Fin.sum_univ_two]
      norm_num
    · intro k u hu
      have hs : ‖u 0‖ ^ 2 + ‖u 1‖ ^ 2 = 1 := by
        have : (l2 u) ^ 2 = 1 := by rw [hu]; norm_num
        unfold l2 at this
        rw [Real.sq_sqrt (by positivity), Fin.sum_univ_two] at this
        exact this
      refine le_trans (by norm_num : max (1e-7 : ℝ) (1e-5 ^ 2) ≤ 1 / 256) ?_
      rw [hre, hre] at hs
      fin_cases k
      · simp only [Fin.zero_eta]
        rw [hV0]
        simp [power, dotProduct, Matrix.mulVec, Fin.sum_univ_two]
        nlinarith [sq_nonneg (39 * (u 0).re + 50 * (u 1).re), sq_nonneg (39 * (u 0).im + 50 * (u 1).im),
          sq_nonneg (u 1).re, sq_nonneg (u 1).im]
      · simp only [Fin.mk_one]
        rw [hV1]
        simp [power, dotProduct, Matrix.mulVec, Fin.sum_univ_two]
        nlinarith [sq_nonneg (39 * (u 1).re + 50 * (u 0).re), sq_nonneg (39 * (u 1).im + 50 * (u 0).im),
          sq_nonneg (u 0).re, sq_nonneg (u 0).im]
    · intro l
      rw [hV0, hV1]
      unfold l2
      refine Real.le_sqrt_of_sq_le ?_
      rw [Fin.sum_univ_two]
      rw [hre, hre]
      simp
      norm_num
      nlinarith [sq_nonneg (l - 1), sq_nonneg (l + 1), sq_nonneg l]
  · simp [Matrix.one_apply]

end Torchiva.Props
