import Verif.Proofs.Reorder
import Verif.Props.TIss
import Verif.Props.AuxIva
import Verif.Props.Ip2
import Verif.Props.Wpe
import Verif.Props.Five
import Verif.Proofs.FiveReorder
import Verif.Proofs.Demo

/-!
# C97: phase convention, order of the frames and order of the frequencies

The separation algorithms do not care where the phase of a short-time Fourier transform is counted from, in which order the
frequencies are stored and, without delayed taps, in which order the frames come: the output of the transformed input is the
transformed output.
-/

namespace Torchiva.Props

open Torchiva Matrix Spec

variable {σ : Type} {s C F N : ℕ}

/-- The inverse change of convention. -/
private noncomputable def rInv (r : Reorder F N) : Reorder F N where
  u f n := star (r.u (r.freq.symm f) (r.frame.symm n))
  unit f n := by rw [norm_star, r.unit]
  freq := r.freq.symm
  frame := r.frame.symm

private lemma sig_rInv (r : Reorder F N) (X : Sig C F N) : r.sig ((rInv r).sig X) = X := by
  funext c f n
  simp only [Reorder.sig, rInv, Equiv.symm_apply_apply]
  rw [← mul_assoc, reorder_mul_star, one_mul]

private lemma rInv_sig (r : Reorder F N) (X : Sig C F N) : (rInv r).sig (r.sig X) = X := by
  funext c f n
  simp only [Reorder.sig, rInv, Equiv.apply_symm_apply]
  rw [← mul_assoc, mul_comm (star _), reorder_mul_star, one_mul]

private lemma follows_rInv (r : Reorder F N) (model : SourceModel σ F N) (h : Follows r model) : Follows (rInv r) model := by
  intro s ms Y
  have := h s ms ((rInv r).sig Y)
  rw [sig_rInv] at this
  rw [this]
  simp only [Prod.ext_iff, and_true]
  funext k f n
  simp [Reorder.weights, rInv]

private lemma followsWpe_rInv (r : Reorder F N) (model : WpeModel σ C F N) (h : FollowsWpe r model) :
    FollowsWpe (rInv r) model := by
  intro ms Y
  have := h ms ((rInv r).sig Y)
  rw [sig_rInv] at this
  rw [this]
  simp only [Prod.ext_iff, and_true]
  funext f n
  simp [rInv]

private lemma keepsTime_rInv (r : Reorder F N) (h : r.KeepsTime) : (rInv r).KeepsTime := by
  obtain ⟨hf, a, b, hb, hu⟩ := h
  have h1 : r.frame.symm = 1 := by rw [hf]; rfl
  refine ⟨h1, fun f => star (a (r.freq.symm f)), fun f => star (b (r.freq.symm f)),
    fun f => by rw [norm_star, hb], fun f n => ?_⟩
  simp [rInv, h1, hu]

/-- **C97.** The classic source models follow every change of convention. -/
theorem classic_models_follow (r : Reorder F N) (eps : ℝ) :
    Follows r (laplaceModel eps) ∧ Follows r (gaussModel eps) := ⟨laplace_follows r eps, gauss_follows r eps⟩

/-- **C97.** Every source model that sees magnitudes only, whatever its state, follows every change of phase convention. -/
theorem magnitude_models_follow (r : Reorder F N) (hf : r.freq = 1) (hn : r.frame = 1) (model : SourceModel σ F N)
    (h : ∀ s ms (Y Y' : Sig s F N), (∀ k f n, ‖Y k f n‖ = ‖Y' k f n‖) → model s ms Y = model s ms Y') :
    Follows r model := by
  intro s ms Y
  rw [h s ms (r.sig Y) Y fun k f n => by simp [Reorder.sig, hf, hn, r.unit]]
  simp only [Prod.ext_iff, and_true]
  funext k f n
  simp [Reorder.weights, hf, hn]

/-- A stateful model: weights from the magnitudes of one bin, counting its calls. -/
example (r : Reorder 3 4) (hf : r.freq = 1) (hn : r.frame = 1) :
    Follows r (fun _ (calls : ℕ) Y => (fun k f n => ‖Y k f n‖ / (calls + 1), calls + 1)) :=
  magnitude_models_follow r hf hn _ fun s ms Y Y' h => by simp only [h]

/-- **C97 (T-ISS).** With no taps, or with a change of convention that keeps time: the transformed input gives the
transformed output (and the filters of the corresponding frequencies), and it fails iff the original call fails. -/
theorem tiss_follows_convention (r : Reorder F N) (p : TissParams) (hr : p.nTaps = 0 ∨ r.KeepsTime) (nSrc : Option ℕ)
    (X : Sig C F N) (model : SourceModel σ F N) (hm : Follows r model) (reset : σ → σ) (ms : σ) (o : TissOut σ s C F N) :
    tissForward p nSrc X model reset ms = .ok ⟨s, o⟩ ↔
    tissForward p nSrc (r.sig X) model reset ms
      = .ok ⟨s, ⟨r.sig o.Y, fun k f => o.W k (r.freq f), o.J.map fun J c f => J c (r.freq f), o.ms⟩⟩ := by
  have key : ∀ (r : Reorder F N), p.nTaps = 0 ∨ r.KeepsTime → Follows r model → ∀ (X : Sig C F N) (o : TissOut σ s C F N),
      tissForward p nSrc X model reset ms = .ok ⟨s, o⟩ → tissForward p nSrc (r.sig X) model reset ms
      = .ok ⟨s, ⟨r.sig o.Y, fun k f => o.W k (r.freq f), o.J.map fun J c f => J c (r.freq f), o.ms⟩⟩ := by
    intro r hr hm X o h
    obtain ⟨v, hv, hX⟩ := delayedTaps_reorder r p.nDelay X hr
    unfold tissForward at h ⊢
    simp only at h ⊢
    split_ifs at h ⊢ with hs
    have hcore := tissCore_reorder r hs p v hv X hX model hm (reset ms)
    generalize tissCore hs p X model (reset ms) = c at h hcore
    cases c with
    | error e => cases h
    | ok o' =>
      rw [hcore o' rfl]
      cases h
      rfl
  refine ⟨key r hr hm X o, fun h => ?_⟩
  have := key (rInv r) (hr.imp_right (keepsTime_rInv r)) (follows_rInv r model hm) _ _ h
  simp only [rInv_sig] at this
  rw [this]
  obtain ⟨Y, W, J, ms'⟩ := o
  simp only [rInv, Equiv.apply_symm_apply, Option.map_map]
  congr
  cases J <;> simp [Function.comp_def]

/-- **C97 (AuxIVA-IP).** Every change of convention is followed. -/
theorem auxiva_follows_convention (r : Reorder F N) (p : IpParams) (nSrc : Option ℕ)
    (X : Sig C F N) (model : SourceModel σ F N) (hm : Follows r model) (reset : σ → σ) (ms : σ) (o : IpOut σ s F N) :
    auxivaForward p nSrc X model reset ms = .ok ⟨s, o⟩ ↔
    auxivaForward p nSrc (r.sig X) model reset ms = .ok ⟨s, ⟨r.sig o.Y, o.ms⟩⟩ := by
  refine ⟨auxiva_reorder r p nSrc X model hm reset ms o, fun h => ?_⟩
  have := auxiva_reorder (rInv r) p nSrc _ model (follows_rInv r model hm) reset ms _ h
  simpa only [rInv_sig] using this

/-- **C97 (AuxIVA-IP2).** Every change of convention is followed. -/
theorem ip2_follows_convention (r : Reorder F N) (nIter : ℕ) (m : Option ℤ) (eps : ℝ)
    (X : Sig C F N) (model : SourceModel σ F N) (hm : Follows r model) (reset : σ → σ) (ms : σ) (Y : Sig 2 F N) :
    auxiva2Forward nIter m eps X model reset ms = .ok Y ↔
    auxiva2Forward nIter m eps (r.sig X) model reset ms = .ok (r.sig Y) := by
  refine ⟨auxiva2_reorder r nIter m eps X model hm reset ms Y, fun h => ?_⟩
  have := auxiva2_reorder (rInv r) nIter m eps _ model (follows_rInv r model hm) reset ms _ h
  simpa only [rInv_sig] using this

/-- **C97 (WPE).** With default weights, or a source model that follows, every change of convention that keeps time is
followed. -/
theorem wpe_follows_convention (r : Reorder F N) (hr : r.KeepsTime) (nIter T D : ℕ) (eps : ℝ) (X : Sig C F N)
    (model : Option (WpeModel σ C F N)) (hm : ∀ m ∈ model, FollowsWpe r m) (ms : σ) (Y : Sig C F N) :
    wpeForward nIter T D eps X model ms = .ok Y ↔ wpeForward nIter T D eps (r.sig X) model ms = .ok (r.sig Y) := by
  have key : ∀ (r : Reorder F N), r.KeepsTime → (∀ m ∈ model, FollowsWpe r m) → ∀ X Y : Sig C F N,
      wpeForward nIter T D eps X model ms = .ok Y → wpeForward nIter T D eps (r.sig X) model ms = .ok (r.sig Y) := by
    intro r hr hm X Y h
    unfold wpeForward at h ⊢
    have hrun := wpe_reorder r nIter T D (.inr hr) eps X model hm ms
    generalize wpeRun nIter T D eps X model ms = c at h hrun
    cases c with
    | error e => cases h
    | ok st =>
      rw [hrun st rfl]
      cases h
      rfl
  refine ⟨key r hr hm X Y, fun h => ?_⟩
  have := key (rInv r) (keepsTime_rInv r hr) (fun m h => followsWpe_rInv r m (hm m h)) _ _ h
  simpa only [rInv_sig] using this

/-- **C97 (FIVE).** Every change of convention of the frequencies above zero is followed, with both eigenvector methods: the transformed input gives the
transformed output, and it fails iff the original call fails.  Frequency zero is not used (and zero in the output). -/
theorem five_follows_convention [NeZero C] (r : Reorder F N) (solver : Matrix (Fin C) (Fin C) ℂ → EigRes (Fin C)) (nIter : ℕ) (ref : Fin C)
    (nPower : Option ℕ) (X X' : Sig C (F + 1) N) (hX : ∀ c f n, X' c f.succ n = r.u f n * X c (r.freq f).succ (r.frame n))
    (model : SourceModel σ F N) (hm : Follows r model) (reset : σ → σ) (ms : σ) :
    ((∃ Y, fiveForward solver nIter ref nPower X model reset ms = .ok Y) ↔ ∃ Y', fiveForward solver nIter ref nPower X' model reset ms = .ok Y') ∧
    ∀ Y Y', fiveForward solver nIter ref nPower X model reset ms = .ok Y → fiveForward solver nIter ref nPower X' model reset ms = .ok Y' →
      ∀ k n, Y' k 0 n = 0 ∧ ∀ f, Y' k (Fin.succ f) n = r.u f n * Y k (r.freq f).succ (r.frame n) := by
  refine ⟨⟨fun ⟨Y, h⟩ => ⟨_, five_reorder r solver nIter ref nPower X X' hX model hm reset ms Y h⟩, fun ⟨Y', h⟩ => ⟨_, five_reorder (rInv r) solver nIter ref
    nPower X' X (fun c f n => ?_) model (follows_rInv r model hm) reset ms Y' h⟩⟩, fun Y Y' h h' k n => ?_⟩
  · rw [hX]
    simp only [rInv, Equiv.apply_symm_apply]
    rw [← mul_assoc, mul_comm (star _), reorder_mul_star, one_mul]
  · rw [five_reorder r solver nIter ref nPower X X' hX model hm reset ms Y h] at h'
    obtain rfl := Except.ok.inj h'
    refine ⟨rfl, fun f => ?_⟩
    beta_reduce
    rw [dif_neg (Fin.succ_ne_zero f), Fin.pred_succ]

/-! Concrete cases: three frequencies in reverse order, four frames in reverse order and a phase that depends on both; and
a frame-advance phase that keeps time. -/

private noncomputable def demoR : Reorder 3 4 where
  u f n := if f.1 = 1 then Complex.I else if n.1 = 2 then -1 else 1
  unit f n := by split_ifs <;> simp
  freq := Fin.revPerm
  frame := Fin.revPerm

private noncomputable def demoK : Reorder 3 4 where
  u f n := Complex.I ^ (f.1 * n.1)
  unit f n := by rw [norm_pow, Complex.norm_I, one_pow]
  freq := Fin.revPerm
  frame := 1

private lemma demoK_keeps : demoK.KeepsTime :=
  ⟨rfl, fun _ => 1, fun f => Complex.I ^ f.1, fun f => by rw [norm_pow, Complex.norm_I, one_pow],
    fun f n => by simp [demoK, pow_mul]⟩

/-- The change of convention is not the identity on the example signal. -/
example : demoK.sig (Demo.sig 2 3 4) ≠ Demo.sig 2 3 4 := by
  intro h
  have := congrArg Complex.re (congrFun (congrFun (congrFun h 0) 1) 1)
  simp [Reorder.sig, demoK, Demo.sig, Fin.revPerm] at this
  norm_num at this

example : ∃ o : TissOut Unit 2 3 3 4,
    tissForward ⟨10, 2, 1, some 2, false, 1e-5⟩ (some 2) (Demo.sig 3 3 4) (laplaceModel 1e-5) id () = .ok ⟨2, o⟩ ∧
    tissForward ⟨10, 2, 1, some 2, false, 1e-5⟩ (some 2) (demoK.sig (Demo.sig 3 3 4)) (laplaceModel 1e-5) id ()
      = .ok ⟨2, ⟨demoK.sig o.Y, fun k f => o.W k f.rev, o.J.map fun J c f => J c f.rev, ()⟩⟩ := by
  obtain ⟨o, h⟩ := tiss_succeeds ⟨10, 2, 1, some 2, false, 1e-5⟩ (by norm_num) (some 2) (Demo.sig 3 3 4)
    (by rintro k ⟨⟩; norm_num) (by rintro k ⟨⟩; norm_num) (laplaceModel 1e-5) id ()
  exact ⟨o, h, (tiss_follows_convention demoK _ (.inr demoK_keeps) _ _ _ (classic_models_follow _ _).1 _ _ o).1 h⟩

example : ∃ o : TissOut Unit 2 3 3 4,
    tissForward ⟨10, 0, 0, some 2, true, 1e-5⟩ (some 2) (Demo.sig 3 3 4) (gaussModel 1e-5) id () = .ok ⟨2, o⟩ ∧
    tissForward ⟨10, 0, 0, some 2, true, 1e-5⟩ (some 2) (demoR.sig (Demo.sig 3 3 4)) (gaussModel 1e-5) id ()
      = .ok ⟨2, ⟨demoR.sig o.Y, fun k f => o.W k f.rev, o.J.map fun J c f => J c f.rev, ()⟩⟩ := by
  obtain ⟨o, h⟩ := tiss_succeeds ⟨10, 0, 0, some 2, true, 1e-5⟩ (by norm_num) (some 2) (Demo.sig 3 3 4)
    (by rintro k ⟨⟩; norm_num) (by rintro k ⟨⟩; norm_num) (gaussModel 1e-5) id ()
  exact ⟨o, h, (tiss_follows_convention demoR _ (.inl rfl) _ _ _ (classic_models_follow _ _).2 _ _ o).1 h⟩

example : ∃ o : IpOut Unit 2 3 4,
    auxivaForward ⟨10, some 2, 1e-5⟩ (some 2) (Demo.sig 3 3 4) (laplaceModel 1e-5) id () = .ok ⟨2, o⟩ ∧
    auxivaForward ⟨10, some 2, 1e-5⟩ (some 2) (demoR.sig (Demo.sig 3 3 4)) (laplaceModel 1e-5) id ()
      = .ok ⟨2, ⟨demoR.sig o.Y, ()⟩⟩ := by
  obtain ⟨o, -, -, h, -⟩ := auxiva_output ⟨10, some 2, 1e-5⟩ (by norm_num) 2 (by norm_num) (Demo.sig 3 3 4) (laplaceModel 1e-5)
    (fun s ms Y k f n => Demo.laplace_nonneg s ms Y k f n) id () (by simp)
  exact ⟨o, h, (auxiva_follows_convention demoR _ _ _ _ (classic_models_follow _ _).1 _ _ o).1 h⟩

example : ∃ Y : Sig 2 3 4,
    auxiva2Forward 10 (some 1) 1e-5 (Demo.sig 2 3 4) (laplaceModel 1e-5) id () = .ok Y ∧
    auxiva2Forward 10 (some 1) 1e-5 (demoR.sig (Demo.sig 2 3 4)) (laplaceModel 1e-5) id () = .ok (demoR.sig Y) := by
  obtain ⟨Y, h⟩ := ip2_succeeds 10 (some 1) 1e-5 (by norm_num) (Demo.sig 2 3 4) (laplaceModel 1e-5)
    (fun s ms Y k f n => Demo.laplace_nonneg s ms Y k f n) id ()
  exact ⟨Y, h, (ip2_follows_convention demoR _ _ _ _ _ (classic_models_follow _ _).1 _ _ Y).1 h⟩

example : ∃ Y : Sig 2 3 4,
    wpeForward 3 2 1 1e-5 (Demo.sig 2 3 4) (none : Option (WpeModel Unit 2 3 4)) () = .ok Y ∧
    wpeForward 3 2 1 1e-5 (demoK.sig (Demo.sig 2 3 4)) (none : Option (WpeModel Unit 2 3 4)) () = .ok (demoK.sig Y) := by
  obtain ⟨Y, h⟩ := wpe_total (T := 2) 3 1 1e-5 (by norm_num) (Demo.sig 2 3 4) (none : Option (WpeModel Unit 2 3 4))
    (by rintro m ⟨⟩) ()
  exact ⟨Y, h, (wpe_follows_convention demoK demoK_keeps _ _ _ _ _ _ (by rintro m ⟨⟩) _ Y).1 h⟩

/-- Channel `c` is heard in frame `c` only. -/
private def pulses : Sig 3 (3 + 1) 4 := fun c _ n => if c.1 = n.1 then 1 else 0

private lemma pulses_ok (f : Fin 3) : WellConditioned fun c => pulses c f.succ := fun v => by
  simp only [meanPower, filt, pulses, Fin.sum_univ_four, Fin.sum_univ_three]
  norm_num [Fin.val_two]
  nlinarith [sq_nonneg ‖v 0‖, sq_nonneg ‖v 1‖, sq_nonneg ‖v 2‖]

example : ∃ (solver : Matrix (Fin 3) (Fin 3) ℂ → EigRes (Fin 3)) (X' : Sig 3 (3 + 1) 4) (Y Y' : Sig 1 (3 + 1) 4), EighContract 3 solver ∧ X' ≠ pulses ∧
    fiveForward solver 2 1 none pulses (laplaceModel 1e-5) id () = .ok Y ∧ fiveForward solver 2 1 none X' (laplaceModel 1e-5) id () = .ok Y' ∧
    ∀ f n, Y' 0 (Fin.succ f) n = demoR.u f n * Y 0 f.rev.succ n.rev := by
  obtain ⟨solver, hc⟩ := eighContract_exists 3
  obtain ⟨Y, hY, -⟩ := five_run (by norm_num) solver hc 2 1 pulses pulses_ok (laplaceModel 1e-5) id ()
  have h := five_follows_convention demoR solver 2 1 none pulses (fun c f n => if hf : f = 0 then 0 else demoR.u (f.pred hf) n * pulses c f n.rev)
    (fun c f n => by rw [dif_neg (Fin.succ_ne_zero f), Fin.pred_succ]; rfl) (laplaceModel 1e-5) (classic_models_follow _ _).1 id ()
  obtain ⟨Y', hY'⟩ := h.1.1 ⟨Y, hY⟩
  refine ⟨solver, _, Y, Y', hc, fun e => ?_, hY, hY', fun f n => (h.2 Y Y' hY hY' 0 n).2 f⟩
  have := congrFun (congrFun (congrFun e 0) 0) 0
  simp [pulses] at this

end Torchiva.Props
