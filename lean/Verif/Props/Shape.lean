import Verif.Spec.Shape
import Verif.Proofs.ShapeB

/-!
# Shapes: every batch shape, every number of channels, frequencies and frames (C18, C30, C83–C90)
-/

namespace Torchiva.Props

open Spec

private theorem sig_eq (batch : List ℕ) (c f n : ℕ) : sig batch c f n = n :: f :: c :: batch.reverse := by
  simp [sig, dims]

private theorem spec_eq (batch : List ℕ) (f n : ℕ) : spec batch f n = n :: f :: batch.reverse := by
  simp [spec, dims]

private theorem wave_eq (batch : List ℕ) (c n : ℕ) : wave batch c n = n :: c :: batch.reverse := by
  simp [wave, dims]

private theorem preserving {m : ShapeModel} (h : ShapePreserving m) (b : Shape) (f n : ℕ) (hf : 0 < f)
    (hn : 0 < n) : m (n :: f :: b) = .ok (n :: f :: b) := by
  have := h b.reverse f n hf hn
  simpa [spec_eq] using this

private theorem masking {m : ShapeModel} {s k : ℕ} (h : MaskModel m s k) (b : Shape)
    (hb : ∀ k ∈ b, 0 < k) (f n : ℕ) (hf : 0 < f) (hn : 0 < n) :
    m (n :: f :: b) = .ok (n :: f :: k :: s :: b) := by
  have := h b.reverse f n (by simpa using hb) hf hn
  simpa [spec_eq, dims] using this

/-! ## Source models (C88) -/

/-- The Laplace, Gauss and (reset) NMF models return weights of the shape of their input, for every
batch shape. -/
theorem classic_models_preserve_shape :
    ShapePreserving laplaceS ∧ ShapePreserving gaussS ∧ ShapePreserving nmfS := by
  refine ⟨?_, ?_, ?_⟩ <;> intro batch f n hf hn <;> rw [spec_eq]
  · exact laplaceS_ok n f _
  · exact gaussS_ok n f _
  · exact nmfS_ok n f _ hn hf

/-- `MaskMVDRSupport` returns `(..., n_src, n_masks, n_freq, n_frames)`. -/
theorem mask_support_shape (nSrc nMasks : ℕ) (hs : 0 < nSrc) (hm : 0 < nMasks) :
    MaskModel (maskSupportS nSrc nMasks) nSrc nMasks := by
  intro batch f n hb hf hn
  rw [spec_eq, maskSupportS_ok n f _ hn hf nSrc nMasks hs hm (by simpa using hb)]
  simp [dims]

example : maskSupportS 2 3 (spec [4, 5] 257 100) = .ok (dims [4, 5, 2, 3, 257, 100]) := by decide

/-! ## Separators (C83) -/

/-- T_ISS returns `(..., n_src, n_freq, n_frames)` for every batch shape, with or without projection back
on one of the first `n_src` channels and with or without demixing matrix checkpointing. -/
theorem tiss_shape (batch : List ℕ) (C F N nIter T D : ℕ) (nSrc pb : Option ℕ) (dmc : Bool)
    (model : ShapeModel) (hm : ShapePreserving model) (hF : 0 < F) (hN : 0 < N)
    (hs : nSrc.getD C ≤ C) (hpb : ∀ m ∈ pb, m < nSrc.getD C) :
    tissForwardS nIter T D nSrc pb dmc model (sig batch C F N) =
      .ok (sig batch (nSrc.getD C) F N) := by
  rw [sig_eq, sig_eq]
  exact tissForwardS_ok _ _ _ _ _ _ _ _ _ _ _ hs (preserving hm _ _ _ hF hN)
    fun m h _ => Or.inl (hpb m h)

example : tissForwardS 3 5 2 (some 2) (some 1) true gaussS (sig [3, 2] 4 10 20) =
    .ok (sig [3, 2] 2 10 20) :=
  tiss_shape _ _ _ _ _ _ _ _ _ _ _ classic_models_preserve_shape.2.1 (by decide) (by decide)
    (by decide) (by decide)

/-- AuxIVA_IP returns `(..., n_src, n_freq, n_frames)` for every batch shape, with or without projection
back on one of the first `n_src` channels. -/
theorem auxiva_shape (batch : List ℕ) (C F N nIter nSrc : ℕ) (pb : Option ℕ)
    (model : ShapeModel) (hm : ShapePreserving model) (hF : 0 < F) (hN : 0 < N)
    (hs : nSrc ≤ C) (hpb : ∀ m ∈ pb, m < nSrc) :
    auxivaForwardS false nIter nSrc pb model (sig batch C F N) = .ok (sig batch nSrc F N) := by
  rw [sig_eq, sig_eq, auxivaForwardS_ok _ _ _ _ _ _ _ _ hs (preserving hm _ _ _ hF hN)]
  cases pb with
  | none => rfl
  | some m =>
    have h := hpb m rfl
    dsimp only
    rw [projectionBackDemixingS_ok _ _ _ _ _ m hs (by omega), if_neg (by omega)]

example : auxivaForwardS false 3 2 (some 0) laplaceS (sig [3, 2] 4 10 20) = .ok (sig [3, 2] 2 10 20) :=
  auxiva_shape _ _ _ _ _ _ _ _ classic_models_preserve_shape.1 (by decide) (by decide) (by decide)
    (by decide)

/-- AuxIVA_IP2 returns the shape of its (two-channel) input for every batch shape. -/
theorem auxiva2_shape (batch : List ℕ) (F N nIter : ℕ) (pb : Option ℕ)
    (model : ShapeModel) (hm : ShapePreserving model) (hF : 0 < F) (hN : 0 < N)
    (hpb : ∀ m ∈ pb, m < 2) :
    auxiva2ForwardS nIter pb model (sig batch 2 F N) = .ok (sig batch 2 F N) := by
  rw [sig_eq]
  exact auxiva2ForwardS_ok _ _ _ _ _ _ (preserving hm _ _ _ hF hN) hpb

/-- Any other number of channels is refused by AuxIVA_IP2. -/
theorem auxiva2_channels (batch : List ℕ) (C F N nIter : ℕ) (pb : Option ℕ) (model : ShapeModel)
    (hC : C ≠ 2) :
    auxiva2ForwardS nIter pb model (sig batch C F N) = .error .assertionError := by
  rw [sig_eq]
  simp [auxiva2ForwardS, hC]

example : auxiva2ForwardS 3 (some 1) nmfS (sig [3, 2] 2 10 20) = .ok (sig [3, 2] 2 10 20) :=
  auxiva2_shape _ _ _ _ _ _ classic_models_preserve_shape.2.2 (by decide) (by decide) (by decide)

/-- FIVE with a reference microphone returns `(..., 1, n_freq, n_frames)` for every batch shape. -/
theorem five_shape (batch : List ℕ) (C F N nIter m : ℕ) (nPower : Option ℕ)
    (model : ShapeModel) (hm : ShapePreserving model) (hF : 1 < F) (hN : 0 < N)
    (hmC : m < C) (hp : ∀ n ∈ nPower, 2 ≤ n) :
    fiveForwardS nIter (some m) nPower model (sig batch C F N) = .ok (sig batch 1 F N) := by
  rw [sig_eq, sig_eq]
  exact fiveForwardS_ok _ _ _ _ _ _ hmC _ hp _ (preserving hm _ _ _ (by omega) hN) (by omega)

/-- With `n_power_iter=1` the power method never assigns the eigenvalue it returns, and raises. -/
theorem five_one_power_iteration (batch : List ℕ) (C F N nIter m : ℕ)
    (model : ShapeModel) (hm : ShapePreserving model) (hF : 1 < F) (hN : 0 < N) (hmC : m < C) :
    fiveForwardS (nIter + 1) (some m) (some 1) model (sig batch C F N) =
      .error .unboundLocalError := by
  rw [sig_eq]
  exact fiveForwardS_one _ _ _ _ _ _ hmC _ (preserving hm _ _ _ (by omega) hN)

example : fiveForwardS 3 (some 1) (some 4) laplaceS (sig [3, 2] 4 10 20) = .ok (sig [3, 2] 1 10 20) :=
  five_shape _ _ _ _ _ _ _ _ classic_models_preserve_shape.1 (by decide) (by decide) (by decide)
    (by decide)

/-- WPE with its own weights returns the shape of its input for every batch shape. -/
theorem wpe_shape (batch : List ℕ) (C F N nIter T D : ℕ) (hC : 0 < C) (hT : 0 < T) :
    wpeForwardS nIter T D none (sig batch C F N) = .ok (sig batch C F N) := by
  rw [sig_eq]
  exact wpeForwardS_ok _ _ _ _ _ _ _ hC hT _ (by simp)

example : wpeForwardS 3 5 3 none (sig [4, 2] 3 257 100) = .ok (sig [4, 2] 3 257 100) :=
  wpe_shape _ _ _ _ _ _ _ (by decide) (by decide)

/-- WPE without taps raises (there is no largest entry to scale the loading). -/
theorem wpe_no_taps (batch : List ℕ) (C F N nIter D : ℕ) :
    wpeForwardS (nIter + 1) 0 D none (sig batch C F N) = .error .indexError := by
  rw [sig_eq]
  exact wpeForwardS_zero _ _ _ _ _ _

/-- The MVDR beamformer (two or three masks) returns `(..., n_src, n_freq, n_frames)`. -/
theorem mvdr_shape (batch : List ℕ) (C F N s k ref : ℕ) (mask : ShapeModel) (hmask : MaskModel mask s k)
    (hb : ∀ n ∈ batch, 0 < n) (hF : 0 < F) (hN : 0 < N) (hr : ref < C) (hk : k = 2 ∨ k = 3)
    (ty : String) (hty : k = 2 → ty = "rtf" ∨ ty = "scm") (nPower : Option ℕ) :
    mvdrForwardS mask ref ty nPower (sig batch C F N) = .ok (sig batch s F N) := by
  rw [sig_eq, sig_eq]
  exact mvdrForwardS_ok _ _ _ _ _ k _ (masking hmask _ (by simpa using hb) _ _ hF hN) hk _ hr _ hty _

/-- The Wiener filter returns `(..., n_src, n_freq, n_frames)`; the time-varying one needs four masks. -/
theorem mwf_shape (batch : List ℕ) (C F N s k ref : ℕ) (mask : ShapeModel) (hmask : MaskModel mask s k)
    (hb : ∀ n ∈ batch, 0 < n) (hF : 0 < F) (hN : 0 < N) (hr : ref < C) (hk : 2 ≤ k) (ti : Bool)
    (hti : ti = false → k = 4) :
    mwfForwardS mask ref ti (sig batch C F N) = .ok (sig batch s F N) := by
  rw [sig_eq, sig_eq]
  exact mwfForwardS_ok _ _ _ _ _ k _ (masking hmask _ (by simpa using hb) _ _ hF hN) _ hk hti _ hr

/-- The GEV beamformer returns `(..., n_src, n_freq, n_frames)`. -/
theorem gev_shape (batch : List ℕ) (C F N s k ref : ℕ) (mask : ShapeModel) (hmask : MaskModel mask s k)
    (hb : ∀ n ∈ batch, 0 < n) (hF : 0 < F) (hN : 0 < N) (hr : ref < C) (hk : 2 ≤ k) :
    gevForwardS mask ref (sig batch C F N) = .ok (sig batch s F N) := by
  rw [sig_eq, sig_eq]
  exact gevForwardS_ok _ _ _ _ _ k _ (masking hmask _ (by simpa using hb) _ _ hF hN) hk _ hr

example : mvdrForwardS (maskSupportS 2 3) 1 "rtf" none (sig [3, 2] 4 10 20) =
    .ok (sig [3, 2] 2 10 20) :=
  mvdr_shape _ _ _ _ _ _ _ _ (mask_support_shape 2 3 (by decide) (by decide)) (by decide) (by decide)
    (by decide) (by decide) (Or.inr rfl) _ (by decide) _

example : mwfForwardS (maskSupportS 2 4) 1 false (sig [3, 2] 4 10 20) = .ok (sig [3, 2] 2 10 20) :=
  mwf_shape _ _ _ _ _ _ _ _ (mask_support_shape 2 4 (by decide) (by decide)) (by decide) (by decide)
    (by decide) (by decide) (by decide) _ (by decide)

/-- The scale-restoring functions return the shape of the separated signals, and
`select_most_energetic` the requested number of channels, for every batch shape. -/
theorem scaling_shape (batch : List ℕ) (C F N : ℕ) :
    minDistL2S (sig batch C F N) (spec batch F N) = .ok (sig batch C F N) ∧
      minDistL2PhaseS (sig batch C F N) (spec batch F N) = .ok (sig batch C F N) ∧
      (∀ n, minDistS none n (sig batch C F N) (spec batch F N) = .ok (sig batch C F N)) ∧
      (0 < C → C ≤ N →
        projectionBackS (sig batch C F N) (spec batch F N) = .ok (sig batch C F N)) ∧
      (∀ num, selectS num (wave batch C N) = .ok (wave batch (min num C) N)) := by
  rw [sig_eq, spec_eq, wave_eq]
  refine ⟨minDistL2S_ok _ _ _ _, minDistL2PhaseS_ok _ _ _ _, minDistS_ok _ _ _ _,
    projectionBackS_ok _ _ _ _, fun num => ?_⟩
  rw [wave_eq]
  exact selectS_ok _ _ _ _

/-! ## Reference microphone of T_ISS (C18) -/

/-- T_ISS without batch dimensions accepts every reference microphone. -/
theorem tiss_ref_mic_partial (C F N nIter T D s m : ℕ) (dmc : Bool)
    (model : ShapeModel) (hm : ShapePreserving model) (hF : 0 < F) (hN : 0 < N)
    (hs : s ≤ C) (hmC : m < C) :
    tissForwardS nIter T D (some s) (some m) dmc model (sig [] C F N) = .ok (sig [] s F N) := by
  rw [sig_eq, sig_eq]
  refine tissForwardS_ok _ _ _ _ _ _ _ _ _ _ _ hs (preserving hm _ _ _ hF hN) fun m' h _ => ?_
  simp only [Option.mem_def, Option.some.injEq] at h
  subst h
  by_cases hms : m < s
  · exact Or.inl hms
  · exact Or.inr ⟨hmC, rfl⟩

example : tissForwardS 5 0 0 (some 2) (some 2) false laplaceS (sig [] 3 257 100) = .ok (sig [] 2 257 100) :=
  tiss_ref_mic_partial _ _ _ _ _ _ _ _ _ _ classic_models_preserve_shape.1 (by decide) (by decide) (by decide)
    (by decide)

/-- With any batch dimension, fewer sources than microphones and a reference microphone outside the first
`n_src`, T_ISS raises. -/
theorem tiss_ref_mic_violated (batch : List ℕ) (hb : batch ≠ []) (C F N nIter T D s m : ℕ) (dmc : Bool)
    (model : ShapeModel) (hm : ShapePreserving model) (hF : 0 < F) (hN : 0 < N)
    (hs : s < C) (hms : s ≤ m) (hmC : m < C) (hn : 0 < nIter) :
    tissForwardS nIter T D (some s) (some m) dmc model (sig batch C F N) = .error .runtimeError := by
  rw [sig_eq]
  exact tissForwardS_err _ _ _ _ _ _ _ _ _ _ _ hs (preserving hm _ _ _ hF hN) hn hms hmC
    (by simpa using hb)

example : tissForwardS 5 0 0 (some 2) (some 2) false laplaceS (sig [1] 3 257 100) =
    .error .runtimeError :=
  tiss_ref_mic_violated _ (by decide) _ _ _ _ _ _ _ _ _ _ classic_models_preserve_shape.1 (by decide)
    (by decide) (by decide) (by decide) (by decide) (by decide)

/-! ## FIVE without projection back (C30) -/

/-- Without batch dimensions, one iteration or more, `proj_back_mic=None`: the output has two more
dimensions than documented. -/
theorem five_none_violated (C F N nIter : ℕ) (nPower : Option ℕ) (hp : ∀ n ∈ nPower, 2 ≤ n)
    (model : ShapeModel) (hm : ShapePreserving model) (hF : 1 < F) (hN : 0 < N) (hC : 0 < C) :
    fiveForwardS (nIter + 1) none nPower model (sig [] C F N) =
      .ok (sig [F - 1, C] 1 F N) := by
  rw [sig_eq, sig_eq]
  exact fiveForwardS_none _ _ _ _ hC _ hp _ (fun t => preserving hm t _ _ (by omega) hN) (by omega)

/-- With a batch of `B` items, it raises unless `B` is one or the number of channels. -/
theorem five_none_batch_violated (B C F N nIter : ℕ) (nPower : Option ℕ) (hp : ∀ n ∈ nPower, 2 ≤ n)
    (model : ShapeModel) (hm : ShapePreserving model) (hF : 1 < F) (hN : 0 < N) (hC : 1 < C)
    (hB : 1 < B) (hBC : B ≠ C) :
    fiveForwardS (nIter + 1) none nPower model (sig [B] C F N) = .error .runtimeError := by
  rw [sig_eq]
  exact fiveForwardS_none_batch _ _ _ _ _ hC hB hBC _ hp _
    (fun t => preserving hm t _ _ (by omega) hN)

example : fiveForwardS 10 none none laplaceS (sig [8] 3 257 100) = .error .runtimeError :=
  five_none_batch_violated _ _ _ _ 9 _ (by decide) _ classic_models_preserve_shape.1 (by decide) (by decide)
    (by decide) (by decide) (by decide)

/-- With no iteration the shape is the documented one. -/
theorem five_none_partial (batch : List ℕ) (C F N : ℕ) (nPower : Option ℕ) (model : ShapeModel)
    (hF : 0 < F) (hC : 0 < C) :
    fiveForwardS 0 none nPower model (sig batch C F N) = .ok (sig batch 1 F N) := by
  rw [sig_eq, sig_eq]
  exact fiveForwardS_none_zero _ _ _ _ hC _ _ hF

example : fiveForwardS 10 none none laplaceS (sig [] 3 257 100) = .ok (dims [256, 3, 1, 257, 100]) :=
  five_none_violated _ _ _ _ _ (by decide) _ classic_models_preserve_shape.1 (by decide) (by decide)
    (by decide)

/-! ## Reference microphone of AuxIVA_IP (C84) -/

/-- With fewer sources than microphones and a reference microphone outside the first `n_src`, AuxIVA_IP
returns a tensor with the batch and frequency dimensions repeated in front. -/
theorem auxiva_ref_mic_violated (batch : List ℕ) (C F N nIter s m : ℕ)
    (model : ShapeModel) (hm : ShapePreserving model) (hF : 0 < F) (hN : 0 < N)
    (hs : s < C) (hms : s ≤ m) (hmC : m < C) :
    auxivaForwardS false nIter s (some m) model (sig batch C F N) =
      .ok (sig (batch ++ [F] ++ batch) s F N) := by
  rw [sig_eq, sig_eq, auxivaForwardS_ok _ _ _ _ _ _ _ _ hs.le (preserving hm _ _ _ hF hN)]
  dsimp only
  rw [projectionBackDemixingS_extra _ _ _ _ _ m hs hms hmC]
  simp

example : auxivaForwardS false 5 2 (some 2) laplaceS (sig [8] 3 257 100) =
    .ok (dims [8, 257, 8, 2, 257, 100]) :=
  auxiva_ref_mic_violated _ _ _ _ _ _ _ _ classic_models_preserve_shape.1 (by decide) (by decide)
    (by decide) (by decide) (by decide)

/-! ## `verbose=True` in AuxIVA_IP (C85) -/

/-- With any batch dimension `verbose=True` makes AuxIVA_IP raise. -/
theorem auxiva_verbose_violated (batch : List ℕ) (hb : batch ≠ []) (C F N nIter nSrc : ℕ)
    (pb : Option ℕ) (model : ShapeModel) :
    auxivaForwardS true nIter nSrc pb model (sig batch C F N) = .error .valueError := by
  rw [sig_eq]
  exact auxivaForwardS_verbose_err _ _ _ _ _ _ _ _ (by simpa using hb)

example : auxivaForwardS true 5 3 none laplaceS (sig [8] 3 257 100) = .error .valueError :=
  auxiva_verbose_violated _ (by decide) _ _ _ _ _ _ _

/-- Without batch dimensions `verbose=True` does not change the shape. -/
theorem auxiva_verbose_partial (C F N nIter nSrc : ℕ) (pb : Option ℕ)
    (model : ShapeModel) (hm : ShapePreserving model) (hF : 0 < F) (hN : 0 < N)
    (hs : nSrc ≤ C) :
    auxivaForwardS true nIter nSrc pb model (sig [] C F N) =
      auxivaForwardS false nIter nSrc pb model (sig [] C F N) := by
  rw [sig_eq]
  exact auxivaForwardS_verbose _ _ _ _ _ _ _ hs (preserving hm _ _ _ hF hN)

example : auxivaForwardS true 5 3 none laplaceS (sig [] 3 257 100) = .ok (sig [] 3 257 100) := by
  rw [auxiva_verbose_partial _ _ _ _ _ _ _ classic_models_preserve_shape.1 (by decide) (by decide) (by decide)]
  exact auxiva_shape _ _ _ _ _ _ _ _ classic_models_preserve_shape.1 (by decide) (by decide) (by decide) (by decide)

/-! ## WPE with a source model of the library (C86) -/

/-- A model that returns weights for every channel, as all source models of the library do, makes WPE
raise as soon as there are two channels. -/
theorem wpe_model_violated (batch : List ℕ) (hb : ∀ n ∈ batch, 0 < n) (C F N nIter T D : ℕ)
    (model : ShapeModel) (hm : ShapePreserving model) (hC : 1 < C) (hF : 0 < F) (hN : 0 < N)
    (hT : 0 < T) :
    wpeForwardS (nIter + 1) T D (some model) (sig batch C F N) = .error .runtimeError := by
  rw [sig_eq]
  exact wpeForwardS_err _ _ _ _ _ _ _ hF hC hT (by simpa using hb) _ (preserving hm _ _ _ hF hN)

/-- A model that averages over the channels is accepted. -/
theorem wpe_model_partial (batch : List ℕ) (C F N nIter T D : ℕ) (hC : 0 < C) (hT : 0 < T)
    (model : ShapeModel) (hm : model (sig batch C F N) = .ok (spec batch F N)) :
    wpeForwardS nIter T D (some model) (sig batch C F N) = .ok (sig batch C F N) := by
  rw [sig_eq, spec_eq] at hm
  rw [sig_eq]
  exact wpeForwardS_ok _ _ _ _ _ _ _ hC hT _ (by simpa using hm)

example : wpeForwardS 3 5 3 (some laplaceS) (sig [4] 2 257 100) = .error .runtimeError :=
  wpe_model_violated _ (by decide) _ _ _ _ _ _ _ classic_models_preserve_shape.1 (by decide) (by decide)
    (by decide) (by decide)

/-! ## `minimum_distortion` with a model (C87) -/

/-- Without batch dimensions `minimum_distortion` with a source model raises. -/
theorem minimum_distortion_model_violated (C F N n : ℕ) (model : ShapeModel)
    (hm : ShapePreserving model) (hF : 0 < F) (hN : 0 < N) :
    minDistS (some model) (n + 1) (sig [] C F N) (spec [] F N) = .error .indexError := by
  rw [sig_eq, spec_eq]
  exact minDistS_model_unbatched _ _ _ _ _ (preserving hm _ _ _ hF hN)

example : minDistS (some laplaceS) 10 (sig [] 3 257 100) (spec [] 257 100) = .error .indexError :=
  minimum_distortion_model_violated _ _ _ 9 _ classic_models_preserve_shape.1 (by decide) (by decide)

/-- With one batch dimension it returns the expected shape. -/
theorem minimum_distortion_model_partial (B C F N n : ℕ) (model : ShapeModel)
    (hm : ShapePreserving model) (hB : 0 < B) (hF : 0 < F) (hN : 0 < N) :
    minDistS (some model) n (sig [B] C F N) (spec [B] F N) = .ok (sig [B] C F N) := by
  rw [sig_eq, spec_eq]
  exact minDistS_model_batch _ _ _ _ _ _ hB hF (preserving hm _ _ _ hF hN)

example : minDistS (some laplaceS) 10 (sig [4] 3 257 100) (spec [4] 257 100) = .ok (sig [4] 3 257 100) :=
  minimum_distortion_model_partial _ _ _ _ _ _ classic_models_preserve_shape.1 (by decide) (by decide) (by decide)

/-- With two or more batch dimensions the weights kept by `[..., 0, 0, :, :]` line up the last but one batch
dimension with the frequencies, and the product raises unless one of the two is 1 or they are equal. -/
theorem minimum_distortion_model_batches_violated (outer : List ℕ) (A B C F N n : ℕ) (model : ShapeModel)
    (hm : ShapePreserving model) (hB : 0 < B) (hF : 1 < F) (hN : 0 < N) (hA : A ≠ 1) (hAF : A ≠ F) :
    minDistS (some model) (n + 1) (sig (outer ++ [A, B]) C F N) (spec (outer ++ [A, B]) F N)
      = .error .runtimeError := by
  rw [sig_eq, spec_eq]
  simp only [List.reverse_append, List.reverse_cons, List.reverse_nil, List.nil_append, List.cons_append]
  exact minDistS_model_batches_err _ _ _ _ _ _ _ _ hB hF hA hAF (preserving hm _ _ _ (by omega) hN)

example : minDistS (some laplaceS) 10 (sig [3, 4] 2 257 100) (spec [3, 4] 257 100) = .error .runtimeError :=
  minimum_distortion_model_batches_violated [] _ _ _ _ _ 9 _ classic_models_preserve_shape.1 (by decide) (by decide)
    (by decide) (by decide) (by decide)

/-- A leading batch dimension of one is accepted. -/
theorem minimum_distortion_model_leading_one (B C F N n : ℕ) (model : ShapeModel)
    (hm : ShapePreserving model) (hB : 0 < B) (hF : 0 < F) (hN : 0 < N) :
    minDistS (some model) n (sig [1, B] C F N) (spec [1, B] F N) = .ok (sig [1, B] C F N) := by
  rw [sig_eq, spec_eq]
  exact minDistS_model_batches_one _ _ _ _ _ _ hB hF (preserving hm _ _ _ hF hN)

example : minDistS (some laplaceS) 10 (sig [1, 4] 2 257 100) (spec [1, 4] 257 100) = .ok (sig [1, 4] 2 257 100) :=
  minimum_distortion_model_leading_one _ _ _ _ _ _ classic_models_preserve_shape.1 (by decide) (by decide) (by decide)

/-! ## The separator object (C89, C90) -/

/-- `BSSSeparator` returns `(..., n_src, n_samples)` for every batch shape and number of samples above
half the window, when its separator returns `(..., n_src, n_freq, n_frames)`. -/
theorem separator_shape (batch : List ℕ) (c s n nFft : ℕ) (hop : Option ℕ) (hn : nFft / 2 < n)
    (hh : 0 < hopOf nFft hop) (hh2 : hopOf nFft hop ≤ nFft) (sep : ShapeModel)
    (hsep : ∀ frames, 0 < frames →
      sep (sig batch c (nFft / 2 + 1) frames) = .ok (sig batch s (nFft / 2 + 1) frames)) :
    bssSeparatorS nFft hop sep (wave batch c n) = .ok (wave batch s n) := by
  rw [wave_eq, wave_eq]
  refine bssSeparatorS_ok _ _ _ _ _ _ hn hh hh2 _ fun fr hfr => ?_
  have := hsep fr hfr
  rwa [sig_eq, sig_eq] at this

/-- In particular with T_ISS and any shape-preserving source model. -/
theorem separator_tiss_shape (batch : List ℕ) (c n nFft nIter T D : ℕ) (hop nSrc pb : Option ℕ)
    (dmc : Bool) (model : ShapeModel) (hm : ShapePreserving model) (hn : nFft / 2 < n)
    (hh : 0 < hopOf nFft hop) (hh2 : hopOf nFft hop ≤ nFft) (hs : nSrc.getD c ≤ c)
    (hpb : ∀ m ∈ pb, m < nSrc.getD c) :
    bssSeparatorS nFft hop (tissForwardS nIter T D nSrc pb dmc model) (wave batch c n) =
      .ok (wave batch (nSrc.getD c) n) :=
  separator_shape _ _ _ _ _ _ hn hh hh2 _ fun fr hfr =>
    tiss_shape _ _ _ _ _ _ _ _ _ _ _ hm (Nat.succ_pos _) hfr hs hpb

example : bssSeparatorS 512 none (tissForwardS 20 0 0 none (some 0) false laplaceS) (wave [7] 3 16000) =
    .ok (wave [7] 3 16000) :=
  separator_tiss_shape _ _ _ _ _ _ _ _ _ _ _ _ classic_models_preserve_shape.1 (by decide) (by decide)
    (by decide) (by decide) (by decide)

/-- A beamformer built without a source model gets the Laplace model, which is not a mask model: it raises
on unbatched signals and on signals with one batch dimension. -/
theorem beamformer_default_model_violated (batch : List ℕ) (hb : batch.length ≤ 1) (C F N ref : ℕ)
    (nPower : Option ℕ) :
    (∀ Y, mvdrForwardS laplaceS ref "rtf" nPower (sig batch C F N) ≠ .ok Y) ∧
      (∀ Y, mwfForwardS laplaceS ref true (sig batch C F N) ≠ .ok Y) ∧
      (∀ Y, gevForwardS laplaceS ref (sig batch C F N) ≠ .ok Y) := by
  rw [sig_eq]
  exact beamformer_laplace_err _ _ _ _ (by simpa using hb) _ _

example (Y) : mvdrForwardS laplaceS 0 "rtf" none (sig [4] 3 257 100) ≠ .ok Y :=
  (beamformer_default_model_violated [4] (by decide) _ _ _ _ _).1 Y

end Torchiva.Props
