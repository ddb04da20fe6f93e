import Verif.Model.Device

/-!
# C155, C156: the results are on the device of the input

The model `Verif.Model.Device` follows every tensor the algorithms allocate and combine and raises `RuntimeError` when an
operation mixes devices.  The theorems say that no call does, whatever the device of the input and Torch's default device.
-/

namespace Torchiva.Props
open Torchiva.DV

/-- Specification: with inputs on device `d` the source model answers on `d`, on the first call after `reset` and on every call
after that. -/
def KeepsDevice (M : SrcModel) (d : Dev) : Prop :=
  ∃ Inv : M.σ → Prop, Inv M.reset ∧ ∀ s, Inv s → ∃ s', M.step s d = .ok (d, s') ∧ Inv s'

private lemma ok_bind {α β : Type} (a : α) (f : α → Except Err β) : (Except.ok a >>= f) = f a := rfl

private lemma pure_ok {α : Type} (a : α) : (pure a : Except Err α) = Except.ok a := rfl

private lemma join_self (d : Dev) : join d d = .ok d := by simp [join]

private lemma join3_self (d : Dev) : join3 d d d = .ok d := by simp [join3, join_self, ok_bind]

private lemma loop_fix {α : Type} {f : α → Except Err α} {s : α} (h : f s = .ok s) : ∀ n, loop f n s = .ok s
  | 0 => rfl
  | n + 1 => by rw [loop, h, ok_bind, loop_fix h n]

private lemma loop_inv {α : Type} {f : α → Except Err α} (P : α → Prop) (h : ∀ s, P s → ∃ s', f s = .ok s' ∧ P s') :
    ∀ (n : ℕ) (s : α), P s → ∃ s', loop f n s = .ok s' ∧ P s'
  | 0, s, hs => ⟨s, rfl, hs⟩
  | n + 1, s, hs => by
    obtain ⟨t, ht, hP⟩ := h s hs
    rw [loop, ht, ok_bind]
    exact loop_inv P h n t hP

attribute [local simp] ok_bind pure_ok join_self join3_self onto newLike assign divide multiply solveLoaded solveLoadedGeneral
  invLoaded eigh2x2Gen eigh2x2Plain inv2x2

/-! ## Source models -/

/-- **C155.**  `LaplaceModel` and `GaussModel` answer on the device of their input. -/
theorem classic_device (d : Dev) : KeepsDevice classic d :=
  ⟨fun _ => True, trivial, fun _ _ => ⟨(), by simp [classic], trivial⟩⟩

/-- **C155.**  So does a network whose parameters are on that device, and no other network. -/
theorem network_device (p d : Dev) : KeepsDevice (network p) d ↔ p = d := by
  constructor
  · rintro ⟨Inv, h0, h⟩
    obtain ⟨s', hs, -⟩ := h _ h0
    by_contra hne
    simp [network, join, hne, bind, Except.bind] at hs
  · rintro rfl
    exact ⟨fun _ => True, trivial, fun _ _ => ⟨(), by simp [network], trivial⟩⟩

/-- **C155.**  So does `NMFModel`, which allocates its factors on the device of the first input after `reset`. -/
theorem nmf_device (d : Dev) : KeepsDevice nmf d := by
  refine ⟨fun s => s = none ∨ s = some (d, d, d), Or.inl rfl, fun s hs => ⟨some (d, d, d), ?_, Or.inr rfl⟩⟩
  rcases hs with rfl | rfl <;> simp [nmf, nmfInit, nmfEstimate]

/-! ## Algorithms -/

private lemma backgroundUpdate_self (dflt d : Dev) : backgroundUpdate dflt d d d d = .ok d := by
  simp [backgroundUpdate]

private lemma issUpdates_self (nSrc nBak nTaps : ℕ) (d : Dev) (J Z : Option Dev) (hJ : ∀ j ∈ J, j = d) (hZ : ∀ z ∈ Z, z = d) :
    issUpdates nSrc nBak nTaps d d d d d J Z = .ok (d, d, d) := by
  unfold issUpdates
  rw [loop_fix (by simp [issUpdate1]), ok_bind]
  have h3 : ∀ n, loop (fun s => loop (fun s : Dev × Dev × Dev => do
      let v ← issUpdate23 s.1 d d
      let X ← join3 s.1 v d
      let HV ← join s.2.2 v
      return (X, s.2.1, assign s.2.2 HV)) nTaps s) n (d, d, d) = .ok (d, d, d) :=
    loop_fix (loop_fix (by simp [issUpdate23]) _)
  cases J with
  | none => cases Z <;> exact h3 _
  | some j =>
    cases Z with
    | none => exact h3 _
    | some z =>
      obtain rfl := hJ j rfl
      obtain rfl := hZ z rfl
      simp only
      rw [loop_fix (by simp [issUpdate23]), ok_bind]
      exact h3 _

/-- **C155 (T-ISS).**  On every device, with every default device, number of iterations, sources, background channels and taps,
with or without checkpointing and projection back. -/
theorem tiss_device (dflt d : Dev) (M : SrcModel) (hM : KeepsDevice M d) (nIter nSrc nBak nTaps : ℕ) (useDmc : Bool)
    (projBack : Option Bool) : tissForward dflt M nIter nSrc nBak nTaps useDmc projBack d = .ok d := by
  obtain ⟨Inv, h0, hstep⟩ := hM
  have key : ∀ (cov : Option (Dev × Dev)) (hc : ∀ c ∈ cov, c = (d, d)) (J0 : Option Dev) (hJ0 : ∀ j ∈ J0, j = d),
      ∃ J' s', (∀ j ∈ J', j = d) ∧ loop (fun s : (Dev × Dev × Dev × Option Dev) × M.σ => do
        let Y ← (if useDmc then demixDerev d d s.1.2.1 s.1.2.2.1 else pure s.1.1)
        tissIter dflt M nSrc nBak nTaps d d cov ((Y, s.1.2), s.2)) nIter ((d, d, d, J0), M.reset)
          = .ok ((d, d, d, J'), s') := by
    intro cov hc J0 hJ0
    obtain ⟨⟨⟨Y, W, H, J'⟩, s'⟩, hl, hY, hW, hH, hJ, -⟩ := loop_inv (f := fun s : (Dev × Dev × Dev × Option Dev) × M.σ => do
        let Y ← (if useDmc then demixDerev d d s.1.2.1 s.1.2.2.1 else pure s.1.1)
        tissIter dflt M nSrc nBak nTaps d d cov ((Y, s.1.2), s.2))
      (fun t => t.1.1 = d ∧ t.1.2.1 = d ∧ t.1.2.2.1 = d ∧ (∀ j ∈ t.1.2.2.2, j = d) ∧ Inv t.2) (by
        rintro ⟨⟨Y, W, H, J⟩, s⟩ ⟨hY, hW, hH, hJ, hs⟩
        simp only at hY hW hH hJ hs
        replace hY := hY.symm
        replace hW := hW.symm
        replace hH := hH.symm
        subst hY hW hH
        obtain ⟨s', hs', hI⟩ := hstep s hs
        have hY : (if useDmc then demixDerev d d d d else pure d) = (Except.ok d : Except Err Dev) := by
          cases useDmc <;> simp [demixDerev]
        simp only [hY, ok_bind]
        unfold tissIter
        simp only [hs', ok_bind, divide, join_self]
        cases J with
        | none =>
          refine ⟨((d, d, d, none), s'), ?_, rfl, rfl, rfl, by simp, hI⟩
          cases cov <;>
          simp [demixBackground, issUpdates_self nSrc nBak nTaps d none none (by simp) (by simp)]
        | some j =>
          have hj := (hJ j rfl).symm
          subst hj
          refine ⟨((d, d, d, some d), s'), ?_, rfl, rfl, rfl, by simp, hI⟩
          cases cov with
          | none => simp [demixBackground, issUpdates_self nSrc nBak nTaps d (some d) (some d) (by simp) (by simp)]
          | some c =>
            have hc' := (hc c rfl).symm
            subst hc'
            simp [demixBackground, backgroundUpdate_self,
              issUpdates_self nSrc nBak nTaps d (some d) (some d) (by simp) (by simp)])
      nIter ((d, d, d, J0), M.reset) ⟨rfl, rfl, rfl, hJ0, h0⟩
    simp only at hY hW hH hJ
    subst hY hW hH
    exact ⟨J', s', hJ, hl⟩
  have hp : ∀ J' : Option Dev, (∀ j ∈ J', j = d) → ∀ low, projBackWeights dflt d J' low = .ok d := fun J' hJ' low => by
    cases J' with
    | none => simp [projBackWeights]
    | some j =>
      obtain rfl := hJ' j rfl
      cases low <;> simp [projBackWeights]
  unfold tissForward
  by_cases hb : 0 < nBak
  · obtain ⟨J', s', hJ, hl⟩ := key (some (d, d)) (by simp) (some d) (by simp)
    simp only [hb, if_true, join_self, ok_bind, pure_ok, newLike, assign, onto, backgroundUpdate_self, demixDerev]
    simp only [demixDerev, join_self, ok_bind, pure_ok] at hl
    rw [hl]
    simp only [ok_bind, join_self, ite_self]
    cases projBack with
    | none => rfl
    | some low => by_cases h : 0 < nIter <;> simp [h, hp J' hJ]
  · obtain ⟨J', s', hJ, hl⟩ := key none (by simp) none (by simp)
    simp only [hb, if_false, join_self, ok_bind, pure_ok, newLike, assign, onto, demixDerev]
    simp only [demixDerev, join_self, ok_bind, pure_ok] at hl
    rw [hl]
    simp only [ok_bind, join_self, ite_self]
    cases projBack with
    | none => rfl
    | some low => by_cases h : 0 < nIter <;> simp [h, hp J' hJ]

private lemma orthogonal_self (dflt d : Dev) (over : Bool) :
    orthogonalConstraint dflt over d d = .ok (if over then some d else none) := by
  cases over <;> simp [orthogonalConstraint]

private lemma ipSource_self (dflt d : Dev) (over : Bool) :
    ipSource dflt over d d d d (d, if over then some d else none) = .ok (d, if over then some d else none) := by
  simp only [ipSource, orthogonal_self, ok_bind]
  cases over <;> simp

/-- **C155 (AuxIVA-IP).**  `torch.eye` of line 231 is copied into a tensor on the device of the input. -/
theorem ip_device (dflt d : Dev) (M : SrcModel) (hM : KeepsDevice M d) (nIter nSrc : ℕ) (over : Bool) (projBack : Option Bool) :
    ipForward dflt M nIter nSrc over projBack d = .ok d := by
  obtain ⟨Inv, h0, hstep⟩ := hM
  obtain ⟨⟨⟨Y, W, J⟩, s'⟩, hl, ht, -⟩ := loop_inv (f := fun s : (Dev × Dev × Option Dev) × M.σ => do
      let r ← M.step s.2 s.1.1
      let W ← join s.1.2.1 s.1.1
      let w ← join r.1 s.1.1
      let t ← loop (ipSource dflt over d d w d) nSrc (W, s.1.2.2)
      let Y ← join t.1 d
      return ((Y, t.1, t.2), r.2))
    (fun t => t.1 = (d, d, if over then some d else none) ∧ Inv t.2) (by
      rintro ⟨t, s⟩ ⟨ht, hs⟩
      simp only at ht hs
      subst ht
      obtain ⟨s', hs', hI⟩ := hstep s hs
      refine ⟨((d, d, if over then some d else none), s'), ?_, rfl, hI⟩
      simp only [hs', ok_bind, join_self]
      rw [loop_fix (ipSource_self dflt d over)]
      simp)
    nIter ((d, d, if over then some d else none), M.reset) ⟨rfl, h0⟩
  simp only at ht
  obtain ⟨rfl, rfl, rfl⟩ : Y = d ∧ W = d ∧ J = if over then some d else none := by simpa using ht
  unfold ipForward
  simp only [newLike, assign, onto, join_self, ok_bind, orthogonal_self]
  rw [hl]
  cases projBack with
  | none => rfl
  | some low => cases over <;> cases low <;> simp [projBackIp]

/-- **C155 (AuxIVA-IP2).** -/
theorem ip2_device (dflt d : Dev) (M : SrcModel) (hM : KeepsDevice M d) (nIter : ℕ) (projBack : Bool) :
    ip2Forward dflt M nIter projBack d = .ok d := by
  obtain ⟨Inv, h0, hstep⟩ := hM
  obtain ⟨⟨t, s'⟩, hl, ht, -⟩ := loop_inv (f := fun s : (Dev × Option (Dev × Dev)) × M.σ => do
      let r ← M.step s.2 s.1.1
      let _ ← divide s.1.1 s.1.1
      let w ← join r.1 s.1.1
      let u ← ip2Update dflt d w s.1.2
      return (u, r.2))
    (fun t => t.1 = (d, if projBack then some (d, d) else none) ∧ Inv t.2) (by
      rintro ⟨t, s⟩ ⟨ht, hs⟩
      simp only at ht hs
      subst ht
      obtain ⟨s', hs', hI⟩ := hstep s hs
      refine ⟨((d, if projBack then some (d, d) else none), s'), ?_, rfl, hI⟩
      cases projBack <;> simp [hs', ip2Update])
    nIter ((d, if projBack then some (d, d) else none), M.reset) ⟨rfl, h0⟩
  simp only at ht
  subst ht
  unfold ip2Forward
  simp only [newLike, assign, onto]
  rw [hl]
  cases projBack
  · simp
  · by_cases h : 0 < nIter <;> simp [h]

/-- **C155 (linear algebra).**  `eigh`, with the decomposition on the processor or not, for one matrix or a pair. -/
theorem eigh_device (dflt d : Dev) (two useCpu : Bool) (pair : Bool) :
    eigh dflt two useCpu d (if pair then some d else none) = .ok (d, d) := by
  cases pair <;> cases two <;> cases useCpu <;> simp [eigh, eighWrapper]

private lemma smallestPower_self (dflt d : Dev) (n : ℕ) : smallestPower dflt n d = .ok d := by
  simp only [smallestPower, invLoaded, onto, join_self, ok_bind]
  rw [loop_fix (by simp)]
  simp

/-- **C155 (FIVE).**  Also when the eigenvectors are computed on the processor. -/
theorem five_device (dflt d : Dev) (M : SrcModel) (hM : KeepsDevice M d) (nIter : ℕ) (two : Bool) (power : Option ℕ)
    (projBack : Bool) : fiveForward dflt M nIter two power projBack d = .ok d := by
  obtain ⟨Inv, h0, hstep⟩ := hM
  have main : ∀ sel : Dev → Except Err Dev, sel d = .ok d → ∃ s', loop (fun s : Dev × M.σ => do
      let r ← M.step s.2 s.1
      let V ← join3 r.1 d d
      let v ← sel V
      let z ← join d v
      let w ← join v z
      let Y ← join w d
      return (Y, r.2)) nIter (d, M.reset) = .ok (d, s') := by
    intro sel hsel
    obtain ⟨⟨Y, s'⟩, hl, hY, -⟩ := loop_inv (f := fun s : Dev × M.σ => do
        let r ← M.step s.2 s.1
        let V ← join3 r.1 d d
        let v ← sel V
        let z ← join d v
        let w ← join v z
        let Y ← join w d
        return (Y, r.2))
      (fun t => t.1 = d ∧ Inv t.2) (by
        rintro ⟨t, s⟩ ⟨ht, hs⟩
        simp only at ht hs
        subst ht
        obtain ⟨s', hs', hI⟩ := hstep s hs
        exact ⟨(t, s'), by simp [hs', hsel], rfl, hI⟩)
      nIter (d, M.reset) ⟨rfl, h0⟩
    simp only at hY
    subst hY
    exact ⟨s', hl⟩
  have he := eigh_device dflt d two false false
  simp only [Bool.false_eq_true, if_false] at he
  have hY0 : (if projBack then join3 d d d else pure d) = (Except.ok d : Except Err Dev) := by
    cases projBack <;> simp
  unfold fiveForward
  simp only [join_self, ok_bind, he, hY0]
  cases power with
  | none =>
    obtain ⟨s', hl⟩ := main (fun V => pure (smallestEigh V).2) rfl
    simp only at hl ⊢
    rw [hl]
    simp
  | some n =>
    obtain ⟨s', hl⟩ := main (fun V => smallestPower dflt n V) (smallestPower_self dflt d n)
    simp only at hl ⊢
    rw [hl]
    simp

/-- **C155 (WPE).**  With the default weights, and with a source model after `reset`. -/
theorem wpe_device (dflt d : Dev) (M : SrcModel) (hM : KeepsDevice M d) (useModel : Bool) (nIter : ℕ) :
    ∃ s, wpeForward dflt M useModel nIter M.reset d = .ok (d, s) := by
  obtain ⟨Inv, h0, hstep⟩ := hM
  obtain ⟨⟨Y, s'⟩, hl, hY, -⟩ := loop_inv (f := fun t : Dev × M.σ => do
      let r ← (if useModel then M.step t.2 t.1 else pure (t.1, t.2))
      let H ← wpeIter dflt d d r.1
      let Y ← derev H d d
      return (Y, r.2))
    (fun t => t.1 = d ∧ Inv t.2) (by
      rintro ⟨t, s⟩ ⟨ht, hs⟩
      simp only at ht hs
      subst ht
      obtain ⟨s', hs', hI⟩ := hstep s hs
      cases useModel
      · exact ⟨(t, s), by simp [wpeIter, derev], rfl, hs⟩
      · exact ⟨(t, s'), by simp [hs', wpeIter, derev], rfl, hI⟩)
    nIter (d, M.reset) ⟨rfl, h0⟩
  simp only at hY
  subst hY
  exact ⟨s', hl⟩

private lemma solveLoaded_self (dflt d : Dev) : solveLoaded dflt d d = .ok d := by simp

private lemma mvdrRtf_self (dflt d : Dev) (two : Bool) (power : Option ℕ) : mvdrRtf dflt two power d d = .ok d := by
  have he := eigh_device dflt d two false true
  simp only [if_true] at he
  cases power with
  | none => simp [mvdrRtf, he]
  | some n =>
    simp only [mvdrRtf, solveLoaded_self, ok_bind]
    rw [loop_fix (join_self d)]
    simp

/-- **C155 (beamformers).**  MVDR of both types, MWF of both types and GEV, with masks on the device of the input. -/
theorem beamformer_device (dflt d : Dev) (mask : Dev → Except Err Dev) (hm : mask d = .ok d) :
    (∀ three scm two power, mvdrForward dflt mask three scm two power d = .ok d) ∧
    (∀ timeInvariant, mwfForward dflt mask timeInvariant d = .ok d) ∧ ∀ two, gevForward dflt mask two d = .ok d := by
  refine ⟨fun three scm two power => ?_, fun ti => ?_, fun two => ?_⟩
  · cases three <;> cases scm <;> simp [mvdrForward, hm, maskCov, mvdrRtf_self, mvdrBf, mvdrBf2]
  · cases ti <;> simp [mwfForward, hm, maskCov, mwfBf]
  · have he := eigh_device dflt d two false true
    simp only [if_true] at he
    simp [gevForward, hm, maskCov, gevBf, he, bmm]

/-- **C155 (scaling).**  `projection_back` and the minimum distortion functions, after any number of rounds. -/
theorem scaling_device (dflt d : Dev) :
    projectionBack dflt d d = .ok d ∧ minDistL2 d d = .ok d ∧ ∀ n, minDist n d d = .ok d := by
  refine ⟨by simp [projectionBack], by simp [minDistL2], fun n => ?_⟩
  simp only [minDist, newLike]
  rw [loop_fix (by simp)]
  simp

/-- **C155 (every algorithm of `BSSSeparator`).** -/
theorem algo_device (dflt d : Dev) (M : SrcModel) (hM : KeepsDevice M d) (a : Algo) : runAlgo dflt M a d = .ok d := by
  have hmask : ((M.step M.reset d).map Prod.fst : Except Err Dev) = .ok d := by
    obtain ⟨Inv, h0, h⟩ := hM
    obtain ⟨s', hs, -⟩ := h _ h0
    rw [hs]
    rfl
  have hb := beamformer_device dflt d (fun X => (M.step M.reset X).map Prod.fst) hmask
  cases a with
  | tiss => exact tiss_device dflt d M hM ..
  | ip => exact ip_device dflt d M hM ..
  | ip2 => exact ip2_device dflt d M hM ..
  | five => exact five_device dflt d M hM ..
  | mvdr => exact hb.1 ..
  | mwf => exact hb.2.1 ..
  | gev => exact hb.2.2 ..

/-! ## The separator -/

/-- **C155.**  `BSSSeparator`: for a source model that answers on the device of the recording, a call succeeds exactly when the
separator has been moved to that device, and then the result is there. -/
theorem separator_device (dflt d window : Dev) (M : SrcModel) (hM : KeepsDevice M d) (a : Algo) (short : Bool) (y : Dev) :
    separate dflt M window a short d = .ok y ↔ window = d ∧ y = d := by
  constructor
  · intro h
    by_cases hw : window = d
    · subst hw
      refine ⟨rfl, ?_⟩
      cases short <;> simp [separate, stft, algo_device dflt window M hM a] at h <;> exact h.symm
    · simp [separate, stft, join, hw, bind, Except.bind] at h
  · rintro ⟨rfl, rfl⟩
    cases short <;> simp [separate, stft, algo_device dflt _ M hM a]

/-- **C155 (command line).**  Whatever `--device` and whatever the source model, `M dev` being the model once it is moved there:
the recording is separated on that device and the saved tensor is on the processor. -/
theorem command_line_device (dflt dev loaded : Dev) (M : Dev → SrcModel) (hM : KeepsDevice (M dev) dev) (a : Algo)
    (short : Bool) : separateFile dflt M a short dev loaded = .ok (dev, .cpu) := by
  have h := (separator_device dflt dev dev (M dev) hM a short dev).2 ⟨rfl, rfl⟩
  simp [separateFile, h, toCpu]

/-- **C155 (`device_type`).**  A number is the index of a GPU; any other name is passed on, also one that is already the name of
a GPU. -/
theorem device_argument (isNum : Char → Bool) (hcolon : isNum ':' = false) (s : List Char) :
    (s ≠ [] → (∀ c ∈ s, isNum c = true) → deviceType isNum s = 'c' :: 'u' :: 'd' :: 'a' :: ':' :: s) ∧
    ((∃ c ∈ s, isNum c = false) → deviceType isNum s = s) ∧
    deviceType isNum (deviceType isNum s) = deviceType isNum s := by
  have hno : ∀ t : List Char, (∃ c ∈ t, isNum c = false) → deviceType isNum t = t := by
    rintro t ⟨c, hc, hf⟩
    refine if_neg fun h => ?_
    simpa [hf] using h.2 c hc
  refine ⟨fun h1 h2 => if_pos ⟨h1, h2⟩, hno s, ?_⟩
  by_cases h : s ≠ [] ∧ ∀ c ∈ s, isNum c = true
  · have : deviceType isNum s = 'c' :: 'u' :: 'd' :: 'a' :: ':' :: s := if_pos h
    rw [this]
    exact hno _ ⟨':', by simp, hcolon⟩
  · have : deviceType isNum s = s := if_neg h
    rw [this, this]

/-- **C156, the part that holds.**  With the default weights, and with any source model whose answer does not depend on its state,
`WPE.forward` can be called on one device after another, whatever the earlier calls left in the model. -/
theorem wpe_moved_partial (dflt d : Dev) (M : SrcModel) (useModel : Bool) (n : ℕ) (s : M.σ)
    (hM : useModel = true → ∀ s, M.step s d = .ok (d, s)) : wpeForward dflt M useModel n s d = .ok (d, s) := by
  unfold wpeForward
  refine loop_fix ?_ n
  cases useModel
  · simp [wpeIter, derev]
  · simp [hM rfl s, wpeIter, derev]

/-- `wpe_moved_partial` applies to `LaplaceModel` and `GaussModel` on every device. -/
example (dflt d1 d2 : Dev) (n m : ℕ) : ∃ s, wpeForward dflt classic true n classic.reset d1 = .ok (d1, s) ∧
    wpeForward dflt classic true m s d2 = .ok (d2, s) :=
  ⟨(), wpe_moved_partial dflt d1 classic true n () fun _ _ => by simp [classic]; rfl,
    wpe_moved_partial dflt d2 classic true m () fun _ _ => by simp [classic]; rfl⟩

/-- **C156, violated for WPE with an NMF model that has been used.**  `WPE.forward` does not reset the model and moving a module
does not move the factors: after a call on one device, every call on another device raises `RuntimeError`. -/
theorem wpe_nmf_device_violated (dflt d1 d2 : Dev) (hne : d1 ≠ d2) (n m : ℕ) :
    ∃ s, wpeForward dflt nmf true (n + 1) nmf.reset d1 = .ok (d1, s) ∧
      wpeForward dflt nmf true (m + 1) s d2 = .error .runtimeError := by
  refine ⟨some (d1, d1, d1), ?_, ?_⟩
  · unfold wpeForward
    rw [loop]
    have h1 : nmf.step nmf.reset d1 = .ok (d1, some (d1, d1, d1)) := by simp [nmf, nmfInit, nmfEstimate]
    have h2 : nmf.step (some (d1, d1, d1)) d1 = .ok (d1, some (d1, d1, d1)) := by simp [nmf, nmfInit, nmfEstimate]
    simp only [if_true, h1, ok_bind, wpeIter, join3_self, solveLoaded_self, derev, pure_ok]
    exact loop_fix (by simp [h2, wpeIter, derev]) n
  · unfold wpeForward
    rw [loop]
    have h3 : nmf.step (some (d1, d1, d1)) d2 = .error .runtimeError := by
      simp [nmf, nmfInit, join3, join, hne.symm, bind, Except.bind]
    simp only [if_true, h3]
    rfl

/-- A device other than the processor and the default one, with a source model of each kind. -/
example : KeepsDevice classic (.cuda 1) ∧ KeepsDevice nmf (.cuda 1) ∧ KeepsDevice (network (.cuda 1)) (.cuda 1) ∧
    ¬ KeepsDevice (network .cpu) (.cuda 1) :=
  ⟨classic_device _, nmf_device _, (network_device _ _).2 rfl, fun h => by simpa using (network_device _ _).1 h⟩

/-- `--device 12` and `--device cpu`. -/
example : deviceType Char.isDigit "12".toList = "cuda:12".toList ∧ deviceType Char.isDigit "cpu".toList = "cpu".toList :=
  ⟨(device_argument Char.isDigit (by decide) _).1 (by simp) (by decide),
    (device_argument Char.isDigit (by decide) _).2.1 ⟨'c', by simp, by decide⟩⟩

end Torchiva.Props
