import Verif.Proofs.DType

/-!
# C143–C145: dtypes and precision of results
-/

namespace Torchiva.Props

open DT Spec

/-! ## Reading off the specification -/

theorem dtype_eq {a b : TD} (h1 : a.cpx = b.cpx) (h2 : a.prec = b.prec) : a.dtype = b.dtype := by
  obtain ⟨c1, p1, r1⟩ := a
  obtain ⟨c2, p2, r2⟩ := b
  simp only at h1 h2
  subst h1 h2
  cases c1 <;> cases p1 <;> rfl

private theorem ret {c : Bool} {p : Prec} {r : Bool} {e : Except Err TD} (h : Ok (Is c p r) e) :
    ReturnsDtypeOf (input c p) e := by
  obtain ⟨Y, e, hY⟩ := h
  exact ⟨Y, e, dtype_eq hY.cpx hY.prec⟩

private theorem dbl {c : Bool} {e : Except Err TD} (h : Ok (Is c .double false) e) : ReturnsDouble e := by
  obtain ⟨Y, e, hY⟩ := h
  refine ⟨Y, e, ?_, ?_⟩
  · obtain ⟨c1, p1, r1⟩ := Y
    obtain ⟨h1, h2, -, -⟩ := hY
    simp only at h1 h2
    subst h1 h2
    cases c1
    · exact .inl rfl
    · exact .inr rfl
  · rcases hr : Y.rounded with _ | _
    · rfl
    · exact absurd (hY.rd hr) (by simp)

private theorem inp (c : Bool) (p : Prec) : Is c p (!false) (input c p) :=
  ⟨rfl, rfl, fun _ => rfl, fun _ => rfl⟩

private theorem inpd (c : Bool) : Is c .double (!true) (input c .double) :=
  ⟨rfl, rfl, fun h => absurd h (by simp [input]), fun h => absurd h (by simp)⟩

/-! ## The source models -/

/-- **C143/C144**: LaplaceModel returns real weights of the precision of the signal and rounds nothing. -/
theorem laplace_dtype (p : Prec) (exact : Bool) (hs : p = .single → exact = false) : WeightModel laplaceD p exact := by
  intro s X _ hp he
  obtain ⟨o, e, ho⟩ := laplace_step (is_of hp he hs)
  exact ⟨o.1, o.2, e, weights_of_is ho⟩

/-- **C143/C144**: GaussModel. -/
theorem gauss_dtype (p : Prec) (exact : Bool) (hs : p = .single → exact = false) : WeightModel gaussD p exact := by
  intro s X _ hp he
  obtain ⟨o, e, ho⟩ := gauss_step (is_of hp he hs)
  exact ⟨o.1, o.2, e, weights_of_is ho⟩

/-- **C143/C144**: NMFModel, in every state it reaches from a reset with signals of this precision. -/
theorem nmf_dtype (p : Prec) (exact : Bool) (hs : p = .single → exact = false) : WeightModel nmfD p exact := by
  intro s X hr hp he
  obtain ⟨o, e, ho⟩ := nmf_step (nmf_reachable hs hr) (is_of hp he hs)
  exact ⟨o.1, o.2, e, weights_of_is ho.1⟩

/-- Both precisions: the contract is met with and without `exact`. -/
example : WeightModel nmfD .double true ∧ WeightModel nmfD .single false ∧ WeightModel laplaceD .double true :=
  ⟨nmf_dtype _ _ (by simp), nmf_dtype _ _ (by simp), laplace_dtype _ _ (by simp)⟩

/-- A network with single-precision weights applied to a double-precision signal meets the weaker contract. -/
example : WeightModel ⟨Unit, (), fun _ _ => .ok (input false .single, ())⟩ .double false :=
  fun _ _ _ _ _ => ⟨_, _, rfl, rfl, .inr rfl, by simp⟩

/-! ## T-ISS -/

/-- **C143**: T_ISS returns a tensor with the dtype of the mixture, whatever torch's default dtype, the number of
iterations, sources, background channels, taps, and the options. -/
theorem tiss_dtype (dflt : Prec) (c : Bool) (p : Prec) {M : SrcModel} (hM : WeightModel M p false)
    (nIter nSrc nBak nTaps : ℕ) (useDmc : Bool) (projBack : Option Bool) :
    ReturnsDtypeOf (input c p) (tissForwardD dflt M nIter nSrc nBak nTaps useDmc projBack (input c p)) :=
  ret (tiss_ok dflt (Good.of hM c fun _ => rfl) nIter nSrc nBak nTaps useDmc projBack (inp c p))

/-- Single stays single, also when the default dtype is double. -/
example : ReturnsDtypeOf (input true .single) (tissForwardD .double nmfD 10 2 1 5 true none (input true .single)) :=
  tiss_dtype .double true .single (nmf_dtype _ _ (by simp)) 10 2 1 5 true none

/-- **C144**: T_ISS computes in double precision throughout when the mixture is in double precision. -/
theorem tiss_double (dflt : Prec) (c : Bool) {M : SrcModel} (hM : WeightModel M .double true)
    (nIter nSrc nBak nTaps : ℕ) (useDmc : Bool) (projBack : Option Bool) :
    ReturnsDouble (tissForwardD dflt M nIter nSrc nBak nTaps useDmc projBack (input c .double)) :=
  dbl (tiss_ok dflt (Good.of hM c fun h => absurd h (by simp)) nIter nSrc nBak nTaps useDmc projBack (inpd c))

/-- Three microphones, two sources, NMF, five taps, ten iterations. -/
example : ReturnsDouble (tissForwardD .single nmfD 10 2 1 5 false (some true) (input true .double)) :=
  tiss_double .single true (nmf_dtype _ _ (by simp)) 10 2 1 5 false (some true)

/-! ## AuxIVA-IP -/

/-- **C143**: AuxIVA_IP. -/
theorem ip_dtype (dflt : Prec) (c : Bool) (p : Prec) {M : SrcModel} (hM : WeightModel M p false) (nIter nSrc : ℕ)
    (over : Bool) (projBack : Option Bool) :
    ReturnsDtypeOf (input c p) (ipForwardD dflt M nIter nSrc over projBack (input c p)) :=
  ret (ip_ok dflt (Good.of hM c fun _ => rfl) nIter nSrc over projBack (inp c p))

example : ReturnsDtypeOf (input false .single) (ipForwardD .double gaussD 20 2 true (some true) (input false .single)) :=
  ip_dtype .double false .single (gauss_dtype _ _ (by simp)) 20 2 true (some true)

/-- **C144**: AuxIVA_IP. -/
theorem ip_double (dflt : Prec) (c : Bool) {M : SrcModel} (hM : WeightModel M .double true) (nIter nSrc : ℕ)
    (over : Bool) (projBack : Option Bool) :
    ReturnsDouble (ipForwardD dflt M nIter nSrc over projBack (input c .double)) :=
  dbl (ip_ok dflt (Good.of hM c fun h => absurd h (by simp)) nIter nSrc over projBack (inpd c))

/-- Three microphones, two sources. -/
example : ReturnsDouble (ipForwardD .single laplaceD 20 2 true (some false) (input true .double)) :=
  ip_double .single true (laplace_dtype _ _ (by simp)) 20 2 true (some false)

/-! ## AuxIVA-IP2 -/

/-- **C143**: AuxIVA_IP2. -/
theorem ip2_dtype (dflt : Prec) (c : Bool) (p : Prec) {M : SrcModel} (hM : WeightModel M p false) (nIter : ℕ)
    (projBack : Bool) : ReturnsDtypeOf (input c p) (ip2ForwardD dflt M nIter projBack (input c p)) :=
  ret (ip2_ok dflt (.inr rfl) (Good.of hM c fun _ => rfl) nIter projBack (inp c p))

/-- Double in, double out (but see `ip2_double_violated`). -/
example : ReturnsDtypeOf (input true .double) (ip2ForwardD .single laplaceD 20 true (input true .double)) :=
  ip2_dtype .single true .double (laplace_dtype _ _ (by simp)) 20 true

/-- **C144** (partial): AuxIVA_IP2 stays in double precision when torch's default dtype is double; missing: the usual
default, see `ip2_double_violated`. -/
theorem ip2_double_partial (c : Bool) {M : SrcModel} (hM : WeightModel M .double true) (nIter : ℕ) (projBack : Bool) :
    ReturnsDouble (ip2ForwardD .double M nIter projBack (input c .double)) :=
  dbl (ip2_ok .double (.inl rfl) (Good.of hM c fun h => absurd h (by simp)) nIter projBack (inpd c))

example : ReturnsDouble (ip2ForwardD .double gaussD 7 true (input true .double)) :=
  ip2_double_partial true (gauss_dtype _ _ (by simp)) 7 true

private theorem ip2Update_single (c b : Bool) (WA : Option (TD × TD)) :
    ∃ o, ip2UpdateD .single (input c .double) ⟨false, .double, b⟩ WA = .ok (⟨c, .double, true⟩, o) := by
  cases c <;> cases b <;> exact ⟨_, rfl⟩

/-- **C144** (violated): with torch's usual default dtype every call of AuxIVA_IP2 with at least one iteration on a
double-precision mixture rounds intermediate results to single precision, although it returns a double-precision
tensor: `eigh_2x2` stores the eigenvalues in a tensor of the default dtype. -/
theorem ip2_double_violated (c : Bool) {M : SrcModel} (hM : WeightModel M .double false) (nIter : ℕ) (projBack : Bool) :
    ReturnsDegraded (ip2ForwardD .single M (nIter + 1) projBack (input c .double)) := by
  have hG := Good.of hM c fun _ => rfl
  have hcl : ∀ t : TD, clampD (scal (magSqD t)) = .ok (scal (magSqD t)) := fun t => rfl
  have key : ∀ s : (TD × Option (TD × TD)) × M.σ, (s.1.1.cpx = c ∧ s.1.1.prec = .double ∧ hG.Inv s.2) →
      Ok (fun s => (s.1.1.cpx = c ∧ s.1.1.prec = .double ∧ hG.Inv s.2) ∧ s.1.1.rounded = true)
      ((do
        let r ← M.step s.2 s.1.1
        let g ← clampD (scal (magSqD s.1.1))
        let _ ← divideD s.1.1 (scal g)
        let w := mul r.1 g
        let u ← ip2UpdateD .single (input c .double) w s.1.2
        return (u, r.2) : Except Err ((TD × Option (TD × TD)) × M.σ))) := by
    rintro ⟨⟨X, WA⟩, st⟩ ⟨h1, h2, h3⟩
    obtain ⟨cx, px, rx⟩ := X
    simp only at h1 h2
    subst h1 h2
    refine Ok.bind (hG.step _ _ h3 ⟨rfl, rfl, fun _ => rfl, fun _ => rfl⟩) fun o ho => ?_
    have hw : ∃ b, mul o.1 (scal (magSqD ⟨cx, .double, rx⟩)) = ⟨false, .double, b⟩ := by
      obtain ⟨⟨cw, pw, rw'⟩, so⟩ := o
      have hc := ho.1.cpx
      simp only at hc
      subst hc
      cases pw <;> exact ⟨_, rfl⟩
    obtain ⟨b, hb⟩ := hw
    obtain ⟨WA', hu⟩ := ip2Update_single cx b WA
    refine Ok.bind (P := fun g => g = scal (magSqD ⟨cx, .double, rx⟩)) ⟨_, hcl _, rfl⟩ fun g hg => ?_
    subst hg
    refine Ok.bind (P := fun _ => True) ⟨_, rfl, trivial⟩ fun _ _ => ?_
    simp only [hb]
    refine Ok.bind (P := fun u => u = (⟨cx, .double, true⟩, WA')) ⟨_, hu, rfl⟩ fun u hu => ?_
    subst hu
    exact Ok.pure' ⟨⟨rfl, rfl, ho.2⟩, rfl⟩
  have hfin : Ok (fun Y : TD => (Y.cpx = c ∧ Y.prec = .double) ∧ Y.rounded = true)
      (ip2ForwardD .single M (nIter + 1) projBack (input c .double)) := by
    have hall := ip2_ok .single (.inr rfl) hG (nIter + 1) projBack (inp c .double)
    obtain ⟨Y, eY, hY⟩ := hall
    refine ⟨Y, eY, ⟨hY.cpx, hY.prec⟩, ?_⟩
    have hr : Ok (fun Y : TD => Y.rounded = true) (ip2ForwardD .single M (nIter + 1) projBack (input c .double)) := by
      refine Ok.bind (P := fun s : (TD × Option (TD × TD)) × M.σ => s.1.1.rounded = true) ?_ fun s hs => ?_
      · refine Ok.bind (key _ ⟨rfl, rfl, hG.reset⟩) fun s hs => ?_
        exact (Ok.loop (fun t ht => key t ht.1) nIter s hs).mono fun t ht => ht.2
      · rcases s.1.2 with _ | t
        · exact Ok.pure' hs
        · refine Ok.pure' ?_
          simp [mul, arith, hs]
    obtain ⟨Y', eY', hY'⟩ := hr
    rw [eY, Except.ok.injEq] at eY'
    rw [eY']
    exact hY'
  obtain ⟨Y, e, ⟨h1, h2⟩, h3⟩ := hfin
  refine ⟨Y, e, ?_, h3⟩
  obtain ⟨c1, p1, r1⟩ := Y
  simp only at h1 h2
  subst h1 h2
  cases c1
  · exact .inl rfl
  · exact .inr rfl

example : ReturnsDegraded (ip2ForwardD .single laplaceD 1 true (input true .double)) :=
  ip2_double_violated true (laplace_dtype _ _ (by simp)) 0 true

/-! ## WPE -/

/-- **C143**: WPE, for a model only used with this precision since its last reset (WPE does not reset it). -/
theorem wpe_dtype (dflt : Prec) (c : Bool) (p : Prec) {M : SrcModel} (hM : WeightModel M p false) (useModel : Bool)
    (nIter : ℕ) {s : M.σ} (hs : Reachable M p false s) :
    ReturnsDtypeOf (input c p) ((wpeForwardD dflt M useModel nIter s (input c p)).map Prod.fst) := by
  obtain ⟨o, e, ho⟩ := wpe_ok dflt (Good.of hM c fun _ => rfl) useModel nIter hs (inp c p)
  exact ⟨o.1, by rw [e]; rfl, dtype_eq ho.1.cpx ho.1.prec⟩

/-- **C144**: WPE. -/
theorem wpe_double (dflt : Prec) (c : Bool) {M : SrcModel} (hM : WeightModel M .double true) (useModel : Bool)
    (nIter : ℕ) {s : M.σ} (hs : Reachable M .double true s) :
    ReturnsDouble ((wpeForwardD dflt M useModel nIter s (input c .double)).map Prod.fst) := by
  obtain ⟨o, e, ho⟩ := wpe_ok dflt (Good.of hM c fun h => absurd h (by simp)) useModel nIter hs (inpd c)
  exact dbl ⟨o.1, by rw [e]; rfl, ho.1⟩

example : ReturnsDouble ((wpeForwardD .single laplaceD false 3 () (input true .double)).map Prod.fst) :=
  wpe_double .single true (laplace_dtype _ _ (by simp)) false 3 (.reset)

private theorem nmf_single_state {r : Bool} {s : nmfD.σ} (h : ∃ t, s = some t)
    (hi : NmfInv .single r s) (c : Bool) : nmfD.step s (input c .double) = .error .runtimeError := by
  obtain ⟨⟨T, V, R⟩, rfl⟩ := h
  obtain ⟨h1, h2, h3⟩ := hi _ rfl
  obtain ⟨c1, p1, r1⟩ := T
  obtain ⟨c2, p2, r2⟩ := V
  obtain ⟨c3, p3, r3⟩ := R
  obtain ⟨a1, b1, -, -⟩ := h1
  obtain ⟨a2, b2, -, -⟩ := h2
  obtain ⟨a3, b3, -, -⟩ := h3
  simp only at a1 a2 a3 b1 b2 b3
  subst a1 a2 a3 b1 b2 b3
  rfl

/-- **C145** (violated): after a call of WPE with an NMF model on a single-precision signal, the same object refuses every
double-precision signal: the factors kept from the first call have the wrong dtype. -/
theorem wpe_precision_switch_violated (dflt : Prec) (c : Bool) (n m : ℕ) :
    ∃ Y s, wpeForwardD dflt nmfD true (n + 1) nmfD.reset (input c .single) = .ok (Y, s) ∧
      wpeForwardD dflt nmfD true (m + 1) s (input c .double) = .error .runtimeError := by
  obtain ⟨o, e, ho⟩ := wpe_ok dflt (Good.of (nmf_dtype .single false (by simp)) c fun _ => rfl) true (n + 1) .reset
    (inp c .single)
  refine ⟨o.1, o.2, e, ?_⟩
  have hsome : ∃ t, o.2 = some t := by
    have hl : Ok (fun t : TD × nmfD.σ => ((∃ q, Is c .single q t.1) ∧ NmfInv .single true t.2) ∧ ∃ u, t.2 = some u)
        (wpeForwardD dflt nmfD true (n + 1) nmfD.reset (input c .single)) := by
      have hit : ∀ t : TD × nmfD.σ, ((∃ q, Is c .single q t.1) ∧ NmfInv .single true t.2) →
          Ok (fun t : TD × nmfD.σ => ((∃ q, Is c .single q t.1) ∧ NmfInv .single true t.2) ∧ ∃ u, t.2 = some u)
          ((do
            let r ← (if true then nmfD.step t.2 t.1 else do
              let w ← wpeDefaultWeightsD t.1
              pure (w, t.2))
            let H ← wpeIterD dflt (input c .single) (input c .single) r.1
            let Y ← derevD H (input c .single) (input c .single)
            return (Y, r.2) : Except Err (TD × nmfD.σ))) := by
        rintro t ⟨⟨q, hq⟩, hn⟩
        obtain rfl : q = true := hq.sing rfl
        obtain ⟨w, ew, hw, hsm⟩ := nmf_step_some hn hq
        refine Ok.bind (P := fun o => o = w) ⟨w, ew, rfl⟩ fun o ho => ?_
        subst ho
        have hX := inp c .single
        refine Ok.bind (P := Is c .single true) ?_ fun H hH => ?_
        · exact Ok.bind ((hw.1.re.mull hX).mm hX) fun _ h1 => Ok.bind ((hw.1.re.mull hX).mm hX) fun _ h2 =>
            Is.solveLoaded dflt h1 h2
        · refine Ok.bind (P := Is c .single true) (Ok.bind (hH.mm hX) fun _ h => Ok.pure' (hX.mulc h)) fun Y hY => ?_
          exact Ok.pure' ⟨⟨⟨true, hY⟩, hw.2⟩, hsm⟩
      refine Ok.bind (hit _ ⟨⟨true, inp c .single⟩, fun _ h => absurd h (by simp [nmfD])⟩) fun t ht => ?_
      exact Ok.loop (fun t ht => hit t ht.1) n t ht
    obtain ⟨o', e', h'⟩ := hl
    rw [e, Except.ok.injEq] at e'
    rw [e']
    exact h'.2
  have hinv := nmf_reachable (p := .single) (exact := false) (by simp) ho.2
  show loop _ (m + 1) (input c .double, o.2) = _
  simp only [loop, if_true, nmf_single_state hsome hinv c]
  rfl

/-- Three iterations in single precision, then one in double precision. -/
example : ∃ Y s, wpeForwardD .single nmfD true 3 none (input true .single) = .ok (Y, s) ∧
    wpeForwardD .single nmfD true 1 s (input true .double) = .error .runtimeError :=
  wpe_precision_switch_violated .single true 2 0

/-- **C145**: T_ISS, AuxIVA_IP, AuxIVA_IP2 and FIVE reset the model: whatever it was used for before, a call with another
precision starts from the state after a reset, so `tiss_dtype` and the like apply.  For WPE a reset in between is
enough. -/
theorem wpe_after_reset_partial (dflt : Prec) (c : Bool) (p : Prec) (n : ℕ) :
    ReturnsDtypeOf (input c p) ((wpeForwardD dflt nmfD true n nmfD.reset (input c p)).map Prod.fst) :=
  wpe_dtype dflt c p (nmf_dtype p false fun _ => rfl) true n .reset

example : ReturnsDtypeOf (input true .double) ((wpeForwardD .single nmfD true 3 none (input true .double)).map Prod.fst) :=
  wpe_after_reset_partial .single true .double 3

/-! ## FIVE -/

/-- **C143**: FIVE. -/
theorem five_dtype (dflt : Prec) (c : Bool) (p : Prec) {M : SrcModel} (hM : WeightModel M p false) (nIter : ℕ)
    (two : Bool) (power : Option ℕ) (projBack : Bool) :
    ReturnsDtypeOf (input c p) (fiveForwardD dflt M nIter two power projBack (input c p)) :=
  ret (five_ok dflt (Good.of hM c fun _ => rfl) nIter two power projBack (inp c p))

example : ReturnsDtypeOf (input true .single) (fiveForwardD .double nmfD 10 true none true (input true .single)) :=
  five_dtype .double true .single (nmf_dtype _ _ (by simp)) 10 true none true

/-- **C144**: FIVE, also with two microphones: the plain 2x2 eigenvalue routine allocates with the right dtype. -/
theorem five_double (dflt : Prec) (c : Bool) {M : SrcModel} (hM : WeightModel M .double true) (nIter : ℕ)
    (two : Bool) (power : Option ℕ) (projBack : Bool) :
    ReturnsDouble (fiveForwardD dflt M nIter two power projBack (input c .double)) :=
  dbl (five_ok dflt (Good.of hM c fun h => absurd h (by simp)) nIter two power projBack (inpd c))

example : ReturnsDouble (fiveForwardD .single laplaceD 10 true (some 4) true (input true .double)) :=
  five_double .single true (laplace_dtype _ _ (by simp)) 10 true (some 4) true

/-! ## Beamformers -/

/-- **C143**: MVDRBeamformer. -/
theorem mvdr_dtype (dflt : Prec) (c : Bool) (p : Prec) {mask : TD → Except Err TD} (hm : MaskDtypes mask p false)
    (three scm two : Bool) (power : Option ℕ) :
    ReturnsDtypeOf (input c p) (mvdrForwardD dflt mask three scm two power (input c p)) :=
  ret (mvdr_ok dflt (GoodMask.of hm c fun _ => rfl) three scm two power (fun _ _ _ => .inr rfl) (inp c p))

/-- **C144** (partial): MVDRBeamformer stays in double precision with more than two microphones, with power iterations,
with `mvdr_type="scm"` and two masks, or when the default dtype is double; missing: two microphones otherwise, see
`mvdr_double_violated`. -/
theorem mvdr_double_partial (dflt : Prec) (c : Bool) {mask : TD → Except Err TD} (hm : MaskDtypes mask .double true)
    (three scm two : Bool) (power : Option ℕ)
    (h : two = false ∨ power ≠ none ∨ (scm = true ∧ three = false) ∨ dflt = .double) :
    ReturnsDouble (mvdrForwardD dflt mask three scm two power (input c .double)) := by
  refine dbl (mvdr_ok dflt (GoodMask.of hm c fun h => absurd h (by simp)) three scm two power ?_ (inpd c))
  intro h1 h2 h3
  rcases h with h | h | h | h
  · simp [h] at h2
  · exact absurd h3 h
  · rcases h1 with h1 | h1
    · simp [h.2] at h1
    · simp [h.1] at h1
  · exact .inl h

/-- A mask model that answers in the precision of the signal. -/
private def plainMask : TD → Except Err TD := fun X => .ok (absD X)

private theorem plainMask_ok (p : Prec) (exact : Bool) (hs : p = .single → exact = false) :
    MaskDtypes plainMask p exact := by
  intro X hp he
  exact ⟨_, rfl, weights_of_is (is_of hp he hs).abs⟩

example : ReturnsDouble (mvdrForwardD .single plainMask false false false none (input true .double)) :=
  mvdr_double_partial .single true (plainMask_ok _ _ (by simp)) false false false none (.inl rfl)

private theorem mask_cases {mask : TD → Except Err TD} (hm : MaskDtypes mask .double false) (X : TD) (hX : X.prec = .double) :
    ∃ q b, mask X = .ok ⟨false, q, b⟩ := by
  obtain ⟨w, e, h1, -, -⟩ := hm X hX (by simp)
  obtain ⟨cw, pw, rw'⟩ := w
  simp only at h1
  subst h1
  exact ⟨pw, rw', e⟩

/-- **C144** (violated): with two microphones, the eigenvalue decomposition and torch's usual default dtype, the MVDR
beamformer rounds to single precision. -/
theorem mvdr_double_violated (c : Bool) {mask : TD → Except Err TD} (hm : MaskDtypes mask .double false) (three : Bool) :
    ReturnsDegraded (mvdrForwardD .single mask three false true none (input c .double)) := by
  obtain ⟨q, b, e⟩ := mask_cases hm (input c .double) rfl
  rw [mvdrForwardD, e]
  cases c <;> cases three <;> cases q <;> cases b <;>
    first
    | exact ⟨_, rfl, .inl rfl, rfl⟩
    | exact ⟨_, rfl, .inr rfl, rfl⟩

example : ReturnsDegraded (mvdrForwardD .single plainMask false false true none (input true .double)) :=
  mvdr_double_violated true (plainMask_ok _ _ (by simp)) false

/-- **C143**: MWFBeamformer. -/
theorem mwf_dtype (dflt : Prec) (c : Bool) (p : Prec) {mask : TD → Except Err TD} (hm : MaskDtypes mask p false)
    (ti : Bool) : ReturnsDtypeOf (input c p) (mwfForwardD dflt mask ti (input c p)) :=
  ret (mwf_ok dflt (GoodMask.of hm c fun _ => rfl) ti (inp c p))

/-- **C144**: MWFBeamformer. -/
theorem mwf_double (dflt : Prec) (c : Bool) {mask : TD → Except Err TD} (hm : MaskDtypes mask .double true)
    (ti : Bool) : ReturnsDouble (mwfForwardD dflt mask ti (input c .double)) :=
  dbl (mwf_ok dflt (GoodMask.of hm c fun h => absurd h (by simp)) ti (inpd c))

/-- Both precisions, the other one being the default. -/
example : ReturnsDtypeOf (input true .single) (mwfForwardD .double plainMask true (input true .single)) ∧
    ReturnsDtypeOf (input true .single) (mvdrForwardD .double plainMask true false true none (input true .single)) ∧
    ReturnsDtypeOf (input true .double) (mvdrForwardD .single plainMask false true false none (input true .double)) :=
  ⟨mwf_dtype .double true .single (plainMask_ok _ _ (by simp)) true,
    mvdr_dtype .double true .single (plainMask_ok _ _ (by simp)) true false true none,
    mvdr_dtype .single true .double (plainMask_ok _ _ (by simp)) false true false none⟩

example : ReturnsDouble (mwfForwardD .single plainMask false (input true .double)) :=
  mwf_double .single true (plainMask_ok _ _ (by simp)) false

/-- **C143**: GEVBeamformer on complex mixtures. -/
theorem gev_dtype (dflt : Prec) (p : Prec) {mask : TD → Except Err TD} (hm : MaskDtypes mask p false) (two : Bool) :
    ReturnsDtypeOf (input true p) (gevForwardD dflt mask two (input true p)) :=
  ret (gev_ok dflt (GoodMask.of hm true fun _ => rfl) two (fun _ => .inr rfl) (inp true p))

example : ReturnsDtypeOf (input true .single) (gevForwardD .double plainMask true (input true .single)) :=
  gev_dtype .double .single (plainMask_ok _ _ (by simp)) true

/-- **C144** (partial): GEVBeamformer stays in double precision with more than two microphones or a double default dtype;
missing: two microphones, see `gev_double_violated`. -/
theorem gev_double_partial (dflt : Prec) {mask : TD → Except Err TD} (hm : MaskDtypes mask .double true) (two : Bool)
    (h : two = false ∨ dflt = .double) : ReturnsDouble (gevForwardD dflt mask two (input true .double)) := by
  refine dbl (gev_ok dflt (GoodMask.of hm true fun h => absurd h (by simp)) two (fun h2 => ?_) (inpd true))
  rcases h with h | h
  · simp [h] at h2
  · exact .inl h

example : ReturnsDouble (gevForwardD .single plainMask false (input true .double)) :=
  gev_double_partial .single (plainMask_ok _ _ (by simp)) false (.inl rfl)

/-- **C144** (violated): with two microphones and torch's usual default dtype the GEV beamformer rounds to single
precision. -/
theorem gev_double_violated {mask : TD → Except Err TD} (hm : MaskDtypes mask .double false) :
    ReturnsDegraded (gevForwardD .single mask true (input true .double)) := by
  obtain ⟨q, b, e⟩ := mask_cases hm (input true .double) rfl
  rw [gevForwardD, e]
  cases q <;> cases b <;> exact ⟨_, rfl, .inr rfl, rfl⟩

example : ReturnsDegraded (gevForwardD .single plainMask true (input true .double)) :=
  gev_double_violated (plainMask_ok _ _ (by simp))

/-- **C143**: real spectrograms: GEVBeamformer raises (it uses a complex-only product), unlike the other algorithms. -/
theorem gev_real_raises (dflt : Prec) (p : Prec) {mask : TD → Except Err TD} (hm : MaskDtypes mask p false) (two : Bool) :
    gevForwardD dflt mask two (input false p) = .error .runtimeError := by
  have hd : two = true → dflt = .double ∨ true = true := fun _ => .inr rfl
  have hX := inp false p
  obtain ⟨m, em, hm'⟩ := GoodMask.of hm false (fun _ => rfl) _ hX
  obtain ⟨Rt, et, ht⟩ := maskCov_ok hm' hX
  have hbf : Ok (Is false p true) (gevBfD dflt two Rt Rt) := by
    refine Ok.bind (Is.eighTwo dflt two hd ht ht) fun e he => ?_
    exact Ok.bind (he.solve he.new) fun s hs => Ok.pure' (he.mulc hs)
  obtain ⟨bf, ebf, hbf⟩ := hbf
  simp only [gevForwardD, em, et, ebf, bind, Except.bind, bmmD, viewAsReal, hbf.cpx, Bool.false_eq_true, if_false]

example : gevForwardD .single plainMask true (input false .single) = .error .runtimeError :=
  gev_real_raises .single .single (plainMask_ok _ _ (by simp)) true

/-! ## Scaling -/

/-- **C143/C144**: the scaling functions on complex signals keep dtype and precision. -/
theorem scaling_dtype (p : Prec) (n : ℕ) :
    ReturnsDtypeOf (input true p) (projectionBackD (input true p) (input true p)) ∧
    ReturnsDtypeOf (input true p) (minDistL2D (input true p) (input true p)) ∧
    ReturnsDtypeOf (input true p) (minDistPhaseD (input true p) (input true p)) ∧
    ReturnsDtypeOf (input true p) (minDistD n (input true p) (input true p)) :=
  have h := inp true p
  ⟨ret (projectionBack_ok h h), ret (minDistL2_ok h h), ret (minDistPhase_ok h h), ret (minDist_ok n h h)⟩

/-- **C144**: the scaling functions. -/
theorem scaling_double (n : ℕ) :
    ReturnsDouble (projectionBackD (input true .double) (input true .double)) ∧
    ReturnsDouble (minDistL2D (input true .double) (input true .double)) ∧
    ReturnsDouble (minDistPhaseD (input true .double) (input true .double)) ∧
    ReturnsDouble (minDistD n (input true .double) (input true .double)) :=
  have h := inpd true
  ⟨dbl (projectionBack_ok h h), dbl (minDistL2_ok h h), dbl (minDistPhase_ok h h), dbl (minDist_ok n h h)⟩

/-! ## STFT and separators -/

/-- **C143**: a separator (STFT, an algorithm that keeps the dtype, inverse STFT) returns audio of the dtype of its input,
provided torch's default dtype is not more precise than the audio. -/
theorem separator_dtype (dflt p : Prec) (hd : dflt = p ∨ dflt = .single) (algo : TD → Except Err TD)
    (ha : ∀ X, X.cpx = true → X.prec = p → ReturnsDtypeOf X (algo X)) :
    ReturnsDtypeOf (input false p) (separateD dflt algo (input false p)) := by
  obtain ⟨Y, e, hY⟩ := ha { mul (input false p) (windowD dflt none) with cpx := true } rfl (by
    rcases hd with rfl | rfl
    · cases dflt <;> rfl
    · cases p <;> rfl)
  have hc : Y.cpx = true ∧ Y.prec = p := by
    obtain ⟨c1, p1, r1⟩ := Y
    rcases hd with rfl | rfl
    · cases dflt <;> cases c1 <;> cases p1 <;>
        simp_all [TD.dtype, mul, arith, input, windowD, typeAs, Prec.max]
    · cases p <;> cases c1 <;> cases p1 <;>
        simp_all [TD.dtype, mul, arith, input, windowD, typeAs, Prec.max]
  obtain ⟨c1, p1, r1⟩ := Y
  obtain ⟨h1, h2⟩ := hc
  simp only at h1 h2
  subst h1 h2
  have hs : stftD (windowD dflt none) (input false p1) =
      .ok { mul (input false p1) (windowD dflt none) with cpx := true } := rfl
  rw [separateD, hs]
  simp only [bind, Except.bind, e]
  refine ⟨_, rfl, ?_⟩
  rcases hd with rfl | rfl
  · cases dflt <;> rfl
  · cases p1 <;> rfl

example : ReturnsDtypeOf (input false .single) (separateD .single (ipForwardD .single laplaceD 5 2 false (some true))
    (input false .single)) :=
  separator_dtype .single .single (.inl rfl) _ fun X hc hp => by
    obtain ⟨Y, e, hY⟩ := ip_ok .single (c := true) (r := true) (Good.of (laplace_dtype .single false (by simp)) true fun _ => rfl)
      5 2 false (some true) (X := X) ⟨hc, hp, fun _ => rfl, fun _ => rfl⟩
    exact ⟨Y, e, dtype_eq (hY.cpx.trans hc.symm) (hY.prec.trans hp.symm)⟩

/-- **C144** (violated): with torch's usual default dtype the spectrogram of double-precision audio is computed with a
window rounded to single precision, although it has double precision. -/
theorem stft_double_violated : ReturnsDegraded (stftD (windowD .single none) (input false .double)) :=
  ⟨_, rfl, .inr rfl, rfl⟩

/-- **C144** (partial): asking for a double-precision window avoids this; missing: the default, which `BSSSeparator` uses. -/
theorem stft_double_partial (dflt : Prec) :
    ReturnsDouble (stftD (windowD dflt (some .double)) (input false .double)) ∧
    ReturnsDouble (stftD (windowD .double none) (input false .double)) :=
  ⟨⟨_, rfl, .inr rfl, by cases dflt <;> rfl⟩, ⟨_, rfl, .inr rfl, rfl⟩⟩

end Torchiva.Props
