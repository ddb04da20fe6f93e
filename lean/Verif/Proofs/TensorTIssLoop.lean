import Verif.Proofs.TensorTIss
import Verif.Props.Hankel

/-! The main loop of T-ISS on tensors. -/

namespace Torchiva

set_option linter.unusedSimpArgs false

attribute [local simp] ok_bind' err_bind' pure_ok' comb_self comb_one_left comb_one_right bcast_self
  bcast_nil_left bcast_nil_right bcast_cons bcastTo sel pick onDim unsq swap01 swap12 move13
  reduceKeep maxKeep reduce bindLabel bindOp bindOps einsum matmul eighS List.lookup
  Ten.map Ten.map2 Ten.read bIdx sumOver opIdx einsumT bnat bIdx_inside

variable {b : Shape} {C F N T s : ℕ}

/-! ## The main loop -/

theorem laplaceT_rep (b : Shape) (s F N : ℕ) (eps : ℝ) :
    ModelRep b s F N (laplaceT eps) (laplaceModel eps) fun _ _ => True := by
  intro ts ms Y A _ hY
  simp [laplaceT, Ten.sumKeep, Ten.expand, magSqT, hY.shape]
  refine ⟨rfl, fun β hβ i hi j hj k hk => ?_⟩
  simp [Finset.sum_range, hβ, hi, hj, hk, hY.val, laplaceModel, laplaceForward, magSq, magSqE]

theorem gaussT_rep (b : Shape) (s F N : ℕ) (eps : ℝ) :
    ModelRep b s F N (gaussT eps) (gaussModel eps) fun _ _ => True := by
  intro ts ms Y A _ hY
  simp [gaussT, Ten.sum, Ten.unsq, magSqT, hY.shape]
  refine ⟨rfl, fun β hβ i hi j hj k hk => ?_⟩
  simp [Finset.sum_range, hβ, hi, hj, hk, hY.val, gaussModel, gaussForward, magSq, magSqE]

structure RepTiss {τ σ : Type} (b : Shape) (s C F N T : ℕ) (S : τ → (List ℕ → σ) → Prop) (st : TissT τ)
    (A : List ℕ → TissState σ s C F N T) : Prop where
  Y : Rep3 b s F N st.Y fun β => (A β).Y
  W : Rep3 b s F C st.W fun β => (A β).W
  H : Rep4 b s F C T st.H fun β => (A β).H
  J : RepJ b (C - s) F s st.J fun β => (A β).J
  ms : S st.ms fun β => (A β).ms

/-- The signals and filters after the normalisation of lines 239-245, and the new weights. -/
theorem normalize_rep {Y W H : Ten ℂ} {w : Ten ℝ} {AY AW AH Aw} (eps : ℝ)
    (hY : Rep3 b s F N Y AY) (hW : Rep3 b s F C W AW) (hH : Rep4 b s F C T H AH)
    (hw : Rep3 b s F N w Aw) :
    ∃ q1 q Y' W' gH H' w', Ten.sumKeep 0 (magSqT Y) = .ok q1 ∧ q1.sumKeep 1 = .ok q ∧
      divideT Y ((q.map fun x => clampMin (x / ((Y.shape.getD 1 0 : ℝ) * (Y.shape.getD 0 0 : ℝ))) eps).map
        fun x => √x) eps = .ok Y' ∧
      divideT W ((q.map fun x => clampMin (x / ((Y.shape.getD 1 0 : ℝ) * (Y.shape.getD 0 0 : ℝ))) eps).map
        fun x => √x) eps = .ok W' ∧
      ((q.map fun x => clampMin (x / ((Y.shape.getD 1 0 : ℝ) * (Y.shape.getD 0 0 : ℝ))) eps).map
        fun x => √x).unsq 0 = .ok gH ∧
      divideT H gH eps = .ok H' ∧
      Ten.map2 (fun x y => x * y) w
        (q.map fun x => clampMin (x / ((Y.shape.getD 1 0 : ℝ) * (Y.shape.getD 0 0 : ℝ))) eps) = .ok w' ∧
      Rep3 b s F N Y' (fun β k f n => divide (AY β k f n) (√(sourceGain (AY β) eps k)) eps) ∧
      Rep3 b s F C W' (fun β k f n => divide (AW β k f n) (√(sourceGain (AY β) eps k)) eps) ∧
      Rep4 b s F C T H' (fun β k f c t => divide (AH β k f c t) (√(sourceGain (AY β) eps k)) eps) ∧
      Rep3 b s F N w' (fun β k f n => Aw β k f n * sourceGain (AY β) eps k) := by
  obtain ⟨q1, h1, r1⟩ : ∃ q1, Ten.sumKeep 0 (magSqT Y) = .ok q1 ∧
      Rep3 b s F 1 q1 fun β k f _ => ∑ n, magSq (AY β k f n) := by
    simp [Ten.sumKeep, magSqT, hY.shape]
    refine ⟨rfl, fun β hβ i hi j hj k hk => ?_⟩
    simp [Finset.sum_range, hβ, hi, hj, hY.val, magSq, magSqE]
  obtain ⟨q, h2, r2⟩ : ∃ q, q1.sumKeep 1 = .ok q ∧
      Rep3 b s 1 1 q fun β k _ _ => ∑ f, ∑ n, magSq (AY β k f n) := by
    simp [Ten.sumKeep, r1.shape]
    refine ⟨rfl, fun β hβ i hi j hj k hk => ?_⟩
    simp [Finset.sum_range, hβ, hi, hk, r1.val]
  obtain ⟨g, hg, rg⟩ : ∃ g, (q.map fun x => clampMin (x / ((Y.shape.getD 1 0 : ℝ) *
      (Y.shape.getD 0 0 : ℝ))) eps) = g ∧ Rep3 b s 1 1 g fun β k _ _ => sourceGain (AY β) eps k := by
    refine ⟨_, rfl, r2.shape, fun β hβ i hi j hj k hk => ?_⟩
    simp [hY.shape, r2.val, hβ, hi, hj, hk, sourceGain]
  have hY' : ∃ t, divideT Y (g.map fun x => √x) eps = .ok t ∧
      Rep3 b s F N t (fun β k f n => divide (AY β k f n) (√(sourceGain (AY β) eps k)) eps) := by
    simp [divideT, hY.shape, rg.shape]
    refine ⟨rfl, fun β hβ i hi j hj k hk => ?_⟩
    simp [hβ, hi, hj, hk, hY.val, rg.val, divide]
  have hW' : ∃ t, divideT W (g.map fun x => √x) eps = .ok t ∧
      Rep3 b s F C t (fun β k f n => divide (AW β k f n) (√(sourceGain (AY β) eps k)) eps) := by
    simp [divideT, hW.shape, rg.shape]
    refine ⟨rfl, fun β hβ i hi j hj k hk => ?_⟩
    simp [hβ, hi, hj, hk, hW.val, rg.val, divide]
  obtain ⟨gH, hgH, rgH⟩ : ∃ t, (g.map fun x => √x).unsq 0 = .ok t ∧
      Rep4 b s 1 1 1 t fun β k _ _ _ => √(sourceGain (AY β) eps k) := by
    simp [Ten.unsq, rg.shape]
    refine ⟨rfl, fun β hβ i hi j hj k hk l hl => ?_⟩
    simp [hβ, hi, hj, hk, rg.val]
  have hH' : ∃ t, divideT H gH eps = .ok t ∧
      Rep4 b s F C T t (fun β k f c t => divide (AH β k f c t) (√(sourceGain (AY β) eps k)) eps) := by
    simp [divideT, hH.shape, rgH.shape]
    refine ⟨rfl, fun β hβ i hi j hj k hk l hl => ?_⟩
    simp [hβ, hi, hj, hk, hl, hH.val, rgH.val, divide]
  have hw' : ∃ t, Ten.map2 (fun x y => x * y) w g = .ok t ∧
      Rep3 b s F N t (fun β k f n => Aw β k f n * sourceGain (AY β) eps k) := by
    simp [hw.shape, rg.shape]
    refine ⟨rfl, fun β hβ i hi j hj k hk => ?_⟩
    simp [hβ, hi, hj, hk, hw.val, rg.val]
  obtain ⟨Y', e3, r3⟩ := hY'
  obtain ⟨W', e4, r4⟩ := hW'
  obtain ⟨H', e5, r5⟩ := hH'
  obtain ⟨w', e6, r6⟩ := hw'
  exact ⟨q1, q, Y', W', gH, H', w', h1, h2, by rw [hg]; exact e3, by rw [hg]; exact e4,
    by rw [hg]; exact hgH, e5, by rw [hg]; exact e6, r3, r4, r5, r6⟩

variable {τ σ : Type} {S : τ → (List ℕ → σ) → Prop} {M : TenModel τ} {m : SourceModel σ F N}

theorem tissOneIterT_rep (hs : s ≤ C) (eps : ℝ) (hM : ModelRep b s F N M m S)
    {X Xbar cXX cXbarX : Ten ℂ} {AX AXb A1 A2}
    (hX : Rep3 b C F N X AX) (hXb : Rep4 b C F T N Xbar AXb) (h1 : Rep3 b C F C cXX A1)
    (h2 : Rep4 b C T F C cXbarX A2) {st : TissT τ} {A : List ℕ → TissState σ s C F N T}
    (h : RepTiss b s C F N T S st A) (hJ : st.J = none → s = C) :
    Batched b (fun t a => RepTiss b s C F N T S t a ∧ (t.J = none → s = C))
      (tissOneIterT M X Xbar cXX cXbarX eps st) fun β =>
      tissOneIter hs (AX β) (AXb β) (A1 β) (A2 β) m eps (A β) := by
  obtain ⟨wm, hwm, rwm, rs⟩ := hM st.ms _ st.Y _ h.ms h.Y
  obtain ⟨q1, q, Y', W', gH, H', w', e1, e2, e3, e4, e5, e6, e7, r3, r4, r5, r6⟩ :=
    normalize_rep eps h.Y h.W h.H rwm
  have hJ' := h.J
  simp only [tissOneIterT, hwm, e1, e2, e3, e4, e5, e6, e7, ok_bind']
  rcases hst : st.J with _ | J
  · rw [hst] at hJ'
    simp only [RepJ] at hJ'
    have hC := hJ hst
    refine Batched.bind_ok (issUpdatesT_rep eps r6 hXb (st := ⟨Y', W', H'⟩)
      (A := fun β => ⟨_, _, _⟩) ⟨r3, r4, r5⟩ hC) fun r hr => ?_
    refine (Batched.pure (a := fun β => (⟨_, _, _, none, _⟩ : TissState σ s C F N T))
      ⟨⟨hr.Y, hr.W, hr.H, fun _ => rfl, rs⟩, fun _ => hC⟩).congr fun β hβ => ?_
    simp only [tissOneIter, hJ']
    rfl
  · rw [hst] at hJ'
    obtain ⟨AJ, rJ, hAJ⟩ := hJ'
    have e : ∀ β, tissOneIter hs (AX β) (AXb β) (A1 β) (A2 β) m eps (A β) =
      (backgroundUpdate hs (fun k f c => divide ((A β).W k f c) (√(sourceGain (A β).Y eps k)) eps)
        (fun k f c t => divide ((A β).H k f c t) (√(sourceGain (A β).Y eps k)) eps) (A1 β) (A2 β) 1e-3
        >>= fun J =>
        let r := issUpdates (AXb β)
          (fun k f n => (m s (A β).ms (A β).Y).1 k f n * sourceGain (A β).Y eps k) eps
          (some (demixBackground hs (AX β) J, J))
          ⟨fun k f n => divide ((A β).Y k f n) (√(sourceGain (A β).Y eps k)) eps,
           fun k f c => divide ((A β).W k f c) (√(sourceGain (A β).Y eps k)) eps,
           fun k f c t => divide ((A β).H k f c t) (√(sourceGain (A β).Y eps k)) eps⟩
        .ok ⟨r.Y, r.W, r.H, some J, (m s (A β).ms (A β).Y).2⟩) := by
      intro β
      simp only [tissOneIter, hAJ]
      rfl
    simp only [e]
    refine (backgroundUpdateT_rep hs 1e-3 r4 r5 h1 h2).bind fun J' aJ rJ' => ?_
    refine Batched.bind_ok (demixBackgroundT_rep hs hX rJ') fun Z rZ => ?_
    refine Batched.bind_ok (issUpdatesT_rep_over hs eps r6 hXb rZ rJ' (st := ⟨Y', W', H'⟩)
      (A := fun β => ⟨_, _, _⟩) ⟨r3, r4, r5⟩) fun r hr => ?_
    exact Batched.pure (a := fun β => (⟨_, _, _, some (aJ β), _⟩ : TissState σ s C F N T))
      ⟨⟨hr.Y, hr.W, hr.H, ⟨aJ, rJ', fun _ => rfl⟩, rs⟩, fun h0 => by cases h0⟩

theorem tissOneIterDmcT_rep (hs : s ≤ C) (eps : ℝ) (hM : ModelRep b s F N M m S)
    {X Xbar cXX cXbarX : Ten ℂ} {AX AXb A1 A2}
    (hX : Rep3 b C F N X AX) (hXb : Rep4 b C F T N Xbar AXb) (h1 : Rep3 b C F C cXX A1)
    (h2 : Rep4 b C T F C cXbarX A2) {st : TissT τ} {A : List ℕ → TissState σ s C F N T}
    (h : RepTiss b s C F N T S st A) (hJ : st.J = none → s = C) :
    Batched b (fun t a => RepTiss b s C F N T S t a ∧ (t.J = none → s = C))
      (tissOneIterDmcT M X Xbar cXX cXbarX eps st) fun β =>
      tissOneIterDmc hs (AX β) (AXb β) (A1 β) (A2 β) m eps (A β) := by
  refine Batched.bind_ok (demixDerevT_rep hX hXb h.W h.H) fun Y rY => ?_
  refine (tissOneIterT_rep hs eps hM hX hXb h1 h2 (st := ⟨Y, st.W, st.H, st.J, st.ms⟩)
    (A := fun β => ⟨_, (A β).W, (A β).H, (A β).J, (A β).ms⟩) ⟨rY, h.W, h.H, h.J, h.ms⟩ hJ).bind
    (k' := fun β (r : TissState σ s C F N T) =>
      .ok (⟨(A β).Y, r.W, r.H, r.J, r.ms⟩ : TissState σ s C F N T)) ?_
  rintro t a ⟨r, hr⟩
  exact .pure ⟨⟨h.Y, r.W, r.H, r.J, r.ms⟩, hr⟩

theorem delayedT_rep {X : Ten ℂ} {AX : List ℕ → Sig C F N} (T D : ℕ) (hX : Rep3 b C F N X AX) :
    ∃ t, delayedT T D X = .ok t ∧ Rep4 b C F T N t fun β => delayedTaps (AX β) T D := by
  have e1 : pySliceStop (T + D + 1) (-(D : ℤ) - 1) = T := by
    unfold pySliceStop
    rw [if_pos (by omega)]
    omega
  have e2 : N + (T + D) + 1 - (T + D + 1) = N := by omega
  have e3 : ¬ (N + (T + D) + 1 < T + D + 1) := by omega
  simp [delayedT, padLeft, hankelT, hX.shape, e1, e2, e3]
  refine ⟨rfl, fun β hβ i hi j hj k hk l hl => ?_⟩
  simp only [delayedTaps, Props.xbarRow_eq]
  simp
  by_cases h : k + l < T + D
  · rw [if_pos h, dif_neg (by omega)]
  · have h' : D + T - k ≤ l := by omega
    have h2 : k + l - (T + D) = l - (D + T - k) := by omega
    have h3 : k + l - (T + D) < N := by omega
    rw [if_neg h, dif_pos (by omega), hX.val β hβ i hi j hj _ h3]
    congr 2

theorem covT_rep {X Xbar : Ten ℂ} {AX : List ℕ → Sig C F N} {AXb : List ℕ → Taps C F T N}
    (hX : Rep3 b C F N X AX) (hXb : Rep4 b C F T N Xbar AXb) :
    ∃ t, covT X Xbar = .ok t ∧ Rep3 b C F C t.1 (fun β => covXX (AX β)) ∧
      Rep4 b C T F C t.2 fun β => covXbarX (AX β) (AXb β) := by
  simp [covT, hX.shape, hXb.shape]
  refine ⟨⟨rfl, fun β hβ i hi j hj k hk => ?_⟩, rfl, fun β hβ i hi j hj k hk l hl => ?_⟩
  · simp [hβ, hi, hj, hk, hX.val, covXX]
  · simp [hβ, hi, hj, hk, hl, hX.val, hXb.val, covXbarX]

theorem tissInitT_rep (hs : s ≤ C) (eps : ℝ) {X Xbar cXX cXbarX : Ten ℂ} {AX : List ℕ → Sig C F N}
    (D : ℕ) (hX : Rep3 b C F N X AX) (hXb : Rep4 b C F T N Xbar fun β => delayedTaps (AX β) T D)
    (h1 : Rep3 b C F C cXX fun β => covXX (AX β))
    (h2 : Rep4 b C T F C cXbarX fun β => covXbarX (AX β) (delayedTaps (AX β) T D))
    {ts : τ} {ms : List ℕ → σ} (hS : S ts ms) :
    Batched b (fun t a => RepTiss b s C F N T S t a ∧ (t.J = none → s = C))
      (tissInitT s C F T b X Xbar cXX cXbarX eps ts) fun β => tissInit hs (AX β) T D eps (ms β) := by
  obtain ⟨e1, he1, re1⟩ : ∃ t, (Ten.eye s C).unsq 1 = .ok t ∧
      Rep3 [] s 1 C t fun _ k _ c => if k.1 = c.1 then 1 else 0 := by
    simp [Ten.unsq, Ten.eye]
    refine ⟨rfl, fun β hβ i hi j hj k hk => ?_⟩
    simp
  obtain ⟨W, hW, rW⟩ : ∃ t, e1.expand (C :: F :: s :: b) = .ok t ∧
      Rep3 b s F C t fun _ k _ c => if k.1 = c.1 then 1 else 0 := by
    simp [Ten.expand, re1.shape]
    refine ⟨rfl, fun β hβ i hi j hj k hk => ?_⟩
    have := re1.val [] trivial i hi 0 (by simp) k hk
    simp [hi, hk, re1.shape, this]
  have rH : Rep4 b s F C T (Ten.zeros (T :: C :: F :: s :: b)) fun _ _ _ _ _ => 0 :=
    ⟨rfl, fun β hβ i hi j hj k hk l hl => rfl⟩
  simp only [tissInitT, he1, hW, ok_bind']
  by_cases h : s < C
  · simp only [h, if_true, bind_assoc, ok_bind']
    simp only [tissInit, if_pos h]
    refine (backgroundUpdateT_rep hs eps rW rH h1 h2).bind fun J aJ rJ => ?_
    refine Batched.bind_ok (demixDerevT_rep hX hXb rW rH) fun Y rY => ?_
    exact Batched.pure (a := fun β => (⟨_, _, _, some (aJ β), _⟩ : TissState σ s C F N T))
      ⟨⟨rY, rW, rH, ⟨aJ, rJ, fun _ => rfl⟩, hS⟩, fun h0 => by cases h0⟩
  · simp only [h, if_false, ok_bind']
    simp only [tissInit, if_neg h]
    refine Batched.bind_ok (demixDerevT_rep hX hXb rW rH) fun Y rY => ?_
    exact Batched.pure (a := fun β => (⟨_, _, _, none, _⟩ : TissState σ s C F N T))
      ⟨⟨rY, rW, rH, fun _ => rfl, hS⟩, fun _ => by omega⟩

set_option maxHeartbeats 1000000 in
theorem projectionBackWeightsT_rep (hs : s ≤ C) {W : Ten ℂ} {J : Option (Ten ℂ)} {AW : List ℕ → DemixW s F C}
    {AJ : List ℕ → Option (BackJ (C - s) F s)} (hW : Rep3 b s F C W AW) (hJ : RepJ b (C - s) F s J AJ)
    (hJn : J = none → s = C) (mic : ℕ) (hmic : ¬ (s ≤ mic ∧ mic < C ∧ b ≠ [])) (hb : ∃ β, Inside β b) :
    Batched b (fun t (a : List ℕ → Fin s → Fin F → ℂ) => Rep3 b s F 1 t fun β k f _ => a β k f)
      (projectionBackWeightsT W J mic) fun β => projectionBackWeights hs (AW β) (AJ β) mic := by
  have e1 : W.shape.getD 2 0 = s := by simp [hW.shape]
  have e2 : W.shape.getD 0 0 = C := by simp [hW.shape]
  simp only [projectionBackWeightsT, e1, e2]
  -- the end of both branches
  have fin : ∀ (t : Ten ℂ) (a : List ℕ → Fin F → Matrix (Fin s) (Fin 1) ℂ),
      Rep3 b F s 1 t (fun β f i j => a β f i j) →
      Batched b (fun t (a : List ℕ → Fin s → Fin F → ℂ) => Rep3 b s F 1 t fun β k f _ => a β k f)
        t.swap12 fun β => .ok fun k f => a β f k 0 := by
    intro t a r
    refine .of_ok ?_
    simp [Ten.swap12, r.shape]
    refine ⟨rfl, fun β hβ i hi j hj k hk => ?_⟩
    have : k = 0 := by omega
    subst this
    simp [Ten.swapIdx12, hβ, hi, hj, r.val]
  have heye : mic < s → ∃ t, (Ten.eye s s).pick 0 mic = .ok t ∧
      t.shape = [1, s] ∧ ∀ i, t.val [0, i] = if i = mic then 1 else 0 := by
    intro h
    simp [Ten.pick, Ten.eye, h]
  by_cases h : s < C
  · rw [if_pos h]
    rcases J with _ | J
    · exact absurd (hJn rfl) (by omega)
    obtain ⟨aJ, rJ, hAJ⟩ := hJ
    obtain ⟨W1, hW1, rW1⟩ : ∃ t, W.take 0 s = .ok t ∧ Rep3 b s F s t fun β k f d =>
        AW β k f (Fin.castLE hs d) := by
      simp [Ten.take, hW.shape, hs]
      refine ⟨rfl, fun β hβ i hi j hj k hk => ?_⟩
      have : k < C := by omega
      simp [hβ, hi, hj, this, hW.val]
    obtain ⟨W2, hW2, rW2⟩ : ∃ t, W.drop 0 s = .ok t ∧ Rep3 b s F (C - s) t fun β k f d =>
        AW β k f ⟨s + d, by omega⟩ := by
      simp [Ten.drop, hW.shape]
      refine ⟨rfl, fun β hβ i hi j hj k hk => ?_⟩
      have : k + s < C := by omega
      simp [hβ, hi, hj, this, hW.val]
      congr 1
      simp [add_comm]
    obtain ⟨B1, hB1, rB1⟩ : ∃ t, einsumT [("sfc", W2), ("cfk", J)] "sfk" = .ok t ∧
        Rep3 b s F s t fun β k f d => ∑ c : Fin (C - s), AW β k f ⟨s + c, by omega⟩ * aJ β c f d := by
      simp [rW2.shape, rJ.shape]
      refine ⟨rfl, fun β hβ i hi j hj k hk => ?_⟩
      simp [hβ, hi, hj, hk, rW2.val, rJ.val]
    obtain ⟨B, hB, rB⟩ : ∃ t, Ten.map2 (fun x y => x + y) B1 W1 = .ok t ∧
        Rep3 b s F s t fun β k f d => (∑ c : Fin (C - s), AW β k f ⟨s + c, by omega⟩ * aJ β c f d) +
          AW β k f (Fin.castLE hs d) := by
      simp [rB1.shape, rW1.shape]
      refine ⟨rfl, fun β hβ i hi j hj k hk => ?_⟩
      simp [hβ, hi, hj, hk, rB1.val, rW1.val]
    obtain ⟨lhs, hl, rl⟩ : ∃ t, einsumT [("sfc", B)] "fcs" = .ok t ∧
        Rep3 b F s s t fun β f c k => (∑ d : Fin (C - s), AW β k f ⟨s + d, by omega⟩ * aJ β d f c) +
          AW β k f (Fin.castLE hs c) := by
      simp [rB.shape]
      refine ⟨rfl, fun β hβ i hi j hj k hk => ?_⟩
      simp [hβ, hi, hj, hk, rB.val]
    simp only [hW1, hW2, hB1, hB, ok_bind']
    by_cases hm : mic < s
    · obtain ⟨rhs, hr, hrs, hrv⟩ := heye hm
      rw [if_pos hm, hr]
      simp only [ok_bind', hl]
      have e : ∀ β, projectionBackWeights hs (AW β) (AJ β) mic =
          ((seqAll fun f => solveLoadedGeneral (Matrix.of fun c k =>
            (∑ d : Fin (C - s), AW β k f ⟨s + d, by omega⟩ * aJ β d f c) + AW β k f (Fin.castLE hs c))
            (Matrix.of fun (k : Fin s) (_ : Fin 1) => if k.1 = mic then (1 : ℂ) else 0) 1e-5 1e-5) >>=
            fun a => .ok fun k f => a f k 0) := by
        intro β
        simp only [projectionBackWeights, if_pos h, hAJ, dif_pos hm]
        rfl
      simp only [e]
      refine (solveLoadedGeneralT_rep 1e-5 1e-5 rl (AB := fun β f k _ => if k.1 = mic then (1 : ℂ) else 0)
        (by simp [hrs]) ?_).bind fin
      intro β hβ f hf i hi j hj
      have : j = 0 := by omega
      subst this
      simp [hrs, hi, hrv]
    · rw [if_neg hm]
      by_cases hm2 : mic - s < C - s
      · have hb0 : b = [] := by
          by_contra hb0
          exact hmic ⟨by omega, by omega, hb0⟩
        subst hb0
        obtain ⟨r1, hr1, rr1⟩ : ∃ t, J.pick 2 (mic - s) = .ok t ∧ Rep3 [] 1 F s t fun β _ f k =>
            aJ β ⟨mic - s, hm2⟩ f k := by
          simp [Ten.pick, rJ.shape, hm2]
          refine ⟨rfl, fun β hβ i hi j hj k hk => ?_⟩
          simp [hβ, hj, hk, hm2, rJ.val]
        obtain ⟨rhs, hr, rr⟩ : ∃ t, r1.permute [2, 0, 1] = .ok t ∧ Rep3 [] F s 1 t fun β f k _ =>
            aJ β ⟨mic - s, hm2⟩ f k := by
          simp [Ten.permute, permute, rr1.shape]
          refine ⟨rfl, fun β hβ i hi j hj k hk => ?_⟩
          have hβ0 : β = [] := by cases β <;> simp_all [Inside]
          subst hβ0
          have : k = 0 := by omega
          subst this
          have := rr1.val [] trivial 0 (by simp) i hi j hj
          simp [List.range_succ, List.idxOf_cons, this]
        simp only [hr1, ok_bind', hr, hl]
        have e : ∀ β, projectionBackWeights hs (AW β) (AJ β) mic =
            ((seqAll fun f => solveLoadedGeneral (Matrix.of fun c k =>
              (∑ d : Fin (C - s), AW β k f ⟨s + d, by omega⟩ * aJ β d f c) + AW β k f (Fin.castLE hs c))
              (Matrix.of fun (k : Fin s) (_ : Fin 1) => aJ β ⟨mic - s, hm2⟩ f k) 1e-5 1e-5) >>=
              fun a => .ok fun k f => a f k 0) := by
          intro β
          simp only [projectionBackWeights, if_pos h, hAJ, dif_neg hm, dif_pos hm2]
          rfl
        simp only [e]
        refine (solveLoadedGeneralT_rep 1e-5 1e-5 rl (AB := fun β f k _ => aJ β ⟨mic - s, hm2⟩ f k)
          (by simp [rr.shape]) ?_).bind fin
        intro β hβ f hf i hi j hj
        have : j = 0 := by omega
        subst this
        have hβ0 : β = [] := by cases β <;> simp_all [Inside]
        subst hβ0
        have := rr.val [] trivial f hf i hi 0 (by simp)
        simp [rr.shape, hf, hi, this]
      · have : J.pick 2 (mic - s) = .error .indexError := by
          simp [Ten.pick, rJ.shape, hm2]
        rw [this]
        obtain ⟨β, hβ⟩ := hb
        refine ⟨β, hβ, ?_⟩
        simp only [projectionBackWeights, if_pos h, hAJ, dif_neg hm, dif_neg hm2]
        rfl
  · have hC : s = C := by omega
    subst hC
    rw [if_neg h]
    by_cases hm : mic < s
    · obtain ⟨rhs, hr, hrs, hrv⟩ := heye hm
      obtain ⟨WT, hWT, rWT⟩ : ∃ t, W.swap12 = .ok t ∧ Rep3 b F s s t fun β f k c => AW β k f c := by
        simp [Ten.swap12, hW.shape]
        refine ⟨rfl, fun β hβ i hi j hj k hk => ?_⟩
        simp [Ten.swapIdx12, hβ, hi, hj, hk, hW.val]
      obtain ⟨lhs, hl, rl⟩ : ∃ t, WT.swap01 = .ok t ∧ Rep3 b F s s t fun β f c k => AW β k f c := by
        simp [Ten.swap01, rWT.shape]
        refine ⟨rfl, fun β hβ i hi j hj k hk => ?_⟩
        simp [Ten.swapIdx01, hβ, hi, hj, hk, rWT.val]
      simp only [hr, ok_bind', hWT, hl]
      have e : ∀ β, projectionBackWeights hs (AW β) (AJ β) mic =
          ((seqAll fun f => solveLoadedGeneral (Matrix.of fun c k => AW β k f c)
            (Matrix.of fun (k : Fin s) (_ : Fin 1) => if k.1 = mic then (1 : ℂ) else 0) 1e-5 1e-5) >>=
            fun a => .ok fun k f => a f k 0) := by
        intro β
        simp only [projectionBackWeights, if_neg h, if_pos hm]
        rfl
      simp only [e]
      refine (solveLoadedGeneralT_rep 1e-5 1e-5 rl (AB := fun β f k _ => if k.1 = mic then (1 : ℂ) else 0)
        (by simp [hrs]) ?_).bind fin
      intro β hβ f hf i hi j hj
      have : j = 0 := by omega
      subst this
      simp [hrs, hi, hrv]
    · have : (Ten.eye s s).pick 0 mic = .error .indexError := by
        simp [Ten.pick, Ten.eye, hm]
      rw [this]
      obtain ⟨β, hβ⟩ := hb
      refine ⟨β, hβ, ?_⟩
      simp only [projectionBackWeights, if_neg h, if_neg hm]

theorem tissCoreT_rep (hs : s ≤ C) (p : TissParams) (hM : ModelRep b s F N M m S) {X : Ten ℂ}
    {AX : List ℕ → Sig C F N} (hX : Rep3 b C F N X AX) {ts : τ} {ms : List ℕ → σ} (hS : S ts ms)
    (hmic : ∀ mic ∈ p.projBackMic, 0 < p.nIter → ¬ (s ≤ mic ∧ mic < C ∧ b ≠ [])) (hb : ∃ β, Inside β b) :
    Batched b (RepTissOut b s C F N S) (tissCoreT p s C F b M ts X) fun β =>
      tissCore hs p (AX β) m (ms β) := by
  refine Batched.bind_ok (delayedT_rep p.nTaps p.nDelay hX) fun Xbar rXb => ?_
  obtain ⟨cov, hcov, rc1, rc2⟩ := covT_rep hX rXb
  rw [hcov, ok_bind']
  refine (tissInitT_rep hs p.eps p.nDelay hX rXb rc1 rc2 hS).bind fun st0 a0 ⟨r0, hJ0⟩ => ?_
  have hloop : Batched b (fun t a => RepTiss b s C F N p.nTaps S t a ∧ (t.J = none → s = C))
      (iterM (if p.useDmc then tissOneIterDmcT M X Xbar cov.1 cov.2 p.eps
        else tissOneIterT M X Xbar cov.1 cov.2 p.eps) p.nIter st0) fun β =>
      tissLoop hs (AX β) p.nTaps p.nDelay m p.eps p.useDmc p.nIter (a0 β) := by
    unfold tissLoop
    refine Batched.iter (fun t a ht => ?_) p.nIter ⟨r0, hJ0⟩
    split_ifs
    · exact tissOneIterDmcT_rep hs p.eps hM hX rXb rc1 rc2 ht.1 ht.2
    · exact tissOneIterT_rep hs p.eps hM hX rXb rc1 rc2 ht.1 ht.2
  refine hloop.bind fun st a ⟨r, hJ⟩ => ?_
  have hY : ∃ t, (if p.useDmc then demixDerevT X Xbar st.W st.H else .ok st.Y) = .ok t ∧
      Rep3 b s F N t fun β => if p.useDmc then
        demixDerev (AX β) (delayedTaps (AX β) p.nTaps p.nDelay) (a β).W (a β).H else (a β).Y := by
    split_ifs
    · exact demixDerevT_rep hX rXb r.W r.H
    · exact ⟨_, rfl, r.Y⟩
  refine Batched.bind_ok hY fun Y rY => ?_
  rcases hp : p.projBackMic with _ | mic
  · exact Batched.pure (a := fun β => (⟨_, _, _, _⟩ : TissOut σ s C F N)) ⟨rY, r.W, r.J, r.ms, hJ⟩
  · dsimp only
    by_cases hn : 0 < p.nIter
    · simp only [if_pos hn]
      refine (projectionBackWeightsT_rep hs r.W r.J hJ mic (hmic mic (by simp [hp]) hn) hb).bind
        fun t at' rt => ?_
      obtain ⟨Y', hY', rY'⟩ : ∃ t', Ten.map2 (fun x y => x * y) t Y = .ok t' ∧
          Rep3 b s F N t' fun β k f n => at' β k f * (if p.useDmc then
            demixDerev (AX β) (delayedTaps (AX β) p.nTaps p.nDelay) (a β).W (a β).H else (a β).Y) k f n := by
        simp [rt.shape, rY.shape]
        refine ⟨rfl, fun β hβ i hi j hj k hk => ?_⟩
        simp [hβ, hi, hj, hk, rt.val, rY.val]
      rw [hY', ok_bind']
      exact Batched.pure (a := fun β => (⟨_, _, _, _⟩ : TissOut σ s C F N)) ⟨rY', r.W, r.J, r.ms, hJ⟩
    · simp only [if_neg hn]
      exact Batched.pure (a := fun β => (⟨_, _, _, _⟩ : TissOut σ s C F N)) ⟨rY, r.W, r.J, r.ms, hJ⟩

end Torchiva
