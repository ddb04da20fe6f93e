import Verif.Proofs.TensorTIssLoop

/-! AuxIVA-IP on tensors. -/

namespace Torchiva

set_option linter.unusedSimpArgs false

attribute [local simp] ok_bind' err_bind' pure_ok' comb_self comb_one_left comb_one_right bcast_self
  bcast_nil_left bcast_nil_right bcast_cons bcastTo sel pick onDim unsq swap01 swap12 move13
  reduceKeep maxKeep reduce bindLabel bindOp bindOps einsum matmul eighS List.lookup catS
  Ten.map Ten.map2 Ten.read bIdx sumOver opIdx einsumT bnat bIdx_inside Ten.swapIdx01 Ten.swapIdx12

variable {b : Shape} {C F N s : ℕ}

theorem matmul_rep {p q r : ℕ} {A B : Ten ℂ} {AA : List ℕ → Fin F → Matrix (Fin p) (Fin q) ℂ}
    {AB : List ℕ → Fin F → Matrix (Fin q) (Fin r) ℂ} (hA : Rep3 b F p q A fun β f i j => AA β f i j)
    (hB : Rep3 b F q r B fun β f i j => AB β f i j) :
    ∃ t, Ten.matmul A B = .ok t ∧ Rep3 b F p r t fun β f i j => (AA β f * AB β f) i j := by
  simp [Ten.matmul, hA.shape, hB.shape]
  refine ⟨rfl, fun β hβ f hf i hi j hj => ?_⟩
  simp [Finset.sum_range, Matrix.mul_apply, hβ, hf, hi, hj, hA.val, hB.val]

theorem orthogonalConstraintT_rep (hs : s ≤ C) {W Cx : Ten ℂ} {AW : List ℕ → Fin F → Matrix (Fin s) (Fin C) ℂ}
    {AC : List ℕ → Fin F → Matrix (Fin C) (Fin C) ℂ} (hW : Rep3 b F s C W fun β f i j => AW β f i j)
    (hC : Rep3 b F C C Cx fun β f i j => AC β f i j) (load : ℝ) :
    Batched b (fun J (A : List ℕ → Fin F → Option (Matrix (Fin (C - s)) (Fin s) ℂ)) =>
        RepJF b F (C - s) s J A ∧ (J = none → s = C))
      (orthogonalConstraintT W Cx load) fun β =>
      seqAll fun f => orthogonalConstraint (AW β f) (AC β f) load := by
  have e1 : W.shape.getD 1 0 = s := by simp [hW.shape]
  have e2 : W.shape.getD 0 0 = C := by simp [hW.shape]
  simp only [orthogonalConstraintT, e1, e2]
  by_cases h : s = C
  · rw [if_pos h]
    refine ⟨fun _ _ => none, fun β hβ => ?_, fun _ _ => rfl, fun _ => h⟩
    simp only [orthogonalConstraint, dif_pos h]
    exact seqAll_pure _
  · rw [if_neg h, if_neg (show ¬ C < s by omega)]
    obtain ⟨A, hA, rA⟩ := matmul_rep hW hC
    obtain ⟨A1, hA1, rA1⟩ : ∃ t, A.take 0 s = .ok t ∧ Rep3 b F s s t fun β f k d =>
        (AW β f * AC β f) k (Fin.castLE hs d) := by
      simp [Ten.take, rA.shape, hs]
      refine ⟨rfl, fun β hβ i hi j hj k hk => ?_⟩
      have : k < C := by omega
      simp [hβ, hi, hj, this, rA.val]
    obtain ⟨A2, hA2, rA2⟩ : ∃ t, A.drop 0 s = .ok t ∧ Rep3 b F s (C - s) t fun β f k d =>
        (AW β f * AC β f) k ⟨s + d, by omega⟩ := by
      simp [Ten.drop, rA.shape]
      refine ⟨rfl, fun β hβ i hi j hj k hk => ?_⟩
      have : k + s < C := by omega
      simp [hβ, hi, hj, this, rA.val]
      simp [add_comm]
    simp only [hA, hA1, hA2, ok_bind']
    have e : ∀ β, (seqAll fun f => orthogonalConstraint (AW β f) (AC β f) load) =
        (seqAll fun f => solveLoadedGeneral
          (Matrix.of fun (k : Fin s) (d : Fin s) => (AW β f * AC β f) k (Fin.castLE hs d))
          (Matrix.of fun (k : Fin s) (d : Fin (C - s)) => (AW β f * AC β f) k ⟨s + d, by omega⟩) load load) >>=
        fun a => .ok fun f => some (a f).conjTranspose := by
      intro β
      simp only [orthogonalConstraint, dif_neg h, dif_neg (show ¬ C < s by omega)]
      refine (seqAll_bind (fun f => onlySingular_loaded _ _ _ _) fun f a => .ok _).trans ?_
      congr 1
      funext a
      exact seqAll_pure _
    simp only [e]
    refine (solveLoadedGeneralT_rep load load rA1 (AB := fun β f k d => (AW β f * AC β f) k ⟨s + d, by omega⟩)
      (by simp [rA2.shape]) ?_).bind fun JH a rJ => .of_ok ?_
    · intro β hβ f hf i hi j hj
      simp [rA2.shape, hβ, hf, hi, hj, rA2.val]
    · simp [Ten.swap01, rJ.shape]
      refine ⟨fun β f => (a β f).conjTranspose, ⟨rfl, fun β hβ i hi j hj k hk => ?_⟩, fun _ _ => rfl⟩
      simp [hβ, hi, hj, hk, rJ.val]

theorem stackWVT_rep (hs : s ≤ C) {W V : Ten ℂ} {J : Option (Ten ℂ)} {AW : List ℕ → Fin F → Matrix (Fin s) (Fin C) ℂ}
    {AV : List ℕ → Fin F → Matrix (Fin C) (Fin C) ℂ}
    {AJ : List ℕ → Fin F → Option (Matrix (Fin (C - s)) (Fin s) ℂ)}
    (hW : Rep3 b F s C W fun β f i j => AW β f i j)
    (hJ : RepJF b F (C - s) s J AJ) (hJn : J = none → s = C)
    (hV : Rep3 b F C C V fun β f i j => AV β f i j) :
    ∃ t, stackWVT s W J V = .ok t ∧
      Rep3 b F C C t fun β f i j => stackWV hs (AW β f) (AJ β f) (AV β f) i j := by
  obtain ⟨WV, h1, r1⟩ := matmul_rep hW hV
  rcases J with _ | J
  · have hC := hJn rfl
    subst hC
    refine ⟨WV, by simpa [stackWVT] using h1, r1.shape, fun β hβ i hi j hj k hk => ?_⟩
    simp [r1.val β hβ i hi j hj k hk, stackWV, hj]
  · obtain ⟨aJ, rJ, hAJ⟩ := hJ
    obtain ⟨V1, hV1, rV1⟩ : ∃ t, V.take 1 s = .ok t ∧ Rep3 b F s C t fun β f e d =>
        AV β f (Fin.castLE hs e) d := by
      simp [Ten.take, hV.shape, hs]
      refine ⟨rfl, fun β hβ i hi j hj k hk => ?_⟩
      have : j < C := by omega
      simp [hβ, hi, hk, this, hV.val]
    obtain ⟨V2, hV2, rV2⟩ : ∃ t, V.drop 1 s = .ok t ∧ Rep3 b F (C - s) C t fun β f e d =>
        AV β f ⟨s + e, by omega⟩ d := by
      simp [Ten.drop, hV.shape]
      refine ⟨rfl, fun β hβ i hi j hj k hk => ?_⟩
      have : j + s < C := by omega
      simp [hβ, hi, hk, this, hV.val]
      simp [add_comm]
    obtain ⟨JV, hJV, rJV⟩ := matmul_rep (AB := fun β f => Matrix.of fun e d => AV β f (Fin.castLE hs e) d) rJ rV1
    simp only [stackWVT, h1, hV1, hV2, hJV, ok_bind']
    simp [Ten.cat, r1.shape, rJV.shape, rV2.shape, show s + (C - s) = C by omega]
    refine ⟨rfl, fun β hβ i hi j hj k hk => ?_⟩
    by_cases h : j < s
    · simp [h, hβ, hi, hk, r1.val, stackWV]
    · have h' : j - s < C - s := by omega
      have h2 : s + (j - s) = j := by omega
      simp [h, h', h2, hβ, hi, hk, rJV.val, rV2.val, stackWV, hAJ, Matrix.mul_apply]

theorem ipNewRowT_rep (hs : s ≤ C) {W V evec : Ten ℂ} {J : Option (Ten ℂ)} {AW : List ℕ → Fin F → Matrix (Fin s) (Fin C) ℂ}
    {AV : List ℕ → Fin F → Matrix (Fin C) (Fin C) ℂ}
    {AJ : List ℕ → Fin F → Option (Matrix (Fin (C - s)) (Fin s) ℂ)}
    (hW : Rep3 b F s C W fun β f i j => AW β f i j)
    (hJ : RepJF b F (C - s) s J AJ) (hJn : J = none → s = C)
    (hV : Rep3 b F C C V fun β f i j => AV β f i j)
    (he : Rep3 b F C C evec fun _ _ i j => if i.1 = j.1 then (1 : ℂ) else 0) (k : Fin s) (eps : ℝ) :
    Batched b (fun t (a : List ℕ → Fin F → Fin C → ℂ) => Rep3 b F 1 C t fun β f _ c => a β f c)
      (ipNewRowT s W J V evec k eps) fun β =>
      seqAll fun f => ipNewRow hs (AW β f) (AJ β f) (AV β f) k eps := by
  obtain ⟨WV, h1, r1⟩ := stackWVT_rep hs hW hJ hJn hV
  have hk : k.1 < C := by omega
  obtain ⟨ek, h2, r2⟩ : ∃ t, evec.pick 0 k = .ok t ∧ Rep3 b F C 1 t fun _ _ i _ =>
      if i.1 = k.1 then (1 : ℂ) else 0 := by
    simp [Ten.pick, he.shape, hk]
    refine ⟨rfl, fun β hβ i hi j hj l hl => ?_⟩
    have : l = 0 := by omega
    subst this
    simp [hβ, hi, hj, hk, he.val]
  simp only [ipNewRowT, h1, h2, ok_bind']
  have e : ∀ β, (seqAll fun f => ipNewRow hs (AW β f) (AJ β f) (AV β f) k eps) =
      (seqAll fun f => solveLoadedGeneral (stackWV hs (AW β f) (AJ β f) (AV β f))
        (Matrix.of fun i (_ : Fin 1) => if i.1 = k.1 then (1 : ℂ) else 0) eps eps) >>= fun a => .ok fun f c =>
        star (a f c 0) / (√(clampMin (∑ c, ∑ d, star (a f c 0) * star (star (a f d 0)) * AV β f c d).re eps) : ℝ) := by
    intro β
    refine (seqAll_bind (fun f => onlySingular_loaded _ _ _ _) fun f a => .ok _).trans ?_
    congr 1
    funext a
    exact seqAll_pure _
  simp only [e]
  refine (solveLoadedGeneralT_rep eps eps r1 (AB := fun β f i _ => if i.1 = k.1 then (1 : ℂ) else 0)
    (by simp [r2.shape]) ?_).bind fun sol a r3 => .of_ok ?_
  · intro β hβ f hf i hi j hj
    simp [r2.shape, hβ, hf, hi, hj, r2.val]
  obtain ⟨nw, h4, r4⟩ : ∃ t, (sol.map star).sel 0 0 = .ok t ∧ Rep2 b F C t fun β f c => star (a β f c 0) := by
    simp [Ten.sel, r3.shape]
    refine ⟨rfl, fun β hβ i hi j hj => ?_⟩
    simp [hβ, hi, hj, r3.val]
  obtain ⟨sc, h5, r5⟩ : ∃ t, einsumT [("c", nw), ("d", nw.map star), ("cd", V)] "" = .ok t ∧
      Rep1 b F t fun β f => ∑ c, ∑ d, star (a β f c 0) * star (star (a β f d 0)) * AV β f c d := by
    simp [r4.shape, hV.shape]
    refine ⟨rfl, fun β hβ i hi => ?_⟩
    simp [hβ, hi, r4.val, hV.val, mul_assoc]
  simp only [h4, h5, ok_bind']
  simp [Ten.unsq, r4.shape, r5.shape]
  refine ⟨rfl, fun β hβ i hi j hj l hl => ?_⟩
  simp [hβ, hi, hl, r4.val, r5.val]

/-- What the loop over the sources carries. -/
def RepWJ (b : Shape) (s C F : ℕ) (st : Ten ℂ × Option (Ten ℂ))
    (a : List ℕ → Fin F → Matrix (Fin s) (Fin C) ℂ × Option (Matrix (Fin (C - s)) (Fin s) ℂ)) : Prop :=
  Rep3 b F s C st.1 (fun β f i j => (a β f).1 i j) ∧ RepJF b F (C - s) s st.2 (fun β f => (a β f).2) ∧
    (st.2 = none → s = C)

theorem onlySingular_orthogonal (hs : s ≤ C) (W : Matrix (Fin s) (Fin C) ℂ) (Cx : Matrix (Fin C) (Fin C) ℂ)
    (load : ℝ) : OnlyErr .singular (orthogonalConstraint W Cx load) := by
  unfold orthogonalConstraint
  split_ifs with h h2
  · exact .ok _
  · omega
  · exact (onlySingular_loaded _ _ _ _).bind fun a => .ok _

theorem onlySingular_newRow (hs : s ≤ C) (W : Matrix (Fin s) (Fin C) ℂ)
    (J : Option (Matrix (Fin (C - s)) (Fin s) ℂ)) (V : Matrix (Fin C) (Fin C) ℂ) (k : Fin s) (eps : ℝ) :
    OnlyErr .singular (ipNewRow hs W J V k eps) :=
  (onlySingular_loaded _ _ _ _).bind fun a => .ok _

theorem onlySingular_srcUpdate (hs : s ≤ C) (x : Fin C → Fin N → ℂ) (Cx : Matrix (Fin C) (Fin C) ℂ)
    (w : Fin s → Fin N → ℝ) (eps : ℝ) (W : Matrix (Fin s) (Fin C) ℂ) (k : Fin s) :
    OnlyErr .singular (ipSrcUpdate hs x Cx w eps W k) :=
  (onlySingular_orthogonal hs _ _ _).bind fun _ => (onlySingular_newRow hs _ _ _ _ _).bind fun _ => .ok _

theorem ipSrcUpdateT_rep (hs : s ≤ C) {X Cx evec : Ten ℂ} {w : Ten ℝ} {AX Aw}
    {AC : List ℕ → Fin F → Matrix (Fin C) (Fin C) ℂ}
    (hX : Rep3 b C F N X AX) (hw : Rep3 b s F N w Aw) (hC : Rep3 b F C C Cx fun β f i j => AC β f i j)
    (he : Rep3 b F C C evec fun _ _ i j => if i.1 = j.1 then (1 : ℂ) else 0) (eps : ℝ) (k : Fin s)
    {st : Ten ℂ × Option (Ten ℂ)} {a} (hst : RepWJ b s C F st a) :
    Batched b (RepWJ b s C F) (ipSrcUpdateT s X w Cx evec eps st k) fun β => seqAll fun f =>
      ipSrcUpdate hs (fun c => AX β c f) (AC β f) (fun k => Aw β k f) eps (a β f).1 k := by
  obtain ⟨hW, -, -⟩ := hst
  obtain ⟨wk, h1, r1⟩ : ∃ t, w.pick 2 k = .ok t ∧ Rep3 b 1 F N t fun β _ f n => Aw β k f n := by
    simp [Ten.pick, hw.shape]
    refine ⟨rfl, fun β hβ i hi j hj l hl => ?_⟩
    simp [hβ, hj, hl, hw.val]
  obtain ⟨Xw, h2, r2⟩ : ∃ t, Ten.map2 (fun x y => x * y) X wk.toC = .ok t ∧ Rep3 b C F N t fun β c f n =>
      AX β c f n * (Aw β k f n : ℂ) := by
    simp [Ten.toC, r1.shape, hX.shape]
    refine ⟨rfl, fun β hβ i hi j hj l hl => ?_⟩
    simp [hβ, hi, hj, hl, hX.val, r1.val]
  obtain ⟨V, h3, r3⟩ : ∃ t, einsumT [("cfn", Xw), ("dfn", X.map star)] "fcd" = .ok t ∧
      Rep3 b F C C t fun β f i j => weightedCov (fun c => AX β c f) (Aw β k f) i j := by
    simp [r2.shape, hX.shape]
    refine ⟨rfl, fun β hβ i hi j hj l hl => ?_⟩
    simp [hβ, hi, hj, hl, hX.val, r2.val, weightedCov]
  have e : ∀ β, (seqAll fun f => ipSrcUpdate hs (fun c => AX β c f) (AC β f) (fun k => Aw β k f) eps (a β f).1 k) =
      (seqAll fun f => orthogonalConstraint (a β f).1 (AC β f) eps) >>= fun J =>
        (seqAll fun f => ipNewRow hs (a β f).1 (J f) (weightedCov (fun c => AX β c f) (Aw β k f)) k eps) >>=
          fun r => .ok fun f => ((a β f).1.updateRow k (r f), J f) := by
    intro β
    refine (seqAll_bind (fun f => onlySingular_orthogonal hs _ _ _) fun f J =>
      (onlySingular_newRow hs _ _ _ _ _).bind fun _ => .ok _).trans ?_
    congr 1
    funext J
    refine (seqAll_bind (fun f => onlySingular_newRow hs _ _ _ _ _) fun f _ => .ok _).trans ?_
    congr 1
    funext r
    exact seqAll_pure _
  simp only [e, ipSrcUpdateT]
  refine (orthogonalConstraintT_rep hs hW hC eps).bind fun J AJ ⟨rJ, hJn⟩ => ?_
  simp only [h1, h2, h3, ok_bind']
  refine (ipNewRowT_rep hs hW rJ hJn r3 he k eps).bind fun nw an r4 => .of_ok ?_
  have hk : k.1 < s := k.2
  have hk1 : k.1 ≤ s := hk.le
  have e4 : k.1 + 1 + (s - (k.1 + 1)) = s := by omega
  simp [Ten.take, Ten.drop, Ten.cat, hW.shape, r4.shape, hk1, e4, RepWJ]
  refine ⟨⟨rfl, fun β hβ i hi j hj l hl => ?_⟩, rJ, hJn⟩
  rcases lt_trichotomy j k.1 with h | h | h
  · have h5 : j < k.1 + 1 := by omega
    have h6 : (⟨j, hj⟩ : Fin s) ≠ k := fun h' => by rw [← h'] at h; simp at h
    simp [h, h5, hβ, hi, hl, hj, hW.val, Matrix.updateRow_ne h6]
    omega
  · have h6 : (⟨j, hj⟩ : Fin s) = k := Fin.ext h
    simp [h, h6, hβ, hi, hl, r4.val]
  · have h5 : ¬ j < k.1 + 1 := by omega
    have h6 : (⟨j, hj⟩ : Fin s) ≠ k := fun h' => by rw [← h'] at h; simp at h
    have h7 : j - (k.1 + 1) + (k.1 + 1) = j := by omega
    simp [h5, h7, hβ, hi, hl, hj, hW.val, Matrix.updateRow_ne h6]
    omega

theorem ipSweep_eq (hs : s ≤ C) (x : Fin C → Fin N → ℂ) (Cx : Matrix (Fin C) (Fin C) ℂ)
    (w : Fin s → Fin N → ℝ) (eps : ℝ) (l : List (Fin s)) (st) :
    ipSweep hs x Cx w eps l st = l.foldlM (fun st k => ipSrcUpdate hs x Cx w eps st.1 k) st := by
  induction l generalizing st with
  | nil => rfl
  | cons k l ih =>
    simp only [ipSweep, List.foldlM_cons]
    congr 1
    funext st
    exact ih st

variable {τ σ : Type} {S : τ → (List ℕ → σ) → Prop} {M : TenModel τ} {m : SourceModel σ F N}

structure RepIp {τ σ : Type} (b : Shape) (s C F N : ℕ) (S : τ → (List ℕ → σ) → Prop) (st : IpT τ)
    (A : List ℕ → IpState σ s C F N) : Prop where
  Y : Rep3 b s F N st.Y fun β => (A β).Y
  W : Rep3 b F s C st.W fun β f i j => (A β).W f i j
  J : RepJF b F (C - s) s st.J fun β => (A β).J
  ms : S st.ms fun β => (A β).ms
  noJ : st.J = none → s = C

theorem ipEpochT_rep (hs : s ≤ C) (eps : ℝ) (hM : ModelRep b s F N M m S) {X Cx evec : Ten ℂ} {AX}
    (hX : Rep3 b C F N X AX) (hC : Rep3 b F C C Cx fun β f i j => inputCov (AX β) f i j)
    (he : Rep3 b F C C evec fun _ _ i j => if i.1 = j.1 then (1 : ℂ) else 0)
    {st : IpT τ} {A : List ℕ → IpState σ s C F N} (h : RepIp b s C F N S st A) :
    Batched b (RepIp b s C F N S) (ipEpochT s X Cx evec M eps st) fun β =>
      ipEpoch hs (AX β) m eps (A β) := by
  obtain ⟨w, h1, r1, r1'⟩ := hM st.ms _ st.Y _ h.ms h.Y
  obtain ⟨q1, h2, r2⟩ : ∃ q1, Ten.sumKeep 0 (magSqT st.Y) = .ok q1 ∧
      Rep3 b s F 1 q1 fun β k f _ => ∑ n, magSq ((A β).Y k f n) := by
    simp [Ten.sumKeep, magSqT, h.Y.shape]
    refine ⟨rfl, fun β hβ i hi j hj k hk => ?_⟩
    simp [Finset.sum_range, hβ, hi, hj, h.Y.val, magSq, magSqE]
  obtain ⟨q, h3, r3⟩ : ∃ q, q1.sumKeep 1 = .ok q ∧
      Rep3 b s 1 1 q fun β k _ _ => ∑ f, ∑ n, magSq ((A β).Y k f n) := by
    simp [Ten.sumKeep, r2.shape]
    refine ⟨rfl, fun β hβ i hi j hj k hk => ?_⟩
    simp [Finset.sum_range, hβ, hi, hk, r2.val]
  obtain ⟨g, hg, rg⟩ : ∃ g, (q.map fun x => clampMin (x / ((st.Y.shape.getD 1 0 : ℝ) *
      (st.Y.shape.getD 0 0 : ℝ))) eps) = g ∧ Rep3 b s 1 1 g fun β k _ _ => sourceGain (A β).Y eps k := by
    refine ⟨_, rfl, r3.shape, fun β hβ i hi j hj k hk => ?_⟩
    simp [h.Y.shape, r3.val, hβ, hi, hj, hk, sourceGain]
  obtain ⟨Y', h4⟩ : ∃ t, divideT st.Y (g.map fun x => √x) eps = .ok t := by
    simp [divideT, h.Y.shape, rg.shape]
  obtain ⟨gT, h5, r5⟩ : ∃ t, (g.map fun x => √x).swap12 = .ok t ∧
      Rep3 b 1 s 1 t fun β _ k _ => √(sourceGain (A β).Y eps k) := by
    simp [Ten.swap12, rg.shape]
    refine ⟨rfl, fun β hβ i hi j hj k hk => ?_⟩
    simp [hβ, hi, hj, hk, rg.val]
  obtain ⟨W', h6, r6⟩ : ∃ t, divideT st.W gT eps = .ok t ∧ Rep3 b F s C t fun β f k c =>
      (A β).W f k c / (clampMin (√(sourceGain (A β).Y eps k)) eps : ℝ) := by
    simp [divideT, h.W.shape, r5.shape]
    refine ⟨rfl, fun β hβ i hi j hj k hk => ?_⟩
    simp [hβ, hi, hj, hk, h.W.val, r5.val]
  obtain ⟨w', h7, r7⟩ : ∃ t, Ten.map2 (fun x y => x * y) w.1 g = .ok t ∧ Rep3 b s F N t fun β k f n =>
      (m s (A β).ms (A β).Y).1 k f n * sourceGain (A β).Y eps k := by
    simp [r1.shape, rg.shape]
    refine ⟨rfl, fun β hβ i hi j hj k hk => ?_⟩
    simp [hβ, hi, hj, hk, r1.val, rg.val]
  simp only [ipEpochT, h1, h2, h3, ok_bind', hg, h4, h5, h6, h7]
  have hfold := Batched.foldlM (b := b) (R := RepWJ b s C F) (f := ipSrcUpdateT s X w' Cx evec eps)
    (g := fun β a k => seqAll fun f => ipSrcUpdate hs (fun c => AX β c f) (inputCov (AX β) f)
        (fun k n => (m s (A β).ms (A β).Y).1 k f n * sourceGain (A β).Y eps k) eps (a f).1 k)
    (fun k t a ht => ipSrcUpdateT_rep hs hX r7 hC he eps k ht) (t := (W', st.J))
    (a := fun β f => (Matrix.of fun k c => (A β).W f k c / (clampMin (√(sourceGain (A β).Y eps k)) eps : ℝ), (A β).J f))
    ⟨r6, h.J, h.noJ⟩
  have e : ∀ β, ipEpoch hs (AX β) m eps (A β) = ((List.finRange s).foldlM (fun a k => seqAll fun f =>
      ipSrcUpdate hs (fun c => AX β c f) (inputCov (AX β) f)
        (fun k n => (m s (A β).ms (A β).Y).1 k f n * sourceGain (A β).Y eps k) eps (a f).1 k)
        (fun f => (Matrix.of fun k c => (A β).W f k c / (clampMin (√(sourceGain (A β).Y eps k)) eps : ℝ), (A β).J f))) >>=
      fun r => .ok ⟨demix (AX β) fun f => (r f).1, fun f => (r f).1, fun f => (r f).2,
        (m s (A β).ms (A β).Y).2⟩ := by
    intro β
    rw [← seqAll_foldlM (g := fun f a k => ipSrcUpdate hs (fun c => AX β c f) (inputCov (AX β) f)
        (fun k n => (m s (A β).ms (A β).Y).1 k f n * sourceGain (A β).Y eps k) eps a.1 k)
      fun f a k => onlySingular_srcUpdate hs _ _ _ _ _ _]
    simp only [← ipSweep_eq]
    rfl
  simp only [e]
  refine hfold.bind fun r a rr => .of_ok ?_
  obtain ⟨rW, rJ, hJn⟩ := rr
  obtain ⟨Y2, h8, r8⟩ : ∃ t, einsumT [("fcd", r.1), ("dfn", X)] "cfn" = .ok t ∧
      Rep3 b s F N t fun β => demix (AX β) fun f => (a β f).1 := by
    simp [rW.shape, hX.shape]
    refine ⟨rfl, fun β hβ i hi j hj k hk => ?_⟩
    simp [hβ, hi, hj, hk, rW.val, hX.val, demix]
  rw [h8]
  exact ⟨_, rfl, r8, rW, rJ, r1', hJn⟩

theorem seqAll_col {x : Fin F → Except Err (Matrix (Fin s) (Fin 1) ℂ)} {e0 : Err} (hx : ∀ f, OnlyErr e0 (x f))
    (AY : Sig s F N) :
    ((seqAll fun f => x f >>= fun a => pure fun k => a k 0) >>= fun a => .ok fun k f n => AY k f n * a f k :
      Except Err (Sig s F N)) = seqAll x >>= fun a => .ok fun k f n => AY k f n * a f k 0 := by
  rcases seqAll_onlyErr hx with ⟨a, ha, e⟩ | ⟨f, hf, e⟩
  · rw [e]
    simp only [ha, ok_bind']
    rw [show (seqAll fun f => (pure fun k => _ : Except Err (Fin s → ℂ))) = _ from seqAll_pure _]
    rfl
  · have h : (seqAll fun f => x f >>= fun a => (pure fun k => a k 0 : Except Err (Fin s → ℂ))) =
        .error e0 :=
      seqAll_error' (fun f => ((hx f).bind fun _ => .ok _).cases) f (by rw [hf]; rfl)
    rw [e, h]
    rfl

set_option maxHeartbeats 1000000 in
theorem projectionBackDemixingT_rep (hs : s ≤ C) {Y W : Ten ℂ} {J : Option (Ten ℂ)} {AY}
    {AW : List ℕ → Fin F → Matrix (Fin s) (Fin C) ℂ}
    {AJ : List ℕ → Fin F → Option (Matrix (Fin (C - s)) (Fin s) ℂ)}
    (hY : Rep3 b s F N Y AY) (hW : Rep3 b F s C W fun β f i j => AW β f i j)
    (hJ : RepJF b F (C - s) s J AJ) (hJn : J = none → s = C) (mic : ℕ) (hmic : mic < s) :
    Batched b (fun t a => Rep3 b s F N t a) (projectionBackDemixingT Y W J mic) fun β =>
      (seqAll fun f => projectionBackDemixing (AW β f) (AJ β f) mic) >>= fun a =>
        .ok fun k f n => AY β k f n * a f k := by
  have e1 : Y.shape.getD 2 0 = s := by simp [hY.shape]
  have e2 : W.shape.getD 0 0 = C := by simp [hW.shape]
  simp only [projectionBackDemixingT, e1, e2]
  -- the end of both branches
  have fin : ∀ (t : Ten ℂ) (a : List ℕ → Fin F → Matrix (Fin s) (Fin 1) ℂ),
      Rep3 b F s 1 t (fun β f i j => a β f i j) →
      Batched b (fun t a => Rep3 b s F N t a) (t.swap12 >>= fun a => Ten.map2 (fun x y => x * y) Y a) fun β =>
        .ok fun k f n => AY β k f n * a β f k 0 := by
    intro t a r
    refine .of_ok ?_
    simp [Ten.swap12, r.shape, hY.shape]
    refine ⟨rfl, fun β hβ i hi j hj k hk => ?_⟩
    simp [hβ, hi, hj, hk, r.val, hY.val]
  -- the right-hand side
  have rhs : ∀ n, mic < n → ∃ e0 e1, (Ten.eye n n).pick 0 mic = .ok e0 ∧ e0.shape = [1, n] ∧
      e0.expand (e0.shape ++ F :: b) = .ok e1 ∧
      Rep3 b F n 1 e1 fun _ _ i _ => if i.1 = mic then (1 : ℂ) else 0 := by
    intro n hn
    simp [Ten.pick, Ten.eye, hn, Ten.expand]
    refine ⟨rfl, fun β hβ i hi j hj k hk => ?_⟩
    simp [hj]
  rcases J with _ | J
  · have hC := hJn rfl
    subst hC
    obtain ⟨e0, e1, h1, -, h2, r2⟩ := rhs s hmic
    obtain ⟨WT, h3, r3⟩ : ∃ t, W.swap01 = .ok t ∧ Rep3 b F s s t fun β f i j => (AW β f).transpose i j := by
      simp [Ten.swap01, hW.shape]
      refine ⟨rfl, fun β hβ i hi j hj k hk => ?_⟩
      simp [hβ, hi, hj, hk, hW.val]
    have e4 : W.shape.drop 2 = F :: b := by simp [hW.shape]
    simp only [h1, ok_bind', e4, h2, h3]
    have e : ∀ β, ((seqAll fun f => projectionBackDemixing (AW β f) (AJ β f) mic) >>= fun a =>
        .ok fun k f n => AY β k f n * a f k : Except Err (Sig s F N)) =
        (seqAll fun f => solveLoadedGeneral (AW β f).transpose
          (Matrix.of fun (c : Fin s) (_ : Fin 1) => if c.1 = mic then (1 : ℂ) else 0) 1e-5 1e-5) >>= fun a =>
          .ok fun k f n => AY β k f n * a f k 0 := by
      intro β
      have hJ' : ∀ f, AJ β f = none := hJ β
      simp only [hJ', projectionBackDemixing, if_pos hmic]
      exact seqAll_col (fun f => onlySingular_loaded _ _ _ _) _
    simp only [e]
    refine (solveLoadedGeneralT_rep 1e-5 1e-5 r3 (AB := fun β f k _ => if k.1 = mic then (1 : ℂ) else 0)
      (by simp [r2.shape]) ?_).bind fin
    intro β hβ f hf i hi j hj
    simp [r2.shape, hβ, hf, hi, hj, r2.val]
  · obtain ⟨aJ, rJ, hAJ⟩ := hJ
    obtain ⟨e0, e1, h1, h1', h2, r2⟩ := rhs s hmic
    obtain ⟨W1, h3, r3⟩ : ∃ t, W.take 1 s = .ok t ∧ Rep3 b F s C t fun β f i j => AW β f i j := by
      simp [Ten.take, hW.shape]
      exact ⟨rfl, hW.val⟩
    obtain ⟨A, h4, r4⟩ : ∃ t, W1.take 0 s = .ok t ∧ Rep3 b F s s t fun β f i j =>
        AW β f i (Fin.castLE hs j) := by
      simp [Ten.take, r3.shape, hs]
      refine ⟨rfl, fun β hβ i hi j hj k hk => ?_⟩
      have : k < C := by omega
      simp [hβ, hi, hj, this, r3.val]
    obtain ⟨B, h5, r5⟩ : ∃ t, W1.drop 0 s = .ok t ∧ Rep3 b F s (C - s) t fun β f i j =>
        AW β f i ⟨s + j, by omega⟩ := by
      simp [Ten.drop, r3.shape]
      refine ⟨rfl, fun β hβ i hi j hj k hk => ?_⟩
      have : k + s < C := by omega
      simp [hβ, hi, hj, this, r3.val]
      simp [add_comm]
    obtain ⟨BC, h6, r6⟩ := matmul_rep (AA := fun β f => Matrix.of fun i (j : Fin (C - s)) =>
      AW β f i ⟨s + j, by omega⟩) r5 rJ
    obtain ⟨WW, h7, r7⟩ : ∃ t, Ten.map2 (fun x y => x + y) A BC = .ok t ∧ Rep3 b F s s t fun β f i j =>
        (Matrix.of (fun k d => AW β f k (Fin.castLE hs d)) + (Matrix.of fun i (j : Fin (C - s)) =>
          AW β f i ⟨s + j, by omega⟩) * aJ β f : Matrix (Fin s) (Fin s) ℂ) i j := by
      simp [r4.shape, r6.shape]
      refine ⟨rfl, fun β hβ i hi j hj k hk => ?_⟩
      simp [hβ, hi, hj, hk, r4.val, r6.val]
    obtain ⟨WT, h8, r8⟩ : ∃ t, WW.swap01 = .ok t ∧ Rep3 b F s s t fun β f i j =>
        (Matrix.of (fun k d => AW β f k (Fin.castLE hs d)) + (Matrix.of fun i (j : Fin (C - s)) =>
          AW β f i ⟨s + j, by omega⟩) * aJ β f : Matrix (Fin s) (Fin s) ℂ).transpose i j := by
      simp only [Ten.swap01, r7.shape, swap01, ok_bind']
      refine ⟨_, rfl, rfl, fun β hβ i hi j hj k hk => ?_⟩
      exact r7.val β hβ i hi k hk j hj
    have e4 : WW.shape.drop 2 = F :: b := by simp [r7.shape]
    simp only [h3, ok_bind', h4, h5, if_pos hmic, h1, h6, h7, e4, h2, h8]
    have e : ∀ β, ((seqAll fun f => projectionBackDemixing (AW β f) (AJ β f) mic) >>= fun a =>
        .ok fun k f n => AY β k f n * a f k : Except Err (Sig s F N)) =
        (seqAll fun f => solveLoadedGeneral (Matrix.of (fun k d => AW β f k (Fin.castLE hs d)) +
          (Matrix.of fun i (j : Fin (C - s)) => AW β f i ⟨s + j, by omega⟩) * aJ β f :
            Matrix (Fin s) (Fin s) ℂ).transpose
          (Matrix.of fun (c : Fin s) (_ : Fin 1) => if c.1 = mic then (1 : ℂ) else 0) 1e-5 1e-5) >>= fun a =>
          .ok fun k f n => AY β k f n * a f k 0 := by
      intro β
      simp only [hAJ, projectionBackDemixing, dif_pos hs, if_pos hmic, ok_bind']
      exact seqAll_col (fun f => onlySingular_loaded _ _ _ _) _
    simp only [e]
    refine (solveLoadedGeneralT_rep 1e-5 1e-5 r8 (AB := fun β f k _ => if k.1 = mic then (1 : ℂ) else 0)
      (by simp [r2.shape]) ?_).bind fin
    intro β hβ f hf i hi j hj
    simp [r2.shape, hβ, hf, hi, hj, r2.val]

/-- `AuxIVA_IP.forward` once the number of sources is known to be possible. -/
theorem auxivaForwardT_rep (p : IpParams) (s : ℕ) (hs : s ≤ C) (hM : ModelRep b s F N M m S) {X : Ten ℂ}
    {AX : List ℕ → Sig C F N} (hX : Rep3 b C F N X AX) (resetT : τ → τ) (reset : σ → σ) {ts : τ}
    {ms : List ℕ → σ} (hS : S (resetT ts) fun β => reset (ms β)) (hmic : ∀ mic ∈ p.projBackMic, mic < s) :
    Batched b (fun r (o : List ℕ → Σ s : ℕ, IpOut σ s F N) => ∃ A : List ℕ → IpOut σ s F N,
        (∀ β, o β = ⟨s, A β⟩) ∧ RepIpOut b s F N S r A)
      (auxivaForwardT p (some s) M resetT ts X) fun β => auxivaForward p (some s) (AX β) m reset (ms β) := by
  obtain ⟨W, h1, r1⟩ : ∃ t, (Ten.eye s C).expand (C :: s :: F :: b) = .ok t ∧ Rep3 b F s C t fun _ _ k c =>
      if k.1 = c.1 then (1 : ℂ) else 0 := by
    simp [Ten.eye, Ten.expand]
    refine ⟨rfl, fun β hβ i hi j hj k hk => ?_⟩
    simp [hj, hk]
  obtain ⟨Y, h2, r2⟩ : ∃ t, X.take 2 s = .ok t ∧ Rep3 b s F N t fun β k => AX β (Fin.castLE hs k) := by
    simp [Ten.take, hX.shape, hs]
    refine ⟨rfl, fun β hβ i hi j hj k hk => ?_⟩
    have : i < C := by omega
    simp [hβ, this, hj, hk, hX.val]
  obtain ⟨Cx, h3, r3⟩ : ∃ t, inputCovT X = .ok t ∧ Rep3 b F C C t fun β f i j => inputCov (AX β) f i j := by
    simp [inputCovT, hX.shape]
    refine ⟨rfl, fun β hβ i hi j hj k hk => ?_⟩
    simp [hβ, hi, hj, hk, hX.val, inputCov]
  obtain ⟨ev, h4, r4⟩ : ∃ t, (Ten.eye C C).expand (C :: C :: F :: b) = .ok t ∧ Rep3 b F C C t fun _ _ k c =>
      if k.1 = c.1 then (1 : ℂ) else 0 := by
    simp [Ten.eye, Ten.expand]
    refine ⟨rfl, fun β hβ i hi j hj k hk => ?_⟩
    simp [hj, hk]
  have e4 : W.shape.drop 2 = F :: b := by simp [r1.shape]
  simp only [auxivaForwardT, hX.shape, h1, h2, h3, ok_bind', e4, h4, auxivaForward, dif_pos hs]
  refine (orthogonalConstraintT_rep hs (AW := fun _ _ => Matrix.of fun k c => if k.1 = c.1 then 1 else 0)
    r1 r3 p.eps).bind fun J AJ ⟨rJ, hJn⟩ => ?_
  refine (Batched.iter (R := RepIp b s C F N S) (fun t a ht => ipEpochT_rep hs p.eps hM hX r3 r4 ht) p.nIter
    (a := fun β => ⟨_, _, _, _⟩) ⟨r2, r1, rJ, hS, hJn⟩).bind fun st A rst => ?_
  rcases hp : p.projBackMic with _ | mic
  · exact Batched.pure (a := fun β => (⟨s, ⟨(A β).Y, (A β).ms⟩⟩ : Σ s : ℕ, IpOut σ s F N))
      ⟨fun β => ⟨(A β).Y, (A β).ms⟩, fun _ => rfl, rst.Y, rst.ms⟩
  · dsimp only
    have := (projectionBackDemixingT_rep hs rst.Y rst.W rst.J rst.noJ mic (hmic mic (by simp [hp])))
    refine ((this.bind (k := fun Y => .ok (⟨Y, st.ms⟩ : IpOutT τ))
      (k' := fun β Y => .ok (⟨s, Y, (A β).ms⟩ : Σ s : ℕ, IpOut σ s F N))
      fun Y AY rY => Batched.pure
        (a := fun β => (⟨s, ⟨AY β, (A β).ms⟩⟩ : Σ s : ℕ, IpOut σ s F N)) ⟨fun β => ⟨AY β, (A β).ms⟩, fun _ => rfl, rY, rst.ms⟩)).congr
      fun β hβ => ?_
    cases (seqAll fun f => projectionBackDemixing ((A β).W f) ((A β).J f) mic) <;> rfl

end Torchiva
