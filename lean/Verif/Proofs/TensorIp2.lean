import Verif.Model.TensorIp2
import Verif.Proofs.TensorFive
import Verif.Proofs.TensorWpe

/-! AuxIVA-IP2 on tensors. -/

namespace Torchiva

set_option linter.unusedSimpArgs false

attribute [local simp] ok_bind' err_bind' pure_ok' comb_self comb_one_left comb_one_right bcast_self
  bcast_nil_left bcast_nil_right bcast_cons bcastTo sel pick onDim unsq swap01 swap12 move13
  reduceKeep maxKeep reduce bindLabel bindOp bindOps einsum matmul eighS List.lookup catS
  Ten.map Ten.map2 Ten.read bIdx sumOver opIdx einsumT bnat bIdx_inside Ten.swapIdx01 Ten.swapIdx12 Ten.moveIdx13

variable {b : Shape} {F N : ℕ} {τ σ : Type}

theorem stack2_rep0 {α : Type} {t u : Ten α} {A B : List ℕ → α} (h : Rep0 b t A) (h' : Rep0 b u B) :
    ∃ r, Ten.stack2 t u = .ok r ∧ Rep1 b 2 r fun β => ![A β, B β] := by
  simp [Ten.stack2, h.shape, h'.shape]
  refine ⟨by simp [h.shape], fun β hβ i hi => ?_⟩
  match i, hi with
  | 0, _ => simp [h.val β hβ]
  | 1, _ => simp [h'.val β hβ]

theorem stack2_rep1 {α : Type} {t u : Ten α} {A B : List ℕ → Fin 2 → α} (h : Rep1 b 2 t A) (h' : Rep1 b 2 u B) :
    ∃ r, Ten.stack2 t u = .ok r ∧ Rep2 b 2 2 r fun β i j => (![A β, B β] : Fin 2 → Fin 2 → α) j i := by
  simp [Ten.stack2, h.shape, h'.shape]
  refine ⟨by simp [h.shape], fun β hβ i hi j hj => ?_⟩
  match j, hj with
  | 0, _ => simp [h.val β hβ i hi]
  | 1, _ => simp [h'.val β hβ i hi]

theorem inv2x2T_rep {W : Ten ℂ} {AW : List ℕ → Matrix (Fin 2) (Fin 2) ℂ} (hW : Rep2 b 2 2 W fun β i j => AW β i j)
    (eps : ℝ) : ∃ t, inv2x2T W eps = .ok t ∧ Rep2 b 2 2 t fun β i j => inv2x2Core (AW β) eps i j := by
  classical
  unfold inv2x2T
  rw [if_neg (by simp [hW.shape])]
  obtain ⟨W11, e, h11⟩ := at2_rep hW (i := 0) (j := 0) (by norm_num) (by norm_num)
  rw [e, ok_bind']; clear e
  obtain ⟨W21, e, h21⟩ := at2_rep hW (i := 1) (j := 0) (by norm_num) (by norm_num)
  rw [e, ok_bind']; clear e
  obtain ⟨W12, e, h12⟩ := at2_rep hW (i := 0) (j := 1) (by norm_num) (by norm_num)
  rw [e, ok_bind']; clear e
  obtain ⟨W22, e, h22⟩ := at2_rep hW (i := 1) (j := 1) (by norm_num) (by norm_num)
  rw [e, ok_bind']; clear e
  obtain ⟨p, e, hp⟩ := h11.map2 h22 fun x y => x * y
  rw [e, ok_bind']; clear e
  obtain ⟨q, e, hq⟩ := h12.map2 h21 fun x y => x * y
  rw [e, ok_bind']; clear e
  obtain ⟨det, e, hdet⟩ := hp.map2 hq fun x y => x - y
  rw [e, ok_bind']; clear e
  dsimp only
  obtain ⟨c0, e, hc0⟩ := stack2_rep0 h22 (h21.map fun x => -x)
  rw [e, ok_bind']; clear e
  obtain ⟨c1, e, hc1⟩ := stack2_rep0 (h12.map fun x => -x) h11
  rw [e, ok_bind']; clear e
  obtain ⟨adj, e, hadj⟩ := stack2_rep1 hc0 hc1
  rw [e, ok_bind']; clear e
  obtain ⟨d, e, hd⟩ := unsq0_rep (hdet.map fun d => if ‖d‖ < eps then (eps : ℂ) else d)
  rw [e, ok_bind']; clear e
  obtain ⟨d, e, hd⟩ : ∃ t, d.unsq 0 = .ok t ∧ Rep2 b 1 1 t fun β _ _ =>
      (if ‖AW β 0 0 * AW β 1 1 - AW β 0 1 * AW β 1 0‖ < eps then (eps : ℂ)
        else AW β 0 0 * AW β 1 1 - AW β 0 1 * AW β 1 0) := by
    simp only [Ten.unsq, unsq, hd.shape, ok_bind']
    refine ⟨_, rfl, rfl, fun β hβ i hi j hj => ?_⟩
    exact hd.val β hβ i hi
  rw [e, ok_bind']; clear e
  simp [hadj.shape, hd.shape]
  refine ⟨rfl, fun β hβ i hi j hj => ?_⟩
  simp [hβ, hi, hj, hadj.val, hd.val, inv2x2Core]

theorem ip2CovT_rep {Xo : Ten ℂ} {w : Ten ℝ} {AX : List ℕ → Sig 2 F N} {Aw : List ℕ → Weights 2 F N}
    (hX : Rep3 b 2 F N Xo AX) (hw : Rep3 b 2 F N w Aw) (k : Fin 2) :
    ∃ t, ip2CovT Xo w k = .ok t ∧ Rep3 b F 2 2 t fun β f i j => ip2Cov (fun c => AX β c f) (Aw β k f) i j := by
  unfold ip2CovT
  obtain ⟨wk, e, hwk⟩ : ∃ t, w.sel 2 k = .ok t ∧ Rep2 b F N t fun β => Aw β k := by
    have hk : (k : ℕ) < 2 := k.2
    simp [Ten.sel, hw.shape, hk]
    refine ⟨rfl, fun β hβ i hi j hj => ?_⟩
    simp [hw.val β hβ k hk i hi j hj]
  rw [e, ok_bind']; clear e
  obtain ⟨V, e, hV⟩ : ∃ t, einsumT [("fn", wk.toC), ("cfn", Xo), ("dfn", Xo.map star)] "fcd" = .ok t ∧
      Rep3 b F 2 2 t fun β f i j => ∑ n, (Aw β k f n : ℂ) * AX β i f n * star (AX β j f n) := by
    simp [Ten.toC, hwk.shape, hX.shape]
    refine ⟨rfl, fun β hβ f hf i hi j hj => ?_⟩
    simp [hβ, hf, hi, hj, hwk.val, hX.val, mul_assoc]
  rw [e, ok_bind']; clear e
  simp only [hX.shape, List.headD_cons]
  exact hermitizeT_rep3 (V := V.map fun z => z / (N : ℂ)) (AV := fun β f => Matrix.of fun i j =>
    (∑ n, (Aw β k f n : ℂ) * AX β i f n * star (AX β j f n)) / (N : ℂ)) ⟨hV.shape, fun β hβ f hf i hi j hj => by
      simp [hV.val β hβ f hf i hi j hj]⟩

theorem ip2ScaleT_rep {V vec : Ten ℂ} {AV Av : List ℕ → Matrix (Fin 2) (Fin 2) ℂ} (hV : Rep2 b 2 2 V fun β i j => AV β i j)
    (hv : Rep2 b 2 2 vec fun β i j => Av β i j) (k : Fin 2) :
    ∃ t, ip2ScaleT V vec k = .ok t ∧ Rep2 b 1 1 t fun β _ _ =>
      ‖∑ i, star (Av β i k) * ∑ j, AV β i j * Av β j k‖ := by
  unfold ip2ScaleT
  obtain ⟨ek, e, hek⟩ : ∃ t, vec.sel 0 k = .ok t ∧ Rep1 b 2 t fun β i => Av β i k := by
    have hk : (k : ℕ) < 2 := k.2
    simp [Ten.sel, hv.shape, hk]
    refine ⟨rfl, fun β hβ i hi => ?_⟩
    simp [hv.val β hβ i hi k hk]
  rw [e, ok_bind']; clear e
  obtain ⟨row, e, hrow⟩ : ∃ t, ek.unsq 1 = .ok t ∧ Rep2 b 1 2 t fun β _ i => Av β i k := by
    simp [Ten.unsq, hek.shape]
    refine ⟨rfl, fun β hβ i hi j hj => ?_⟩
    simp [hek.val β hβ j hj]
  rw [e, ok_bind']; clear e
  obtain ⟨col, e, hcol⟩ : ∃ t, ek.unsq 0 = .ok t ∧ Rep2 b 2 1 t fun β i _ => Av β i k := by
    simp [Ten.unsq, hek.shape]
    refine ⟨rfl, fun β hβ i hi j hj => ?_⟩
    simp [hek.val β hβ i hi]
  rw [e, ok_bind']; clear e
  obtain ⟨Vc, e, hVc⟩ := mul2_rep hV (AB := fun β => Matrix.of fun i (_ : Fin 1) => Av β i k) hcol
  rw [e, ok_bind']; clear e
  obtain ⟨s, e, hs⟩ := mul2_rep (AA := fun β => Matrix.of fun (_ : Fin 1) i => star (Av β i k)) (hrow.map star) hVc
  rw [e, ok_bind']; clear e
  refine ⟨_, rfl, (hs.map _).shape, fun β hβ i hi j hj => ?_⟩
  rw [(hs.map fun z => ‖z‖).val β hβ i hi j hj]
  simp only [Matrix.mul_apply, Matrix.of_apply]

theorem ip2EigT_rep {V0 V1 : Ten ℂ} {A0 A1 : List ℕ → Matrix (Fin 2) (Fin 2) ℂ} (h0 : Rep2 b 2 2 V0 fun β i j => A0 β i j)
    (h1 : Rep2 b 2 2 V1 fun β i j => A1 β i j) (eps : ℝ) :
    Batched b (fun t (a : List ℕ → Matrix (Fin 2) (Fin 2) ℂ) => Rep2 b 2 2 t fun β i j => a β i j)
      (ip2EigT V0 V1 eps) fun β => ip2Eig ![A0 β, A1 β] eps := by
  unfold ip2EigT ip2Eig
  have he : Batched b (RepEig b 2) (eigh2x2T V1 (some V0) eps) fun β => eigh2x2Gen (A1 β) (A0 β) eps := by
    simp only [eigh2x2T, h0.shape, h1.shape, List.getD_cons_zero, List.getD_cons_succ, and_self, if_true]
    exact eigh2x2GenT_rep (by simp [h0.shape, h1.shape])
      ⟨rfl, fun β hβ i hi j hj => by simp [h1.shape, hβ, hi, hj, h1.val]⟩
      ⟨rfl, fun β hβ i hi j hj => by simp [h0.shape, hβ, hi, hj, h0.val]⟩ eps
  refine he.bind (k' := fun β (r : EigRes (Fin 2)) => (.ok (Matrix.of fun i k => r.vec i (1 - k) /
    ((clampMin (√(clampMin ‖∑ i', star (r.vec i' (1 - k)) * ∑ j, (![A0 β, A1 β] : Fin 2 → Matrix (Fin 2) (Fin 2) ℂ) k i' j *
      r.vec j (1 - k)‖ 1e-7)) eps : ℝ) : ℂ)) : Except Err (Matrix (Fin 2) (Fin 2) ℂ))) fun r a hr => ?_
  have hrev : ∀ j : Fin 2, j.rev = 1 - j := by decide
  have hvec : Rep2 b 2 2 r.vec.flip0 fun β i j => (Matrix.of fun i (j : Fin 2) => (a β).vec i (1 - j)) i j := by
    have := flip0_rep hr.vec
    refine ⟨this.shape, fun β hβ i hi j hj => ?_⟩
    rw [this.val β hβ i hi j hj, hrev]
    rfl
  dsimp only
  obtain ⟨s0, e, hs0⟩ := ip2ScaleT_rep h0 hvec 0
  rw [show ((0 : Fin 2) : ℕ) = 0 from rfl] at e
  rw [e, ok_bind']; clear e
  obtain ⟨s1, e, hs1⟩ := ip2ScaleT_rep h1 hvec 1
  rw [show ((1 : Fin 2) : ℕ) = 1 from rfl] at e
  rw [e, ok_bind']; clear e
  obtain ⟨sc, e, hsc⟩ : ∃ t, Ten.cat 0 s0 s1 = .ok t ∧ Rep2 b 1 2 t fun β _ k =>
      ‖∑ i', star ((a β).vec i' (1 - k)) * ∑ j, (![A0 β, A1 β] : Fin 2 → Matrix (Fin 2) (Fin 2) ℂ) k i' j *
      (a β).vec j (1 - k)‖ := by
    simp [Ten.cat, hs0.shape, hs1.shape]
    refine ⟨rfl, fun β hβ i hi j hj => ?_⟩
    match j, hj with
    | 0, _ => simp [hs0.val β hβ i hi 0 Nat.one_pos]
    | 1, _ => simp [hs1.val β hβ i hi 0 Nat.one_pos]
  rw [e, ok_bind']; clear e
  refine .of_ok ?_
  simp [Ten.toC, hvec.shape, hsc.shape]
  refine ⟨rfl, fun β hβ i hi j hj => ?_⟩
  simp [hβ, hi, hj, hvec.val, hsc.val]

theorem onlyErr_ip2Eig (V : Fin 2 → Matrix (Fin 2) (Fin 2) ℂ) (eps : ℝ) : OnlyErr .nonFinite (ip2Eig V eps) := by
  unfold ip2Eig
  refine OnlyErr.bind ?_ fun _ => .ok _
  simp only [eigh2x2, and_self, dite_true, eigh2x2Gen, normalizeCols]
  split_ifs
  · exact fun e he => (Except.error.inj he).symm
  · exact fun e he => (Except.error.inj he).symm
  · exact .ok _

/-- The demixing matrices of the tensor program: absent without projection back, otherwise those of the items. -/
def RepWA (b : Shape) (F : ℕ) (proj : Bool) (W A : Option (Ten ℂ)) (AA : List ℕ → Fin F → Matrix (Fin 2) (Fin 2) ℂ) : Prop :=
  match proj with
  | false => W = none ∧ A = none
  | true => ∃ w t, W = some w ∧ A = some t ∧ Rep3 b F 2 2 t fun β f i j => AA β f i j

/-- The states of the items. -/
structure RepIp2 (b : Shape) (F N : ℕ) (proj : Bool) (S : τ → (List ℕ → σ) → Prop) (st : Ip2T τ)
    (A : List ℕ → Ip2State σ F N) : Prop where
  X : Rep3 b 2 F N st.X fun β => (A β).X
  wa : RepWA b F proj st.W st.A fun β => (A β).A
  ms : S st.ms fun β => (A β).ms

theorem ip2EigT_rep3 {V0 V1 : Ten ℂ} {A0 A1 : List ℕ → Fin F → Matrix (Fin 2) (Fin 2) ℂ}
    (h0 : Rep3 b F 2 2 V0 fun β f i j => A0 β f i j) (h1 : Rep3 b F 2 2 V1 fun β f i j => A1 β f i j) (eps : ℝ) :
    Batched b (fun t (a : List ℕ → Fin F → Matrix (Fin 2) (Fin 2) ℂ) => Rep3 b F 2 2 t fun β f i j => a β f i j)
      (ip2EigT V0 V1 eps) fun β => seqAll fun f => ip2Eig ![A0 β f, A1 β f] eps := by
  have h := (ip2EigT_rep (A0 := fun γ => Matrix.of (joinF (fun _ _ => 0) (fun β f i j => A0 β f i j) γ))
    (A1 := fun γ => Matrix.of (joinF (fun _ _ => 0) (fun β f i j => A1 β f i j) γ)) h0.join h1.join eps).seq1
    (b := b) (F := F)
    (R' := fun t (a : List ℕ → Fin F → Matrix (Fin 2) (Fin 2) ℂ) => Rep3 b F 2 2 t fun β f i j => a β f i j)
    (fun γ => onlyErr_ip2Eig _ _) fun t a h => h.split
  simp only [joinF_cons] at h
  exact h

theorem inv2x2T_rep3 {W : Ten ℂ} {AW : List ℕ → Fin F → Matrix (Fin 2) (Fin 2) ℂ}
    (hW : Rep3 b F 2 2 W fun β f i j => AW β f i j) (eps : ℝ) :
    ∃ t, inv2x2T W eps = .ok t ∧ Rep3 b F 2 2 t fun β f i j => inv2x2Core (AW β f) eps i j := by
  obtain ⟨t, e, ht⟩ := inv2x2T_rep (AW := fun γ => Matrix.of (joinF (fun _ _ => 0) (fun β f i j => AW β f i j) γ)) hW.join eps
  refine ⟨t, e, ht.shape, fun β hβ f hf i hi j hj => ?_⟩
  rw [ht.val (f :: β) ⟨hf, hβ⟩ i hi j hj]
  have : (Matrix.of (joinF (fun _ _ => 0) (fun β f i j => AW β f i j) (f :: β)) : Matrix (Fin 2) (Fin 2) ℂ) = AW β ⟨f, hf⟩ := by
    ext i j
    simp [joinF, hf]
  rw [this]

theorem hermiteT_rep3 {p q : ℕ} {W : Ten ℂ} {AW : List ℕ → Fin F → Matrix (Fin p) (Fin q) ℂ}
    (hW : Rep3 b F p q W fun β f i j => AW β f i j) :
    ∃ t, hermiteT W = .ok t ∧ Rep3 b F q p t fun β f i j => (AW β f).conjTranspose i j := by
  simp [hermiteT, Ten.swap01, hW.shape]
  refine ⟨rfl, fun β hβ f hf i hi j hj => ?_⟩
  simp [hβ, hf, hi, hj, hW.val]

theorem ip2UpdateT_rep {Xo : Ten ℂ} {w : Ten ℝ} {AX : List ℕ → Sig 2 F N} {Aw : List ℕ → Weights 2 F N}
    (hX : Rep3 b 2 F N Xo AX) (hw : Rep3 b 2 F N w Aw) (proj : Bool) {W A : Option (Ten ℂ)} {AA}
    (hA : RepWA b F proj W A AA) (eps : ℝ) :
    Batched b (fun t (a : List ℕ → Fin F → Matrix (Fin 2) (Fin 2) ℂ) =>
        Rep3 b 2 F N t.1 (fun β c f n => ∑ d, a β f c d * AX β d f n) ∧
        RepWA b F proj t.2.1 t.2.2 fun β f => inv2x2Core (a β f) 1e-6)
      (ip2UpdateT Xo w W A eps) fun β =>
      seqAll fun f => ip2Update (fun c => AX β c f) (fun k => Aw β k f) eps := by
  unfold ip2UpdateT
  rw [if_pos (by simp [hX.shape])]
  obtain ⟨V0, e, h0⟩ := ip2CovT_rep hX hw 0
  rw [show ((0 : Fin 2) : ℕ) = 0 from rfl] at e
  rw [e, ok_bind']; clear e
  obtain ⟨V1, e, h1⟩ := ip2CovT_rep hX hw 1
  rw [show ((1 : Fin 2) : ℕ) = 1 from rfl] at e
  rw [e, ok_bind']; clear e
  refine Batched.congr (y := fun β => seqAll (fun f => ip2Eig ![ip2Cov (fun c => AX β c f) (Aw β 0 f),
    ip2Cov (fun c => AX β c f) (Aw β 1 f)] eps) >>= fun a => .ok fun f => (a f).conjTranspose) ?_ fun β _ => ?_
  · refine (ip2EigT_rep3 h0 h1 eps).bind (k' := fun _ a => .ok fun f => (a f).conjTranspose) fun E a hE => ?_
    obtain ⟨EH, e, hEH⟩ := hermiteT_rep3 hE
    rw [e, ok_bind']; clear e
    obtain ⟨X, eX, hX'⟩ : ∃ t, einsumT [("fcd", EH), ("dfn", Xo)] "cfn" = .ok t ∧
        Rep3 b 2 F N t fun β c f n => ∑ d, (a β f).conjTranspose c d * AX β d f n := by
      simp only [einsumT, einsum, bindOps, bindOp, bindLabel]
      simp [hEH.shape, hX.shape]
      refine ⟨rfl, fun β hβ c hc f hf n hn => ?_⟩
      simp [hβ, hf, hc, hn, hEH.val, hX.val]
    cases proj with
    | false =>
      obtain ⟨rfl, rfl⟩ := hA
      dsimp only
      rw [ok_bind', eX, ok_bind']
      exact .pure (a := fun β f => (a β f).conjTranspose) ⟨hX', rfl, rfl⟩
    | true =>
      obtain ⟨w, t, rfl, rfl, _⟩ := hA
      dsimp only
      obtain ⟨Ai, e, hAi⟩ := inv2x2T_rep3 hEH 1e-6
      rw [e, ok_bind', ok_bind', eX, ok_bind']
      exact .pure (a := fun β f => (a β f).conjTranspose) ⟨hX', _, _, rfl, rfl, hAi⟩
  · refine (seqAll_then (g := fun E => E.conjTranspose) (fun f => onlyErr_ip2Eig _ _) fun f => ?_).symm
    unfold ip2Update
    have : (fun k => ip2Cov (fun c => AX β c f) (Aw β k f)) = ![ip2Cov (fun c => AX β c f) (Aw β 0 f),
        ip2Cov (fun c => AX β c f) (Aw β 1 f)] := by
      ext k : 1
      fin_cases k <;> rfl
    rw [this]
    rfl

theorem ip2EpochT_rep (proj : Bool) {M : TenModel τ} {m : SourceModel σ F N} {S : τ → (List ℕ → σ) → Prop}
    (hM : ModelRep b 2 F N M m S) (eps : ℝ) {Xo : Ten ℂ} {AX : List ℕ → Sig 2 F N} (hX : Rep3 b 2 F N Xo AX)
    {st : Ip2T τ} {A : List ℕ → Ip2State σ F N} (h : RepIp2 b F N proj S st A) :
    Batched b (RepIp2 b F N proj S) (ip2EpochT Xo M eps st) fun β => ip2Epoch (AX β) m eps (A β) := by
  unfold ip2EpochT ip2Epoch
  obtain ⟨w, e, hw, hS⟩ := hM st.ms _ st.X _ h.ms h.X
  rw [e, ok_bind']; clear e
  obtain ⟨q, e, hq⟩ : ∃ q1, Ten.sumKeep 0 (magSqT st.X) = .ok q1 ∧
      Rep3 b 2 F 1 q1 fun β k f _ => ∑ n, magSq ((A β).X k f n) := by
    simp [Ten.sumKeep, magSqT, h.X.shape]
    refine ⟨rfl, fun β hβ i hi j hj k hk => ?_⟩
    simp [Finset.sum_range, hβ, hi, hj, h.X.val, magSq, magSqE]
  rw [e, ok_bind']; clear e
  obtain ⟨q, e, hq⟩ : ∃ q2, q.sumKeep 1 = .ok q2 ∧
      Rep3 b 2 1 1 q2 fun β k _ _ => ∑ f, ∑ n, magSq ((A β).X k f n) := by
    simp [Ten.sumKeep, hq.shape]
    refine ⟨rfl, fun β hβ i hi j hj k hk => ?_⟩
    simp [Finset.sum_range, hβ, hi, hk, hq.val]
  rw [e, ok_bind']; clear e
  dsimp only
  simp only [h.X.shape, List.getD_cons_zero, List.getD_cons_succ]
  obtain ⟨wt, e, hwt⟩ : ∃ t, Ten.map2 (fun x y => x * y) w.1 (q.map fun x => clampMin (x / ((F : ℝ) * (N : ℝ))) 1e-5) = .ok t ∧
      Rep3 b 2 F N t fun β k f n => (m 2 (A β).ms (A β).X).1 k f n *
        clampMin ((∑ f, ∑ n, magSq ((A β).X k f n)) / (F * N)) 1e-5 := by
    simp [hw.shape, hq.shape]
    refine ⟨rfl, fun β hβ i hi j hj k hk => ?_⟩
    simp [hβ, hi, hj, hk, hw.val, hq.val]
  rw [e, ok_bind']; clear e
  refine (ip2UpdateT_rep hX hwt proj h.wa eps).bind fun r a hr => ?_
  exact .pure (R := RepIp2 b F N proj S) (a := fun β => (⟨fun c f n => ∑ d, a β f c d * AX β d f n, a β,
    fun f => inv2x2Core (a β f) 1e-6, (m 2 (A β).ms (A β).X).2⟩ : Ip2State σ F N)) ⟨hr.1, hr.2, hS⟩

theorem auxiva2ForwardT_rep (nIter : ℕ) (pb : Option ℤ) (eps : ℝ) {C : ℕ} {M : TenModel τ}
    {m : SourceModel σ F N} {S : τ → (List ℕ → σ) → Prop} (hM : ModelRep b 2 F N M m S) {reset : τ → τ} {reset' : σ → σ}
    {ts : τ} {ms : List ℕ → σ} (hS : S (reset ts) fun β => reset' (ms β)) {X : Ten ℂ} {AX : List ℕ → Sig C F N}
    (hX : Rep3 b C F N X AX) (hb : ∃ β, Inside β b) :
    Batched b (fun t (a : List ℕ → Sig 2 F N) => Rep3 b 2 F N t a) (auxiva2ForwardT nIter pb eps M reset ts X) fun β =>
      auxiva2Forward nIter pb eps (AX β) m reset' (ms β) := by
  obtain ⟨β0, hβ0⟩ := hb
  unfold auxiva2ForwardT auxiva2Forward
  simp only [hX.shape]
  by_cases hC : C = 2
  · subst hC
    simp only [if_pos, dif_pos, Fin.cast_refl, id]
    rcases pb with _ | mic
    · simp only [Option.mem_def, reduceCtorEq, false_implies, implies_true, if_true]
      refine (Batched.iter (R := RepIp2 b F N false S) (fun t a ht => ip2EpochT_rep false hM eps hX ht) nIter
        (t := (⟨X, none, none, reset ts⟩ : Ip2T τ))
        (a := fun β => (⟨AX β, fun _ => 1, fun _ => 1, reset' (ms β)⟩ : Ip2State σ F N)) ⟨hX, ⟨rfl, rfl⟩, hS⟩).bind
        fun st a ha => ?_
      exact .pure (R := fun t (a : List ℕ → Sig 2 F N) => Rep3 b 2 F N t a) (a := fun β => (a β).X) ha.X
    · simp only [Option.mem_def, Option.some.injEq, forall_eq']
      by_cases hm : 0 ≤ mic ∧ mic < ((2 : ℕ) : ℤ)
      · simp only [if_pos hm]
        obtain ⟨W, e, hW⟩ : ∃ t, (Ten.eye 2 2).expand (2 :: 2 :: F :: b) = .ok t ∧
            Rep3 b F 2 2 t fun β f i j => (1 : Matrix (Fin 2) (Fin 2) ℂ) i j := by
          simp [Ten.eye, Ten.expand]
          refine ⟨rfl, fun β hβ f hf i hi j hj => ?_⟩
          simp [Matrix.one_apply, hi, hj]
        rw [e, ok_bind']; clear e
        refine (Batched.iter (R := RepIp2 b F N true S) (fun t a ht => ip2EpochT_rep true hM eps hX ht) nIter
          (t := (⟨X, some W, some W, reset ts⟩ : Ip2T τ))
          (a := fun β => (⟨AX β, fun _ => 1, fun _ => 1, reset' (ms β)⟩ : Ip2State σ F N)) ⟨hX, ⟨_, _, rfl, rfl, hW⟩, hS⟩).bind
          fun st a ha => ?_
        by_cases hn : 0 < nIter
        · simp only [if_pos hn]
          obtain ⟨w, A, _, hA, rA⟩ := ha.wa
          rw [hA]
          dsimp only
          refine .of_ok (a := fun β c f n => (a β).A f (if mic = 0 then 0 else 1) c * (a β).X c f n) ?_
          have hk : mic.toNat < 2 := by omega
          have hmk : (⟨mic.toNat, hk⟩ : Fin 2) = if mic = 0 then 0 else 1 := by
            obtain rfl | rfl : mic = 0 ∨ mic = 1 := by omega
            · rfl
            · rfl
          simp [Ten.pick, Ten.move13, rA.shape, ha.X.shape, hk]
          refine ⟨rfl, fun β hβ c hc f hf n hn => ?_⟩
          simp [hβ, hc, hf, hn, ha.X.val, rA.val β hβ f hf _ hk c hc, ← hmk]
        · simp only [if_neg hn]
          exact .pure (R := fun t (a : List ℕ → Sig 2 F N) => Rep3 b 2 F N t a) (a := fun β => (a β).X) ha.X
      · simp only [if_neg hm]
        exact ⟨β0, hβ0, rfl⟩
  · simp only [if_neg hC, dif_neg hC]
    exact ⟨β0, hβ0, rfl⟩

end Torchiva
