import Verif.Spec.TensorNmf
import Verif.Proofs.TensorScaling
import Verif.Proofs.TensorEigh
import Verif.Props.Models

/-! The NMF source model on tensors. -/

namespace Torchiva

set_option linter.unusedSimpArgs false

attribute [local simp] ok_bind' err_bind' pure_ok' comb_self comb_one_left comb_one_right bcast_self
  bcast_nil_left bcast_nil_right bcast_cons bcastTo sel pick onDim unsq swap01 swap12 move13
  reduceKeep maxKeep reduce bindLabel bindOp bindOps einsum matmul eighS List.lookup catS
  Ten.map Ten.map2 Ten.read bIdx sumOver opIdx einsumT bnat bIdx_inside Ten.swapIdx01 Ten.swapIdx12

variable {b : Shape} {s F N K M : ℕ}

theorem flat_unflat {s : Shape} {k : ℕ} (h : k < numel s) : flatIdx s (unflatIdx s k) = k := by
  induction s generalizing k with
  | nil => simp [numel] at h; simp [flatIdx, unflatIdx, h]
  | cons n s ih =>
    simp only [numel, List.prod_cons] at h
    simp only [flatIdx, unflatIdx]
    rw [ih (Nat.div_lt_of_lt_mul h)]
    exact Nat.mod_add_div k n

/-- The values of the sources of the items, seen on the flattened dimension. -/
def flatF {δ : Type} (b : Shape) (d : δ) (G : List ℕ → Fin s → δ) : List ℕ → δ :=
  fun γ => joinF d G (unflatIdx (s :: b) (γ.headD 0))

theorem flatF_at {δ : Type} (d : δ) (G : List ℕ → Fin s → δ) {β : List ℕ} (hβ : Inside β b) (c : Fin s) :
    flatF b d G [flatIdx (s :: b) ((c : ℕ) :: β)] = G β c := by
  simp only [flatF, List.headD_cons]
  rw [unflat_flat (b := s :: b) (β := (c : ℕ) :: β) ⟨c.2, hβ⟩]
  simp

theorem rep_of_flat {p q : ℕ} {t : Ten ℝ} {G : List ℕ → Fin s → Fin p → Fin q → ℝ}
    (hs : t.shape = [q, p, numel (s :: b)])
    (hv : ∀ β, Inside β b → ∀ c i j, t.val [(j : Fin q), (i : Fin p), flatIdx (s :: b) ((c : Fin s) :: β)] = G β c i j) :
    Rep2 [numel (s :: b)] p q t (flatF b (fun _ _ => 0) G) := by
  refine ⟨hs, fun γ hγ i hi j hj => ?_⟩
  match γ, hγ with
  | [m], hγ =>
    have h1 := flat_unflat hγ.1
    have h2 := unflat_inside hγ.1
    generalize hu : unflatIdx (s :: b) m = u at h1 h2
    match u, h2 with
    | c :: β, h2 =>
      have := hv β h2.2 ⟨c, h2.1⟩ ⟨i, hi⟩ ⟨j, hj⟩
      simp only at this
      rw [h1] at this
      rw [this]
      simp only [flatF, List.headD_cons, hu, joinF, dif_pos h2.1]

theorem bmm_rep {p q r : ℕ} {A B : Ten ℝ} {AA : List ℕ → Fin p → Fin q → ℝ} {AB : List ℕ → Fin q → Fin r → ℝ}
    (hA : Rep2 [M] p q A AA) (hB : Rep2 [M] q r B AB) :
    ∃ t, Ten.bmm A B = .ok t ∧ Rep2 [M] p r t fun γ i k => ∑ j, AA γ i j * AB γ j k := by
  rw [Ten.bmm, if_pos (by simp [hA.shape, hB.shape])]
  simp [Ten.matmul, hA.shape, hB.shape]
  refine ⟨rfl, fun γ hγ i hi j hj => ?_⟩
  match γ, hγ with
  | [m], hγ =>
    simp only [Finset.sum_range]
    refine Finset.sum_congr rfl fun l _ => ?_
    have h1 := hA.val [m] hγ i hi l l.2
    have h2 := hB.val [m] hγ l l.2 j hj
    simp [hi, hj, bnat hγ.1, h1, h2]

theorem swap01_rep {p q : ℕ} {A : Ten ℝ} {AA : List ℕ → Fin p → Fin q → ℝ} (hA : Rep2 b p q A AA) :
    ∃ t, A.swap01 = .ok t ∧ Rep2 b q p t fun γ i j => AA γ j i := by
  simp [Ten.swap01, hA.shape]
  refine ⟨rfl, fun γ hγ i hi j hj => ?_⟩
  simp [hγ, hi, hj, hA.val]

theorem nmfRecomputeTT_rep (eps : ℝ) {T V : Ten ℝ} {AT : List ℕ → Fin F → Fin K → ℝ} {AV : List ℕ → Fin N → Fin K → ℝ}
    (hT : Rep2 [M] F K T AT) (hV : Rep2 [M] N K V AV) :
    ∃ t, nmfRecomputeTT eps T V = .ok t ∧ t.T = T ∧ t.V = V ∧
      Rep2 [M] F N t.iR fun γ f n => (clampMin (∑ k, AT γ f k * AV γ n k) eps)⁻¹ := by
  unfold nmfRecomputeTT
  obtain ⟨Vt, e, hVt⟩ := swap01_rep hV
  rw [e, ok_bind']; clear e
  obtain ⟨R, e, hR⟩ := bmm_rep hT hVt
  rw [e, ok_bind']; clear e
  refine ⟨_, rfl, rfl, rfl, hR.shape, fun γ hγ i hi j hj => ?_⟩
  simp [hR.val γ hγ i hi j hj]

theorem nmfFactorT_rep (eps : ℝ) {p q : ℕ} {P iR U W : Ten ℝ} {AP AR : List ℕ → Fin p → Fin q → ℝ}
    {AU : List ℕ → Fin q → Fin K → ℝ} {AW : List ℕ → Fin p → Fin K → ℝ} (hP : Rep2 [M] p q P AP)
    (hR : Rep2 [M] p q iR AR) (hU : Rep2 [M] q K U AU) (hW : Rep2 [M] p K W AW)
    (hd : ∀ γ, Inside γ [M] → ∀ i k, ∑ j, AR γ i j * AU γ j k ≠ 0) :
    ∃ t, nmfFactorT eps P iR U W = .ok t ∧ Rep2 [M] p K t fun γ i k =>
      clampMin (AW γ i k * √((∑ j, AP γ i j * AR γ i j ^ 2 * AU γ j k) / ∑ j, AR γ i j * AU γ j k)) eps := by
  unfold nmfFactorT
  obtain ⟨PR, e, hPR⟩ := hP.map2 (hR.map fun x => x ^ 2) fun x y => x * y
  rw [e, ok_bind']; clear e
  obtain ⟨num, e, hn⟩ := bmm_rep hPR hU
  rw [e, ok_bind']; clear e
  obtain ⟨den, e, hde⟩ := bmm_rep hR hU
  rw [e, ok_bind']; clear e
  obtain ⟨qq, e, hq⟩ : ∃ t, Ten.div num den = .ok t ∧ Rep2 [M] p K t fun γ i k =>
      (∑ j, AP γ i j * AR γ i j ^ 2 * AU γ j k) / ∑ j, AR γ i j * AU γ j k := by
    have h := div2_rep (b := [M]) (A := num) (D := den) (p := p) (q := K)
      (AA := fun γ i k => ∑ j, AP γ i j * AR γ i j ^ 2 * AU γ j k) (AD := fun γ i k => ∑ j, AR γ i j * AU γ j k) (by simp [hn.shape, hde.shape])
      (fun β hβ i hi j hj => by
        rw [Ten.read, hn.shape, bIdx_inside (b := K :: p :: [M]) (β := j :: i :: β) ⟨hj, hi, hβ⟩]; exact hn.val β hβ i hi j hj)
      (fun β hβ i hi j hj => by
        rw [Ten.read, hde.shape, bIdx_inside (b := K :: p :: [M]) (β := j :: i :: β) ⟨hj, hi, hβ⟩]; exact hde.val β hβ i hi j hj)
    obtain ⟨t, ht⟩ := h.total fun γ hγ => by
      rw [if_neg]
      · exact ⟨_, rfl⟩
      · rintro ⟨i, k, h0⟩
        exact hd γ hγ i k h0
    refine ⟨t, ht, ?_⟩
    rw [ht] at h
    obtain ⟨a, ha, h⟩ := h
    refine ⟨h.shape, fun γ hγ i hi j hj => ?_⟩
    rw [h.val γ hγ i hi j hj]
    have h1 := ha γ hγ
    beta_reduce at h1
    rw [if_neg (by rintro ⟨i, k, h0⟩; exact hd γ hγ i k h0)] at h1
    rw [← Except.ok.inj h1]
  rw [e, ok_bind']; clear e
  obtain ⟨W2, e, hW2⟩ := hW.map2 (hq.map fun x => √x) fun x y => x * y
  rw [e, ok_bind']; clear e
  exact ⟨_, rfl, hW2.map _⟩

/-- The two half-updates for one mixture. -/
noncomputable def nmfHalfT (eps : ℝ) (P : Fin s → Fin F → Fin N → ℝ) (st : NmfState s F N K) : NmfState s F N K :=
  nmfRecompute eps (fun c f k => clampMin (st.T c f k * √((∑ n, P c f n * st.iR c f n ^ 2 * st.V c n k) /
    ∑ n, st.iR c f n * st.V c n k)) eps) st.V

noncomputable def nmfHalfV (eps : ℝ) (P : Fin s → Fin F → Fin N → ℝ) (st : NmfState s F N K) : NmfState s F N K :=
  nmfRecompute eps st.T (fun c n k => clampMin (st.V c n k * √((∑ f, P c f n * st.iR c f n ^ 2 * st.T c f k) /
    ∑ f, st.iR c f n * st.T c f k)) eps)

theorem nmfGood_iR {eps : ℝ} (he : 0 < eps) {st : NmfState s F N K} (h : NmfGood eps st) (c f n) : 0 < st.iR c f n :=
  (Props.nmf_iR_pos (st := st) he h c f n).1

theorem nmfDenT [NeZero N] {eps : ℝ} (he : 0 < eps) {st : NmfState s F N K} (h : NmfGood eps st) (c f k) :
    ∑ n, st.iR c f n * st.V c n k ≠ 0 :=
  (Finset.sum_pos (fun n _ => mul_pos (nmfGood_iR he h c f n) (h.2.1 c n k)) Finset.univ_nonempty).ne'

theorem nmfDenV [NeZero F] {eps : ℝ} (he : 0 < eps) {st : NmfState s F N K} (h : NmfGood eps st) (c n k) :
    ∑ f, st.iR c f n * st.T c f k ≠ 0 :=
  (Finset.sum_pos (fun f _ => mul_pos (nmfGood_iR he h c f n) (h.1 c f k)) Finset.univ_nonempty).ne'

theorem nmfHalfT_good {eps : ℝ} (he : 0 < eps) (P : Fin s → Fin F → Fin N → ℝ) {st : NmfState s F N K}
    (h : NmfGood eps st) : NmfGood eps (nmfHalfT eps P st) :=
  ⟨fun _ _ _ => lt_of_lt_of_le he (le_max_right _ _), h.2.1, fun _ _ _ => rfl⟩

theorem nmfHalfV_good {eps : ℝ} (he : 0 < eps) (P : Fin s → Fin F → Fin N → ℝ) {st : NmfState s F N K}
    (h : NmfGood eps st) : NmfGood eps (nmfHalfV eps P st) :=
  ⟨h.1, fun _ _ _ => lt_of_lt_of_le he (le_max_right _ _), fun _ _ _ => rfl⟩

theorem nmfForward_eq [NeZero F] [NeZero N] {eps : ℝ} (he : 0 < eps) (uT : Fin s → Fin F → Fin K → ℝ)
    (uV : Fin s → Fin N → Fin K → ℝ) (st : Option (NmfState s F N K)) (X : Sig s F N)
    (h : NmfGood eps (st.getD (nmfInit eps uT uV))) :
    nmfForward eps uT uV st X = .ok ((nmfHalfV eps (fun c f n => magSq (X c f n)) (nmfHalfT eps
        (fun c f n => magSq (X c f n)) (st.getD (nmfInit eps uT uV)))).iR,
      some (nmfHalfV eps (fun c f n => magSq (X c f n)) (nmfHalfT eps (fun c f n => magSq (X c f n))
        (st.getD (nmfInit eps uT uV))))) := by
  unfold nmfForward
  have e1 : nmfUpdateT eps (fun c f n => magSq (X c f n)) (st.getD (nmfInit eps uT uV)) =
      .ok (nmfHalfT eps (fun c f n => magSq (X c f n)) (st.getD (nmfInit eps uT uV))) :=
    if_neg (by rintro ⟨c, f, k, h0⟩; exact nmfDenT he h c f k h0)
  have e2 : nmfUpdateV eps (fun c f n => magSq (X c f n)) (nmfHalfT eps (fun c f n => magSq (X c f n))
      (st.getD (nmfInit eps uT uV))) =
      .ok (nmfHalfV eps (fun c f n => magSq (X c f n)) (nmfHalfT eps (fun c f n => magSq (X c f n))
        (st.getD (nmfInit eps uT uV)))) :=
    if_neg (by rintro ⟨c, f, k, h0⟩; exact nmfDenV he (nmfHalfT_good he _ h) c f k h0)
  simp only [e1, e2, ok_bind']

/-- The factors of the batch on the flattened dimension. -/
structure NmfFlat (b : Shape) (t : NmfT) (a : List ℕ → NmfState s F N K) : Prop where
  T : Rep2 [numel (s :: b)] F K t.T (flatF b (fun _ _ => 0) fun β => (a β).T)
  V : Rep2 [numel (s :: b)] N K t.V (flatF b (fun _ _ => 0) fun β => (a β).V)
  iR : Rep2 [numel (s :: b)] F N t.iR (flatF b (fun _ _ => 0) fun β => (a β).iR)

theorem NmfHolds.flat {t : NmfT} {a : List ℕ → NmfState s F N K} (h : NmfHolds b t a) : NmfFlat b t a :=
  ⟨rep_of_flat h.shapeT h.T, rep_of_flat h.shapeV h.V, rep_of_flat h.shapeR h.iR⟩

theorem val_of_flat {p q : ℕ} {t : Ten ℝ} {G : List ℕ → Fin s → Fin p → Fin q → ℝ}
    (h : Rep2 [numel (s :: b)] p q t (flatF b (fun _ _ => 0) G)) {β : List ℕ} (hβ : Inside β b) (c : Fin s) (i : Fin p)
    (j : Fin q) : t.val [(j : ℕ), (i : ℕ), flatIdx (s :: b) ((c : ℕ) :: β)] = G β c i j := by
  have h1 := h.val [flatIdx (s :: b) ((c : ℕ) :: β)] ⟨flatIdx_lt (s := s :: b) (β := (c : ℕ) :: β) ⟨c.2, hβ⟩, trivial⟩
    i i.2 j j.2
  rw [h1, flatF_at _ _ hβ]

theorem NmfFlat.holds {t : NmfT} {a : List ℕ → NmfState s F N K} (h : NmfFlat b t a) : NmfHolds b t a :=
  ⟨h.T.shape, h.V.shape, h.iR.shape, fun _ hβ c f k => val_of_flat h.T hβ c f k,
    fun _ hβ c n k => val_of_flat h.V hβ c n k, fun _ hβ c f n => val_of_flat h.iR hβ c f n⟩

/-- A tensor on the flattened dimension, named by the values of the items. -/
theorem Rep2.flatNamed {p q : ℕ} {t : Ten ℝ} {A : List ℕ → Fin p → Fin q → ℝ} (h : Rep2 [numel (s :: b)] p q t A)
    {G : List ℕ → Fin s → Fin p → Fin q → ℝ}
    (e : ∀ β, Inside β b → ∀ c : Fin s, ∀ i j, A [flatIdx (s :: b) ((c : ℕ) :: β)] i j = G β c i j) :
    Rep2 [numel (s :: b)] p q t (flatF b (fun _ _ => 0) G) :=
  rep_of_flat h.shape fun β hβ c i j => by
    rw [h.val [flatIdx (s :: b) ((c : ℕ) :: β)] ⟨flatIdx_lt (s := s :: b) (β := (c : ℕ) :: β) ⟨c.2, hβ⟩, trivial⟩
      i i.2 j j.2, ← e β hβ c i j]

theorem flatF_nonzero {p q : ℕ} {A : List ℕ → Fin s → Fin p → Fin q → ℝ} {B : List ℕ → Fin s → Fin q → Fin K → ℝ}
    (h : ∀ β, Inside β b → ∀ c i k, ∑ j, A β c i j * B β c j k ≠ 0) {γ : List ℕ} (hγ : Inside γ [numel (s :: b)]) (i k) :
    ∑ j, flatF b (fun _ _ => 0) A γ i j * flatF b (fun _ _ => 0) B γ j k ≠ 0 := by
  match γ, hγ with
  | [m], hγ =>
    have h1 := flat_unflat hγ.1
    have h2 := unflat_inside hγ.1
    generalize unflatIdx (s :: b) m = u at h1 h2
    match u, h2 with
    | c :: β, h2 =>
      subst h1
      have e1 := flatF_at (b := b) (fun _ _ => 0) A h2.2 ⟨c, h2.1⟩
      have e2 := flatF_at (b := b) (fun _ _ => 0) B h2.2 ⟨c, h2.1⟩
      simp only at e1 e2
      simp only [e1, e2]
      exact h β h2.2 _ i k

theorem nmfInitT_rep (eps : ℝ) {ts : NmfModelT} {ms : List ℕ → NmfItem s F N K} (hS : NmfRep eps b ts ms) {P : Ten ℝ}
    (hP : P.shape = [N, F, numel (s :: b)]) :
    ∃ t, nmfInitT eps K ts P = .ok t ∧
      NmfFlat b t (fun β => (ms β).st.getD (nmfInit eps (ms β).uT (ms β).uV)) ∧
      ∀ β, Inside β b → NmfGood eps ((ms β).st.getD (nmfInit eps (ms β).uT (ms β).uV)) := by
  unfold nmfInitT
  rcases hS.st with ⟨h0, h1⟩ | ⟨t, a, h0, h1, h2⟩
  · rw [h0]
    simp only [hP]
    have hT : Rep2 [numel (s :: b)] F K ((⟨[K, F, numel (s :: b)], ts.uT⟩ : Ten ℝ).map fun x => 0.9 * x + 0.1)
        (flatF b (fun _ _ => 0) fun β c f k => 0.9 * (ms β).uT c f k + 0.1) :=
      rep_of_flat rfl fun β hβ c f k => by simp only [Ten.map, hS.uT β hβ c f k]
    have hV : Rep2 [numel (s :: b)] N K ((⟨[K, N, numel (s :: b)], ts.uV⟩ : Ten ℝ).map fun x => 0.9 * x + 0.1)
        (flatF b (fun _ _ => 0) fun β c f k => 0.9 * (ms β).uV c f k + 0.1) :=
      rep_of_flat rfl fun β hβ c f k => by simp only [Ten.map, hS.uV β hβ c f k]
    obtain ⟨t, e, eT, eV, hR⟩ := nmfRecomputeTT_rep eps hT hV
    refine ⟨t, e, ⟨?_, ?_, ?_⟩, fun β hβ => ?_⟩
    · rw [eT]
      exact hT.flatNamed fun β hβ c i j => by rw [flatF_at _ _ hβ, h1 β hβ]; rfl
    · rw [eV]
      exact hV.flatNamed fun β hβ c i j => by rw [flatF_at _ _ hβ, h1 β hβ]; rfl
    · exact hR.flatNamed fun β hβ c i j => by simp only [flatF_at _ _ hβ, h1 β hβ]; rfl
    · rw [h1 β hβ]
      exact Props.nmfInit_inv eps _ _ (hS.nonnegT β hβ) (hS.nonnegV β hβ)
  · rw [h0]
    have h3 := h1.flat
    refine ⟨t, rfl, ⟨?_, ?_, ?_⟩, fun β hβ => ?_⟩
    · exact h3.T.flatNamed fun β hβ c i j => by rw [flatF_at _ _ hβ, (h2 β hβ).1]; rfl
    · exact h3.V.flatNamed fun β hβ c i j => by rw [flatF_at _ _ hβ, (h2 β hβ).1]; rfl
    · exact h3.iR.flatNamed fun β hβ c i j => by rw [flatF_at _ _ hβ, (h2 β hβ).1]; rfl
    · rw [(h2 β hβ).1]
      exact (h2 β hβ).2

theorem nmfStepT_rep {eps : ℝ} (he : 0 < eps) [NeZero N] {P : Ten ℝ} {AP : List ℕ → Fin s → Fin F → Fin N → ℝ}
    (hP : Rep2 [numel (s :: b)] F N P (flatF b (fun _ _ => 0) AP)) {st : NmfT} {a : List ℕ → NmfState s F N K}
    (h : NmfFlat b st a) (hg : ∀ β, Inside β b → NmfGood eps (a β)) :
    ∃ T, nmfFactorT eps P st.iR st.V st.T = .ok T ∧ ∃ t, nmfRecomputeTT eps T st.V = .ok t ∧
      NmfFlat b t fun β => nmfHalfT eps (AP β) (a β) := by
  obtain ⟨T, e, hT⟩ := nmfFactorT_rep eps hP h.iR h.V h.T fun γ hγ i k =>
    flatF_nonzero (fun β hβ c i k => nmfDenT he (hg β hβ) c i k) hγ i k
  refine ⟨T, e, ?_⟩
  have hT' := hT.flatNamed (G := fun β => (nmfHalfT eps (AP β) (a β)).T) fun β hβ c i j => by
    simp only [flatF_at _ _ hβ]; rfl
  obtain ⟨t, e, eT, eV, hR⟩ := nmfRecomputeTT_rep eps hT' h.V
  exact ⟨t, e, by rw [eT]; exact hT', by rw [eV]; exact h.V, hR.flatNamed fun β hβ c i j => by
    simp only [flatF_at _ _ hβ]; rfl⟩

theorem nmfStepV_rep {eps : ℝ} (he : 0 < eps) [NeZero F] {Pt : Ten ℝ} {AP : List ℕ → Fin s → Fin F → Fin N → ℝ}
    (hP : Rep2 [numel (s :: b)] N F Pt (flatF b (fun _ _ => 0) fun β c n f => AP β c f n)) {st : NmfT}
    {a : List ℕ → NmfState s F N K} (h : NmfFlat b st a) (hg : ∀ β, Inside β b → NmfGood eps (a β)) {iRt : Ten ℝ}
    (hiR : Rep2 [numel (s :: b)] N F iRt (flatF b (fun _ _ => 0) fun β c n f => (a β).iR c f n)) :
    ∃ V, nmfFactorT eps Pt iRt st.T st.V = .ok V ∧ ∃ t, nmfRecomputeTT eps st.T V = .ok t ∧
      NmfFlat b t fun β => nmfHalfV eps (AP β) (a β) := by
  obtain ⟨V, e, hV⟩ := nmfFactorT_rep eps hP hiR h.T h.V fun γ hγ i k =>
    flatF_nonzero (fun β hβ c i k => nmfDenV he (hg β hβ) c i k) hγ i k
  refine ⟨V, e, ?_⟩
  have hV' := hV.flatNamed (G := fun β => (nmfHalfV eps (AP β) (a β)).V) fun β hβ c i j => by
    simp only [flatF_at _ _ hβ]; rfl
  obtain ⟨t, e, eT, eV, hR⟩ := nmfRecomputeTT_rep eps h.T hV'
  exact ⟨t, e, by rw [eT]; exact h.T, by rw [eV]; exact hV', hR.flatNamed fun β hβ c i j => by
    simp only [flatF_at _ _ hβ]; rfl⟩

theorem nmfT_rep (b : Shape) (s F N K : ℕ) [NeZero F] [NeZero N] {eps : ℝ} (he : 0 < eps) :
    ModelRep b s F N (nmfT eps K) (nmfModel eps) (NmfRep (s := s) (F := F) (N := N) (K := K) eps b) := by
  intro ts ms Y A hS hY
  unfold nmfT
  simp only [hY.shape]
  obtain ⟨Xf, e, hXf⟩ := flatT_rep hY.join (NeZero.ne F) (NeZero.ne N)
  rw [e, ok_bind']; clear e
  have hP : Rep2 [numel (s :: b)] F N (magSqT Xf) (flatF b (fun _ _ => 0) fun β c f n => magSq (A β c f n)) := by
    refine Rep2.flatNamed (A := fun γ i j => magSq (flatF b (fun _ _ => 0) A γ i j))
      ⟨hXf.shape, fun γ hγ i hi j hj => ?_⟩ fun β hβ c i j => by simp only [flatF_at _ _ hβ]
    simp [magSqT, hXf.val γ hγ i hi j hj, magSq, magSqE, flatF]
  obtain ⟨st0, e, h0, g0⟩ := nmfInitT_rep eps hS hP.shape
  rw [e, ok_bind']; clear e
  obtain ⟨T, e, st1, e', h1⟩ := nmfStepT_rep he hP h0 g0
  rw [e, ok_bind', e', ok_bind']; clear e e'
  obtain ⟨iRt, e, hi⟩ := swap01_rep h1.iR
  rw [e, ok_bind']; clear e
  obtain ⟨Pt, e, hPt⟩ := swap01_rep hP
  rw [e, ok_bind']; clear e
  have g1 := fun β hβ => nmfHalfT_good he (fun c f n => magSq (A β c f n)) (g0 β hβ)
  obtain ⟨V, e, st2, e', h2⟩ := nmfStepV_rep (AP := fun β c f n => magSq (A β c f n)) he
    (hPt.flatNamed fun β hβ c i j => by simp only [flatF_at _ _ hβ]) h1 g1
    (hi.flatNamed fun β hβ c i j => by simp only [flatF_at _ _ hβ])
  rw [e, ok_bind', e', ok_bind']; clear e e'
  obtain ⟨iR, e, hiR⟩ := unflatT_rep h2.iR
  rw [e, ok_bind']; clear e
  have key : ∀ β, Inside β b → nmfModel eps s (ms β) (A β) =
      ((nmfHalfV eps (fun c f n => magSq (A β c f n)) (nmfHalfT eps (fun c f n => magSq (A β c f n))
        ((ms β).st.getD (nmfInit eps (ms β).uT (ms β).uV)))).iR,
      { ms β with st := some (nmfHalfV eps (fun c f n => magSq (A β c f n)) (nmfHalfT eps
        (fun c f n => magSq (A β c f n)) ((ms β).st.getD (nmfInit eps (ms β).uT (ms β).uV)))) }) := by
    intro β hβ
    simp only [nmfModel, dite_true, Fin.cast_eq_self]
    rw [nmfForward_eq he _ _ _ _ (g0 β hβ)]
  refine ⟨_, rfl, ⟨hiR.shape, fun β hβ i hi j hj k hk => ?_⟩, ?_⟩
  · rw [key β hβ, hiR.val (i :: β) ⟨hi, hβ⟩ j hj k hk]
    exact congrFun (congrFun (flatF_at (b := b) _ _ hβ ⟨i, hi⟩) _) _
  · refine ⟨fun β hβ c f k => ?_, fun β hβ c f k => ?_, fun β hβ c f k => ?_, fun β hβ c f k => ?_, .inr
      ⟨st2, _, rfl, h2.holds, fun β hβ => ⟨by rw [key β hβ], nmfHalfV_good he _ (g1 β hβ)⟩⟩⟩
    · rw [key β hβ]; exact hS.uT β hβ c f k
    · rw [key β hβ]; exact hS.uV β hβ c f k
    · rw [key β hβ]; exact hS.nonnegT β hβ c f k
    · rw [key β hβ]; exact hS.nonnegV β hβ c f k

end Torchiva
