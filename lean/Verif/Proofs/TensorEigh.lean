import Verif.Model.TensorEigh
import Verif.Proofs.TensorLinalg

/-! Eigendecompositions on tensors. -/

namespace Torchiva

set_option linter.unusedSimpArgs false

attribute [local simp] ok_bind' err_bind' pure_ok' comb_self comb_one_left comb_one_right bcast_self
  bcast_nil_left bcast_nil_right bcast_cons bcastTo sel pick onDim unsq swap01 swap12 move13
  reduceKeep maxKeep reduce bindLabel bindOp bindOps einsum matmul eighS List.lookup catS
  Ten.map Ten.map2 Ten.read bIdx sumOver opIdx einsumT bnat bIdx_inside Ten.swapIdx01 Ten.swapIdx12

variable {b : Shape} {α γ δ : Type}

/-- A tensor with one number per batch index. -/
structure Rep0 (b : Shape) (t : Ten α) (A : List ℕ → α) : Prop where
  shape : t.shape = b
  val : ∀ β, Inside β b → t.val β = A β

theorem Rep0.map {t : Ten α} {A : List ℕ → α} (h : Rep0 b t A) (g : α → γ) :
    Rep0 b (t.map g) fun β => g (A β) :=
  ⟨h.shape, fun β hβ => by simp [h.val β hβ]⟩

theorem Rep0.map2 {t : Ten α} {u : Ten γ} {A : List ℕ → α} {B : List ℕ → γ} (h : Rep0 b t A) (h' : Rep0 b u B)
    (g : α → γ → δ) : ∃ r, Ten.map2 g t u = .ok r ∧ Rep0 b r fun β => g (A β) (B β) := by
  simp [h.shape, h'.shape]
  refine ⟨rfl, fun β hβ => ?_⟩
  simp [hβ, h.val, h'.val]

theorem Rep0.toC {t : Ten ℝ} {A : List ℕ → ℝ} (h : Rep0 b t A) : Rep0 b t.toC fun β => (A β : ℂ) := h.map _

theorem Rep0.magSq {t : Ten ℂ} {A : List ℕ → ℂ} (h : Rep0 b t A) : Rep0 b (magSqT t) fun β => Torchiva.magSq (A β) := h.map _

theorem at2_rep {p q : ℕ} {A : Ten α} {AA : List ℕ → Fin p → Fin q → α} (h : Rep2 b p q A AA) {i j : ℕ} (hi : i < p)
    (hj : j < q) : ∃ r, A.at2 i j = .ok r ∧ Rep0 b r fun β => AA β ⟨i, hi⟩ ⟨j, hj⟩ := by
  simp [Ten.at2, Ten.sel, h.shape, hi, hj]
  refine ⟨rfl, fun β hβ => ?_⟩
  simp [hβ, h.val, hi, hj]

theorem sel0_rep {p : ℕ} {A : Ten α} {AA : List ℕ → Fin p → α} (h : Rep1 b p A AA) {i : ℕ} (hi : i < p) :
    ∃ r, A.sel 0 i = .ok r ∧ Rep0 b r fun β => AA β ⟨i, hi⟩ := by
  simp [Ten.sel, h.shape, hi]
  refine ⟨rfl, fun β hβ => ?_⟩
  simp [hβ, h.val, hi]

theorem unsq0_rep {A : Ten α} {AA : List ℕ → α} (h : Rep0 b A AA) :
    ∃ r, A.unsq 0 = .ok r ∧ Rep1 b 1 r fun β _ => AA β := by
  simp [Ten.unsq, h.shape]
  refine ⟨rfl, fun β hβ i hi => ?_⟩
  simp [hβ, h.val]

theorem setSel0_rep {p : ℕ} {A v : Ten α} {AA : List ℕ → Fin p → α} {Av : List ℕ → α} (h : Rep1 b p A AA)
    (hv : Rep0 b v Av) {i : ℕ} (hi : i < p) :
    ∃ r, A.setSel 0 i v = .ok r ∧ Rep1 b p r fun β j => if (j : ℕ) = i then Av β else AA β j := by
  simp [Ten.setSel, h.shape, hv.shape, hi]
  refine ⟨rfl, fun β hβ j hj => ?_⟩
  simp [hβ, h.val, hv.val, hv.shape, hj]

theorem setLast2_rep {p q : ℕ} {A v : Ten α} {AA : List ℕ → Fin p → Fin q → α} {Av : List ℕ → α} (h : Rep2 b p q A AA)
    (hv : Rep0 b v Av) {i j : ℕ} (hi : i < p) (hj : j < q) :
    ∃ r, A.setLast2 i j v = .ok r ∧
      Rep2 b p q r fun β k l => if (k : ℕ) = i ∧ (l : ℕ) = j then Av β else AA β k l := by
  simp [Ten.setLast2, h.shape, hv.shape, hi, hj]
  refine ⟨rfl, fun β hβ k hk l hl => ?_⟩
  simp [hβ, h.val, hv.val, hv.shape, hk, hl]

open Classical in
/-- A division, one vector per batch index. -/
theorem div1_rep {𝕜 : Type} [Field 𝕜] {A D : Ten 𝕜} {p : ℕ} {AA AD : List ℕ → Fin p → 𝕜}
    (hs : bcast A.shape D.shape = .ok (p :: b))
    (hA : ∀ β, Inside β b → ∀ i (hi : i < p), A.read (i :: β) = AA β ⟨i, hi⟩)
    (hD : ∀ β, Inside β b → ∀ i (hi : i < p), D.read (i :: β) = AD β ⟨i, hi⟩) :
    Batched b (fun t a => Rep1 b p t a) (Ten.div A D) fun β =>
      if ∃ i, AD β i = 0 then .error .nonFinite else .ok fun i => AA β i / AD β i := by
  simp only [Ten.div, hs, ok_bind']
  by_cases h : ∃ idx, Inside idx (p :: b) ∧ D.read idx = 0
  · rw [if_pos h]
    obtain ⟨idx, hi, h0⟩ := h
    match idx, hi with
    | i :: β, hi =>
      refine ⟨β, hi.2, ?_⟩
      rw [hD β hi.2 i hi.1] at h0
      beta_reduce
      rw [if_pos ⟨⟨i, hi.1⟩, h0⟩]
  · rw [if_neg h]
    refine ⟨fun β i => AA β i / AD β i, fun β hβ => ?_, rfl, fun β hβ i hi => ?_⟩
    · beta_reduce
      rw [if_neg]
      rintro ⟨⟨i, hi⟩, h0⟩
      exact h ⟨i :: β, ⟨hi, hβ⟩, by rw [hD β hβ i hi]; exact h0⟩
    · simp only [hA β hβ i hi, hD β hβ i hi]

theorem Rep1.map {p : ℕ} {t : Ten α} {A : List ℕ → Fin p → α} (h : Rep1 b p t A) (g : α → γ) :
    Rep1 b p (t.map g) fun β i => g (A β i) :=
  ⟨h.shape, fun β hβ i hi => by simp [h.val β hβ i hi]⟩

open Classical in
theorem div1_rep1 {𝕜 : Type} [Field 𝕜] {A D : Ten 𝕜} {p : ℕ} {AA : List ℕ → Fin p → 𝕜} {AD : List ℕ → 𝕜}
    (hA : Rep1 b p A AA) (hD : Rep1 b 1 D fun β _ => AD β) :
    Batched b (fun t a => Rep1 b p t a) (Ten.div A D) fun β =>
      if ∃ _ : Fin p, AD β = 0 then .error .nonFinite else .ok fun i => AA β i / AD β :=
  div1_rep (AA := AA) (AD := fun β _ => AD β) (by simp [hA.shape, hD.shape])
    (fun β hβ i hi => by simp [hβ, hi, hA.shape, hA.val]) fun β hβ i hi => by simp [hβ, hi, hD.shape, hD.val]

/-- The half trace and the discriminant of a pair. -/
noncomputable def genB (A B : Matrix (Fin 2) (Fin 2) ℂ) : ℝ :=
  (A 0 0).re * (B 1 1).re + (A 1 1).re * (B 0 0).re - 2 * ((A 0 1).re * (B 0 1).re + (A 0 1).im * (B 0 1).im)

noncomputable def genD (A B : Matrix (Fin 2) (Fin 2) ℂ) : ℝ :=
  genB A B ^ 2 - 4 * (((A 0 0).re * (A 1 1).re - magSq (A 0 1)) * ((B 0 0).re * (B 1 1).re - magSq (B 0 1)))

open Classical in
/-- A division, one matrix per batch index. -/
theorem div2_rep {𝕜 : Type} [Field 𝕜] {A D : Ten 𝕜} {p q : ℕ} {AA AD : List ℕ → Fin p → Fin q → 𝕜}
    (hs : bcast A.shape D.shape = .ok (q :: p :: b))
    (hA : ∀ β, Inside β b → ∀ i (hi : i < p) j (hj : j < q), A.read (j :: i :: β) = AA β ⟨i, hi⟩ ⟨j, hj⟩)
    (hD : ∀ β, Inside β b → ∀ i (hi : i < p) j (hj : j < q), D.read (j :: i :: β) = AD β ⟨i, hi⟩ ⟨j, hj⟩) :
    Batched b (fun t a => Rep2 b p q t a) (Ten.div A D) fun β =>
      if ∃ i j, AD β i j = 0 then .error .nonFinite else .ok fun i j => AA β i j / AD β i j := by
  simp only [Ten.div, hs, ok_bind']
  by_cases h : ∃ idx, Inside idx (q :: p :: b) ∧ D.read idx = 0
  · rw [if_pos h]
    obtain ⟨idx, hi, h0⟩ := h
    match idx, hi with
    | j :: i :: β, hi =>
      refine ⟨β, hi.2.2, ?_⟩
      rw [hD β hi.2.2 i hi.2.1 j hi.1] at h0
      beta_reduce
      rw [if_pos ⟨⟨i, hi.2.1⟩, ⟨j, hi.1⟩, h0⟩]
  · rw [if_neg h]
    refine ⟨fun β i j => AA β i j / AD β i j, fun β hβ => ?_, rfl, fun β hβ i hi j hj => ?_⟩
    · beta_reduce
      rw [if_neg]
      rintro ⟨⟨i, hi⟩, ⟨j, hj⟩, h0⟩
      exact h ⟨j :: i :: β, ⟨hj, hi, hβ⟩, by rw [hD β hβ i hi j hj]; exact h0⟩
    · simp only [hA β hβ i hi j hj, hD β hβ i hi j hj]

/-- Eigenvalues and eigenvectors of the items. -/
structure RepEig (b : Shape) (n : ℕ) (t : EigT) (A : List ℕ → EigRes (Fin n)) : Prop where
  val : Rep1 b n t.val fun β => (A β).val
  vec : Rep2 b n n t.vec fun β i j => (A β).vec i j

theorem normalizeColsT_rep {vals : Ten ℝ} {V : Ten ℂ} {av : List ℕ → Fin 2 → ℝ} {AV : List ℕ → Matrix (Fin 2) (Fin 2) ℂ}
    (hv : Rep1 b 2 vals av) (hV : Rep2 b 2 2 V fun β i j => AV β i j) (eps : ℝ) :
    Batched b (RepEig b 2) (normalizeColsT vals V eps) fun β => normalizeCols (av β) (AV β) eps := by
  classical
  have h1 : ∃ q, Ten.sumKeep 1 (magSqT V) = .ok q ∧ Rep2 b 1 2 q fun β _ j => ∑ i, magSq (AV β i j) := by
    simp [Ten.sumKeep, magSqT, hV.shape]
    refine ⟨rfl, fun β hβ i hi j hj => ?_⟩
    simp [hβ, hj, hV.val, magSq, magSqE, Finset.sum_range_succ]
  obtain ⟨q, e1, r1⟩ := h1
  simp only [normalizeColsT, e1, ok_bind']
  have h2 := div2_rep (A := V) (D := ((q.map fun x => √x).map fun x => clampMin x eps).toC) (b := b) (p := 2) (q := 2)
    (AA := fun β i j => AV β i j) (AD := fun β _ j => ((clampMin (√(∑ i, magSq (AV β i j))) eps : ℝ) : ℂ))
    (by simp [Ten.toC, hV.shape, r1.shape])
    (fun β hβ i hi j hj => by simp [hβ, hi, hj, hV.shape, hV.val])
    (fun β hβ i hi j hj => by simp [Ten.toC, hβ, hi, hj, r1.shape, r1.val])
  have h3 := h2.bind (S := RepEig b 2) (k := fun U => .ok (⟨vals, U⟩ : EigT))
    (k' := fun β (U : Fin 2 → Fin 2 → ℂ) => .ok (⟨av β, fun i j => U i j⟩ : EigRes (Fin 2)))
    fun U a hU => Batched.pure (a := fun β => (⟨av β, fun i j => a β i j⟩ : EigRes (Fin 2))) ⟨hv, hU⟩
  refine Batched.congr h3 fun β hβ => ?_
  unfold normalizeCols
  by_cases h : ∃ i j : Fin 2, ((clampMin (√(∑ i, magSq (AV β i j))) eps : ℝ) : ℂ) = 0
  · rw [if_pos h, err_bind', if_pos]
    obtain ⟨-, j, hj⟩ := h
    have hj := Complex.ofReal_eq_zero.1 hj
    fin_cases j
    · exact Or.inl hj
    · exact Or.inr hj
  · rw [if_neg h, ok_bind', if_neg]
    · rfl
    · rintro (h0 | h0)
      · exact h ⟨0, 0, Complex.ofReal_eq_zero.2 h0⟩
      · exact h ⟨0, 1, Complex.ofReal_eq_zero.2 h0⟩

theorem rep1_two {t : Ten α} {A A' : List ℕ → Fin 2 → α} (h : Rep1 b 2 t A) (h0 : ∀ β, A β 0 = A' β 0)
    (h1 : ∀ β, A β 1 = A' β 1) : Rep1 b 2 t A' := by
  refine ⟨h.shape, fun β hβ i hi => ?_⟩
  rw [h.val β hβ i hi]
  match i, hi with
  | 0, _ => exact h0 β
  | 1, _ => exact h1 β

theorem rep2_two {t : Ten α} {A A' : List ℕ → Fin 2 → Fin 2 → α} (h : Rep2 b 2 2 t A)
    (hA : ∀ β i j, A β i j = A' β i j) : Rep2 b 2 2 t A' :=
  ⟨h.shape, fun β hβ i hi j hj => by rw [h.val β hβ i hi j hj, hA]⟩

theorem zeros2_rep (p q : ℕ) : Rep2 b p q (Ten.zeros (q :: p :: b)) fun _ _ _ => 0 := ⟨rfl, fun _ _ _ _ _ _ => rfl⟩

/-- The eigenvectors of a pair from its eigenvalues. -/
noncomputable def genVecT (vals : Ten ℝ) (a11 a12 b11 b12 : Ten ℂ) (s : Shape) (eps : ℝ) : Except Err EigT := do
  let ev1 ← vals.sel 0 0
  let ev2 ← vals.sel 0 1
  let V : Ten ℂ := Ten.zeros s
  let m1 ← Ten.map2 (fun x y => x * y) ev1.toC b12
  let v ← Ten.map2 (fun x y => x - y) m1 a12
  let V ← V.setLast2 0 0 v
  let m2 ← Ten.map2 (fun x y => x * y) ev1.toC b11
  let v ← Ten.map2 (fun x y => x - y) a11 m2
  let V ← V.setLast2 1 0 v
  let m3 ← Ten.map2 (fun x y => x * y) ev2.toC b12
  let v ← Ten.map2 (fun x y => x - y) m3 a12
  let V ← V.setLast2 0 1 v
  let m4 ← Ten.map2 (fun x y => x * y) ev2.toC b11
  let v ← Ten.map2 (fun x y => x - y) a11 m4
  let V ← V.setLast2 1 1 v
  normalizeColsT vals V eps

theorem genVecT_rep {vals : Ten ℝ} {a11 a12 b11 b12 : Ten ℂ} {v : List ℕ → Fin 2 → ℝ} {A11 A12 B11 B12 : List ℕ → ℂ}
    (rv : Rep1 b 2 vals v) (ra11 : Rep0 b a11 A11) (ra12 : Rep0 b a12 A12) (rb11 : Rep0 b b11 B11)
    (rb12 : Rep0 b b12 B12) (eps : ℝ) :
    Batched b (RepEig b 2) (genVecT vals a11 a12 b11 b12 (2 :: 2 :: b) eps) fun β => normalizeCols (v β)
      (!![(v β 0 : ℂ) * B12 β - A12 β, (v β 1 : ℂ) * B12 β - A12 β;
         A11 β - (v β 0 : ℂ) * B11 β, A11 β - (v β 1 : ℂ) * B11 β]) eps := by
  unfold genVecT
  obtain ⟨ev1, e, s1⟩ := sel0_rep rv (i := 0) (by norm_num)
  rw [e, ok_bind']; clear e
  obtain ⟨ev2, e, s2⟩ := sel0_rep rv (i := 1) (by norm_num)
  rw [e, ok_bind']; clear e
  obtain ⟨u1, e, q1⟩ := s1.toC.map2 rb12 fun x y => x * y
  rw [e, ok_bind']; clear e
  obtain ⟨u2, e, q2⟩ := q1.map2 ra12 fun x y => x - y
  rw [e, ok_bind']; clear e
  obtain ⟨V1, e, p1⟩ := setLast2_rep (zeros2_rep (b := b) 2 2) q2 (i := 0) (j := 0) (by norm_num) (by norm_num)
  rw [e, ok_bind']; clear e
  obtain ⟨u3, e, q3⟩ := s1.toC.map2 rb11 fun x y => x * y
  rw [e, ok_bind']; clear e
  obtain ⟨u4, e, q4⟩ := ra11.map2 q3 fun x y => x - y
  rw [e, ok_bind']; clear e
  obtain ⟨V2, e, p2⟩ := setLast2_rep p1 q4 (i := 1) (j := 0) (by norm_num) (by norm_num)
  rw [e, ok_bind']; clear e
  obtain ⟨u5, e, q5⟩ := s2.toC.map2 rb12 fun x y => x * y
  rw [e, ok_bind']; clear e
  obtain ⟨u6, e, q6⟩ := q5.map2 ra12 fun x y => x - y
  rw [e, ok_bind']; clear e
  obtain ⟨V3, e, p3⟩ := setLast2_rep p2 q6 (i := 0) (j := 1) (by norm_num) (by norm_num)
  rw [e, ok_bind']; clear e
  obtain ⟨u7, e, q7⟩ := s2.toC.map2 rb11 fun x y => x * y
  rw [e, ok_bind']; clear e
  obtain ⟨u8, e, q8⟩ := ra11.map2 q7 fun x y => x - y
  rw [e, ok_bind']; clear e
  obtain ⟨V4, e, p4⟩ := setLast2_rep p3 q8 (i := 1) (j := 1) (by norm_num) (by norm_num)
  rw [e, ok_bind']; clear e
  refine normalizeColsT_rep rv (rep2_two p4 fun β i j => ?_) eps
  fin_cases i <;> fin_cases j <;> simp

theorem eigh2x2Gen_eq (A B : Matrix (Fin 2) (Fin 2) ℂ) (eps : ℝ) : (
    open Classical in
    (if ∃ _ : Fin 2, clampMin ((B 0 0).re * (B 1 1).re - magSq (B 0 1)) eps = 0 then .error .nonFinite
    else .ok fun i => ![0.5 * (genB A B - √(clampMin (genD A B) eps)), 0.5 * (genB A B + √(clampMin (genD A B) eps))] i /
      clampMin ((B 0 0).re * (B 1 1).re - magSq (B 0 1)) eps : Except Err (Fin 2 → ℝ)) >>= fun v => normalizeCols v
      (!![(v 0 : ℂ) * B 0 1 - A 0 1, (v 1 : ℂ) * B 0 1 - A 0 1;
         A 0 0 - (v 0 : ℂ) * B 0 0, A 0 0 - (v 1 : ℂ) * B 0 0]) eps) = eigh2x2Gen A B eps := by
  classical
  unfold eigh2x2Gen
  by_cases h : clampMin ((B 0 0).re * (B 1 1).re - magSq (B 0 1)) eps = 0
  · rw [if_pos ⟨(0 : Fin 2), h⟩, err_bind']
    simp only [if_pos h]
  · rw [if_neg (fun ⟨_, h'⟩ => h h'), ok_bind']
    simp only [if_neg h]
    congr 1
    funext i
    fin_cases i <;> simp [genB, genD]

theorem Rep0.named {t : Ten α} {A A' : List ℕ → α} (h : Rep0 b t A) (e : ∀ β, A β = A' β) :
    ∃ X : List ℕ → α, (∀ β, X β = A' β) ∧ Rep0 b t X :=
  ⟨A', fun _ => rfl, h.shape, fun β hβ => (h.val β hβ).trans (e β)⟩

theorem eigh2x2GenT_rep {A B : Ten ℂ} {AA AB : List ℕ → Matrix (Fin 2) (Fin 2) ℂ}
    (hs : bcast A.shape B.shape = .ok (2 :: 2 :: b))
    (hA : Rep2 b 2 2 (⟨2 :: 2 :: b, A.read⟩ : Ten ℂ) fun β i j => AA β i j)
    (hB : Rep2 b 2 2 (⟨2 :: 2 :: b, B.read⟩ : Ten ℂ) fun β i j => AB β i j) (eps : ℝ) :
    Batched b (RepEig b 2) (eigh2x2GenT A B eps) fun β => eigh2x2Gen (AA β) (AB β) eps := by
  classical
  unfold eigh2x2GenT
  rw [hs, ok_bind']
  dsimp only
  obtain ⟨a11, e, ra11⟩ := at2_rep hA (i := 0) (j := 0) (by norm_num) (by norm_num)
  rw [e, ok_bind']; clear e
  obtain ⟨a12, e, ra12⟩ := at2_rep hA (i := 0) (j := 1) (by norm_num) (by norm_num)
  rw [e, ok_bind']; clear e
  obtain ⟨a22, e, ra22⟩ := at2_rep hA (i := 1) (j := 1) (by norm_num) (by norm_num)
  rw [e, ok_bind']; clear e
  obtain ⟨b11, e, rb11⟩ := at2_rep hB (i := 0) (j := 0) (by norm_num) (by norm_num)
  rw [e, ok_bind']; clear e
  obtain ⟨b12, e, rb12⟩ := at2_rep hB (i := 0) (j := 1) (by norm_num) (by norm_num)
  rw [e, ok_bind']; clear e
  obtain ⟨b22, e, rb22⟩ := at2_rep hB (i := 1) (j := 1) (by norm_num) (by norm_num)
  rw [e, ok_bind']; clear e
  obtain ⟨a11b22, e, r1⟩ := (ra11.map Complex.re).map2 (rb22.map Complex.re) fun x y => x * y
  rw [e, ok_bind']; clear e
  obtain ⟨a22b11, e, r2⟩ := (ra22.map Complex.re).map2 (rb11.map Complex.re) fun x y => x * y
  rw [e, ok_bind']; clear e
  obtain ⟨t3, e, r3⟩ := (ra12.map Complex.re).map2 (rb12.map Complex.re) fun x y => x * y
  rw [e, ok_bind']; clear e
  obtain ⟨t4, e, r4⟩ := (ra12.map Complex.im).map2 (rb12.map Complex.im) fun x y => x * y
  rw [e, ok_bind']; clear e
  obtain ⟨t5, e, r5⟩ := r3.map2 r4 fun x y => x + y
  rw [e, ok_bind']; clear e
  obtain ⟨t6, e, r6⟩ := r1.map2 r2 fun x y => x + y
  rw [e, ok_bind']; clear e
  obtain ⟨t7, e, r7⟩ := r6.map2 r5 fun x y => x - 2 * y
  rw [e, ok_bind']; clear e
  obtain ⟨fB, hB', r7⟩ := r7.named (A' := fun β => genB (AA β) (AB β)) fun β => rfl
  obtain ⟨t8, e, r8⟩ := (ra11.map Complex.re).map2 (ra22.map Complex.re) fun x y => x * y
  rw [e, ok_bind']; clear e
  obtain ⟨t9, e, r9⟩ := r8.map2 ra12.magSq fun x y => x - y
  rw [e, ok_bind']; clear e
  obtain ⟨fdA, hdA, r9⟩ := r9.named (A' := fun β => (AA β 0 0).re * (AA β 1 1).re - magSq (AA β 0 1)) fun β => rfl
  obtain ⟨t10, e, r10⟩ := (rb11.map Complex.re).map2 (rb22.map Complex.re) fun x y => x * y
  rw [e, ok_bind']; clear e
  obtain ⟨t11, e, r11⟩ := r10.map2 rb12.magSq fun x y => x - y
  rw [e, ok_bind']; clear e
  obtain ⟨fdB, hdB, r11⟩ := r11.named (A' := fun β => (AB β 0 0).re * (AB β 1 1).re - magSq (AB β 0 1)) fun β => rfl
  obtain ⟨t12, e, r12⟩ := r9.map2 r11 fun x y => x * y
  rw [e, ok_bind']; clear e
  obtain ⟨t13, e, r13⟩ := r7.map2 r12 fun x y => x ^ 2 - 4 * y
  rw [e, ok_bind']; clear e
  obtain ⟨fD, hD, r13⟩ := r13.named (A' := fun β => genD (AA β) (AB β)) fun β => by rw [hB', hdA, hdB]; rfl
  obtain ⟨t14, e, r14⟩ := r7.map2 (r13.map fun x => clampMin x eps) fun x y => 0.5 * (x - √y)
  rw [e, ok_bind']; clear e
  have rz : Rep1 b 2 (⟨(2 :: 2 :: b).tail, fun _ => 0⟩ : Ten ℝ) fun _ _ => 0 := ⟨rfl, fun _ _ _ _ => rfl⟩
  obtain ⟨t15, e, r15⟩ := setSel0_rep rz r14 (i := 0) (by norm_num)
  rw [e, ok_bind']; clear e
  obtain ⟨t16, e, r16⟩ := r7.map2 (r13.map fun x => clampMin x eps) fun x y => 0.5 * (x + √y)
  rw [e, ok_bind']; clear e
  obtain ⟨t17, e, r17⟩ := setSel0_rep r15 r16 (i := 1) (by norm_num)
  rw [e, ok_bind']; clear e
  obtain ⟨t18, e, r18⟩ := unsq0_rep r11
  rw [e, ok_bind']; clear e
  have hd := div1_rep1 (rep1_two (A' := fun β => ![0.5 * (genB (AA β) (AB β) - √(clampMin (genD (AA β) (AB β)) eps)),
    0.5 * (genB (AA β) (AB β) + √(clampMin (genD (AA β) (AB β)) eps))]) r17 (fun β => by simp [hB', hD])
      (fun β => by simp [hB', hD])) (r18.map fun x => clampMin x eps)
  refine Batched.congr (hd.bind (S := RepEig b 2) (k := fun vals => genVecT vals a11 a12 b11 b12 (2 :: 2 :: b) eps)
    (k' := fun β (v : Fin 2 → ℝ) => normalizeCols v
    (!![(v 0 : ℂ) * AB β 0 1 - AA β 0 1, (v 1 : ℂ) * AB β 0 1 - AA β 0 1;
       AA β 0 0 - (v 0 : ℂ) * AB β 0 0, AA β 0 0 - (v 1 : ℂ) * AB β 0 0]) eps)
    fun vals v rv => genVecT_rep rv ra11 ra12 rb11 rb12 eps) fun β _ => ?_
  rw [hdB]
  exact eigh2x2Gen_eq (AA β) (AB β) eps

theorem eigh2x2PlainT_rep {A : Ten ℂ} {AA : List ℕ → Matrix (Fin 2) (Fin 2) ℂ}
    (hA : Rep2 b 2 2 A fun β i j => AA β i j) (eps : ℝ) :
    Batched b (RepEig b 2) (eigh2x2PlainT A eps) fun β => eigh2x2Plain (AA β) eps := by
  classical
  simp only [eigh2x2PlainT, hA.shape]
  obtain ⟨a11, e, ra11⟩ := at2_rep hA (i := 0) (j := 0) (by norm_num) (by norm_num)
  rw [e, ok_bind']; clear e
  obtain ⟨a12, e, ra12⟩ := at2_rep hA (i := 0) (j := 1) (by norm_num) (by norm_num)
  rw [e, ok_bind']; clear e
  obtain ⟨a21, e, ra21⟩ := at2_rep hA (i := 1) (j := 0) (by norm_num) (by norm_num)
  rw [e, ok_bind']; clear e
  obtain ⟨a22, e, ra22⟩ := at2_rep hA (i := 1) (j := 1) (by norm_num) (by norm_num)
  rw [e, ok_bind']; clear e
  obtain ⟨t1, e, r1⟩ := (ra11.map Complex.re).map2 (ra22.map Complex.re) fun x y => x + y
  rw [e, ok_bind']; clear e
  obtain ⟨t2, e, r2⟩ := (ra11.map Complex.re).map2 (ra22.map Complex.re) fun x y => x * y
  rw [e, ok_bind']; clear e
  obtain ⟨t3, e, r3⟩ := r2.map2 ra12.magSq fun x y => x - y
  rw [e, ok_bind']; clear e
  obtain ⟨t4, e, r4⟩ := r1.map2 r3 fun x y => x ^ 2 - 4 * y
  rw [e, ok_bind']; clear e
  obtain ⟨t14, e, r14⟩ := r1.map2 (r4.map fun x => clampMin x eps) fun x y => 0.5 * (x - √y)
  rw [e, ok_bind']; clear e
  have rz : Rep1 b 2 (⟨(2 :: 2 :: b).tail, fun _ => 0⟩ : Ten ℝ) fun _ _ => 0 := ⟨rfl, fun _ _ _ _ => rfl⟩
  obtain ⟨t15, e, r15⟩ := setSel0_rep rz r14 (i := 0) (by norm_num)
  rw [e, ok_bind']; clear e
  obtain ⟨t16, e, r16⟩ := r1.map2 (r4.map fun x => clampMin x eps) fun x y => 0.5 * (x + √y)
  rw [e, ok_bind']; clear e
  obtain ⟨t17, e, r17⟩ := setSel0_rep r15 r16 (i := 1) (by norm_num)
  rw [e, ok_bind']; clear e
  obtain ⟨V1, e, p1⟩ := setLast2_rep (zeros2_rep (b := b) 2 2) ra12 (i := 1) (j := 0) (by norm_num) (by norm_num)
  rw [e, ok_bind']; clear e
  obtain ⟨ev1, e, s1⟩ := sel0_rep r17 (i := 0) (by norm_num)
  rw [e, ok_bind']; clear e
  obtain ⟨u1, e, q1⟩ := s1.toC.map2 ra22 fun x y => x - y
  rw [e, ok_bind']; clear e
  obtain ⟨V2, e, p2⟩ := setLast2_rep p1 q1 (i := 0) (j := 0) (by norm_num) (by norm_num)
  rw [e, ok_bind']; clear e
  obtain ⟨ev2, e, s2⟩ := sel0_rep r17 (i := 1) (by norm_num)
  rw [e, ok_bind']; clear e
  obtain ⟨u2, e, q2⟩ := s2.toC.map2 ra11 fun x y => x - y
  rw [e, ok_bind']; clear e
  obtain ⟨V3, e, p3⟩ := setLast2_rep p2 q2 (i := 1) (j := 1) (by norm_num) (by norm_num)
  rw [e, ok_bind']; clear e
  obtain ⟨V4, e, p4⟩ := setLast2_rep p3 ra21 (i := 0) (j := 1) (by norm_num) (by norm_num)
  rw [e, ok_bind']; clear e
  unfold eigh2x2Plain
  refine normalizeColsT_rep (rep1_two r17 (fun β => ?_) fun β => ?_) (rep2_two p4 fun β i j => ?_) eps
  · simp
  · simp
  · fin_cases i <;> fin_cases j <;> simp

/-! ## Products, conjugate transposes and decompositions of any size -/

theorem mul2_rep {𝕜 : Type} [CommRing 𝕜] {p q r : ℕ} {A B : Ten 𝕜} {AA : List ℕ → Matrix (Fin p) (Fin q) 𝕜}
    {AB : List ℕ → Matrix (Fin q) (Fin r) 𝕜} (hA : Rep2 b p q A fun β i j => AA β i j)
    (hB : Rep2 b q r B fun β i j => AB β i j) :
    ∃ t, Ten.matmul A B = .ok t ∧ Rep2 b p r t fun β i j => (AA β * AB β) i j := by
  simp [Ten.matmul, hA.shape, hB.shape]
  refine ⟨rfl, fun β hβ i hi j hj => ?_⟩
  simp [Finset.sum_range, Matrix.mul_apply, hβ, hi, hj, hA.val, hB.val]

theorem Rep2.map {p q : ℕ} {t : Ten α} {A : List ℕ → Fin p → Fin q → α} (h : Rep2 b p q t A) (g : α → γ) :
    Rep2 b p q (t.map g) fun β i j => g (A β i j) :=
  ⟨h.shape, fun β hβ i hi j hj => by simp [h.val β hβ i hi j hj]⟩

theorem Rep2.map2 {p q : ℕ} {t : Ten α} {u : Ten γ} {A : List ℕ → Fin p → Fin q → α} {B : List ℕ → Fin p → Fin q → γ}
    (h : Rep2 b p q t A) (h' : Rep2 b p q u B) (g : α → γ → δ) :
    ∃ r, Ten.map2 g t u = .ok r ∧ Rep2 b p q r fun β i j => g (A β i j) (B β i j) := by
  simp [h.shape, h'.shape]
  refine ⟨rfl, fun β hβ i hi j hj => ?_⟩
  simp [hβ, hi, hj, h.val, h'.val]

theorem hermiteT_rep {p q : ℕ} {A : Ten ℂ} {AA : List ℕ → Matrix (Fin p) (Fin q) ℂ}
    (hA : Rep2 b p q A fun β i j => AA β i j) :
    ∃ t, hermiteT A = .ok t ∧ Rep2 b q p t fun β i j => (AA β).conjTranspose i j := by
  simp [hermiteT, Ten.swap01, hA.shape]
  refine ⟨rfl, fun β hβ i hi j hj => ?_⟩
  simp [hβ, hi, hj, hA.val]

theorem bmmT_rep {p q r : ℕ} {A B : Ten ℂ} {AA : List ℕ → Matrix (Fin p) (Fin q) ℂ}
    {AB : List ℕ → Matrix (Fin q) (Fin r) ℂ} (hA : Rep2 b p q A fun β i j => AA β i j)
    (hB : Rep2 b q r B fun β i j => AB β i j) :
    ∃ t, bmmT A B = .ok t ∧ Rep2 b p r t fun β i j => (AA β * AB β) i j := by
  unfold bmmT
  dsimp only
  obtain ⟨t1, e, r1⟩ := mul2_rep (AA := fun β => (AA β).map Complex.re) (AB := fun β => (AB β).map Complex.re)
    (hA.map Complex.re) (hB.map Complex.re)
  rw [e, ok_bind']; clear e
  obtain ⟨t2, e, r2⟩ := mul2_rep (AA := fun β => (AA β).map Complex.im) (AB := fun β => (AB β).map Complex.im)
    (hA.map Complex.im) (hB.map Complex.im)
  rw [e, ok_bind']; clear e
  obtain ⟨t3, e, r3⟩ := r1.map2 r2 fun x y => x - y
  rw [e, ok_bind']; clear e
  obtain ⟨t4, e, r4⟩ := mul2_rep (AA := fun β => (AA β).map Complex.re) (AB := fun β => (AB β).map Complex.im)
    (hA.map Complex.re) (hB.map Complex.im)
  rw [e, ok_bind']; clear e
  obtain ⟨t5, e, r5⟩ := mul2_rep (AA := fun β => (AA β).map Complex.im) (AB := fun β => (AB β).map Complex.re)
    (hA.map Complex.im) (hB.map Complex.re)
  rw [e, ok_bind']; clear e
  obtain ⟨t6, e, r6⟩ := r4.map2 r5 fun x y => x + y
  rw [e, ok_bind']; clear e
  obtain ⟨t7, e, r7⟩ := r3.map2 r6 fun x y => (⟨x, y⟩ : ℂ)
  refine ⟨t7, e, r7.shape, fun β hβ i hi j hj => ?_⟩
  rw [r7.val β hβ i hi j hj]
  apply Complex.ext <;> simp [Matrix.mul_apply, Complex.re_sum, Complex.im_sum, Finset.sum_add_distrib,
    Finset.sum_sub_distrib]

theorem eighWrapperT_rep {n : ℕ} {A : Ten ℂ} {AA : List ℕ → Matrix (Fin n) (Fin n) ℂ}
    (hA : Rep2 b n n A fun β i j => AA β i j) (solver : Solver) :
    ∃ r, eighWrapperT solver A = .ok r ∧ RepEig b n r fun β => solver n (AA β) := by
  have hmat : ∀ β, Inside β b → matAt A n β = AA β := by
    intro β hβ
    ext i j
    simp [matAt, hA.shape, hβ, hA.val]
  simp only [eighWrapperT, hA.shape, if_pos]
  refine ⟨_, rfl, ⟨rfl, fun β hβ i hi => ?_⟩, rfl, fun β hβ i hi j hj => ?_⟩
  · simp [hi, hmat β hβ]
  · simp [hi, hj, hmat β hβ]

theorem bSqrtInvT_rep {n : ℕ} {B : Ten ℂ} {AB : List ℕ → Matrix (Fin n) (Fin n) ℂ}
    (hB : Rep2 b n n B fun β i j => AB β i j) (solver : Solver) :
    ∃ t, bSqrtInvT solver B = .ok t ∧ Rep2 b n n t fun β i j => bSqrtInv (solver n) (AB β) i j := by
  unfold bSqrtInvT
  obtain ⟨r, e, hr⟩ := eighWrapperT_rep hB solver
  rw [e, ok_bind']; clear e
  dsimp only
  have h1 : ∃ t, (r.val.map fun x => √(clampMin x 1e-5)).unsq 0 = .ok t ∧
      Rep2 b n 1 t fun β i _ => √(clampMin ((solver n (AB β)).val i) 1e-5) := by
    simp [Ten.unsq, hr.val.shape]
    refine ⟨rfl, fun β hβ i hi j hj => ?_⟩
    simp [hβ, hi, hr.val.val]
  obtain ⟨sc, e, h1⟩ := h1
  rw [e, ok_bind']; clear e
  obtain ⟨h, e, hh⟩ := hermiteT_rep hr.vec
  rw [e, ok_bind']; clear e
  have h2 : ∃ t, Ten.map2 (fun x y => x * y) (sc.map fun x => 1 / x).toC h = .ok t ∧
      Rep2 b n n t fun β i j => ((1 / √(clampMin ((solver n (AB β)).val i) 1e-5) : ℝ) : ℂ) *
        (solver n (AB β)).vec.conjTranspose i j := by
    simp [Ten.toC, h1.shape, hh.shape]
    refine ⟨rfl, fun β hβ i hi j hj => ?_⟩
    simp [hβ, hi, hj, h1.val, hh.val]
  obtain ⟨m, e, h2⟩ := h2
  rw [e, ok_bind']; clear e
  exact mul2_rep hr.vec (AB := fun β => Matrix.of fun i j => _) h2

theorem eighGenT_rep {n : ℕ} {A B : Ten ℂ} {AA AB : List ℕ → Matrix (Fin n) (Fin n) ℂ}
    (hA : Rep2 b n n A fun β i j => AA β i j) (hB : Rep2 b n n B fun β i j => AB β i j) (solver : Solver) :
    ∃ r, eighGenT solver A B = .ok r ∧ RepEig b n r fun β => eighGen (solver n) (AA β) (AB β) := by
  unfold eighGenT
  obtain ⟨S, e, hS⟩ := bSqrtInvT_rep hB solver
  rw [e, ok_bind']; clear e
  obtain ⟨SA, e, hSA⟩ := mul2_rep hS hA
  rw [e, ok_bind']; clear e
  obtain ⟨SH, e, hSH⟩ := hermiteT_rep hS
  rw [e, ok_bind']; clear e
  obtain ⟨M, e, hM⟩ := mul2_rep hSA hSH
  rw [e, ok_bind']; clear e
  obtain ⟨r, e, hr⟩ := eighWrapperT_rep hM solver
  rw [e, ok_bind']; clear e
  obtain ⟨V, e, hV⟩ := mul2_rep hSH hr.vec
  rw [e, ok_bind']; clear e
  obtain ⟨AV, hAV, hV⟩ : ∃ AV : List ℕ → Matrix (Fin n) (Fin n) ℂ, (∀ β, AV β = (bSqrtInv (solver n) (AB β)).conjTranspose *
      (solver n (bSqrtInv (solver n) (AB β) * AA β * (bSqrtInv (solver n) (AB β)).conjTranspose)).vec) ∧
      Rep2 b n n V fun β i j => AV β i j := ⟨_, fun β => rfl, hV⟩
  have h1 : ∃ q, Ten.sumKeep 1 (V.map fun z => ‖z‖ ^ 2) = .ok q ∧ Rep2 b 1 n q fun β _ j => ∑ k, ‖AV β k j‖ ^ 2 := by
    simp [Ten.sumKeep, hV.shape]
    refine ⟨rfl, fun β hβ i hi j hj => ?_⟩
    simp [Finset.sum_range, hβ, hj, hV.val]
  obtain ⟨q, e, h1⟩ := h1
  rw [e, ok_bind']; clear e
  dsimp only
  have h2 : ∃ U, Ten.map2 (fun x d => x / (d : ℂ)) V ((q.map fun x => √x).map fun x => clampMin x 1e-5) = .ok U ∧
      Rep2 b n n U fun β i j => AV β i j / (clampMin (√(∑ k, ‖AV β k j‖ ^ 2)) 1e-5 : ℝ) := by
    simp [h1.shape, hV.shape]
    refine ⟨rfl, fun β hβ i hi j hj => ?_⟩
    simp [hβ, hi, hj, h1.val, hV.val]
  obtain ⟨U, e, h2⟩ := h2
  rw [e, ok_bind']; clear e
  simp only [hAV] at h2
  exact ⟨_, rfl, hr.val, h2⟩

theorem eigh_two (solver : Matrix (Fin 2) (Fin 2) ℂ → EigRes (Fin 2)) (A : Matrix (Fin 2) (Fin 2) ℂ)
    (B : Option (Matrix (Fin 2) (Fin 2) ℂ)) (eps : ℝ) :
    eigh solver A B eps = match B with
      | some B => eigh2x2Gen A B eps
      | none => eigh2x2Plain A eps := by
  have h : ∀ x : Except Err (EigRes (Fin 2)), (x.map fun r => (⟨fun i => r.val i, fun i j => r.vec i j⟩ : EigRes (Fin 2))) = x := by
    rintro (_ | _) <;> rfl
  cases B <;> simp [eigh, eigh2x2, h]

/-- `eigh` of a batch of pairs. -/
theorem eighT_gen {n : ℕ} {A B : Ten ℂ} {AA AB : List ℕ → Matrix (Fin n) (Fin n) ℂ}
    (hA : Rep2 b n n A fun β i j => AA β i j) (hB : Rep2 b n n B fun β i j => AB β i j) (solver : Solver) (eps : ℝ) :
    Batched b (RepEig b n) (eighT solver A (some B) eps) fun β => eigh (solver n) (AA β) (some (AB β)) eps := by
  simp only [eighT, hA.shape, hB.shape, List.headD_cons, reduceCtorEq, if_false, if_true]
  by_cases h : n = 2
  · subst h
    simp only [if_pos, eigh2x2T, hA.shape, hB.shape, List.getD_cons_zero, List.getD_cons_succ, and_self, eigh_two]
    exact eigh2x2GenT_rep (by simp [hA.shape, hB.shape])
      ⟨rfl, fun β hβ i hi j hj => by simp [hA.shape, hβ, hi, hj, hA.val]⟩
      ⟨rfl, fun β hβ i hi j hj => by simp [hB.shape, hβ, hi, hj, hB.val]⟩ eps
  · obtain ⟨r, e, hr⟩ := eighGenT_rep hA hB solver
    rw [if_neg h, e]
    exact ⟨_, fun β _ => by simp [eigh, h], hr⟩

/-- `eigh` of a batch of matrices. -/
theorem eighT_one {n : ℕ} {A : Ten ℂ} {AA : List ℕ → Matrix (Fin n) (Fin n) ℂ}
    (hA : Rep2 b n n A fun β i j => AA β i j) (solver : Solver) (eps : ℝ) :
    Batched b (RepEig b n) (eighT solver A none eps) fun β => eigh (solver n) (AA β) none eps := by
  simp only [eighT, hA.shape, List.headD_cons, reduceCtorEq, if_false]
  by_cases h : n = 2
  · subst h
    simp only [if_pos, eigh2x2T, hA.shape, List.getD_cons_zero, List.getD_cons_succ, and_self, eigh_two]
    exact eigh2x2PlainT_rep hA eps
  · obtain ⟨r, e, hr⟩ := eighWrapperT_rep hA solver
    rw [if_neg h, e]
    exact ⟨_, fun β _ => by simp [eigh, h], hr⟩

end Torchiva
