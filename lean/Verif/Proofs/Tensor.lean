import Verif.Spec.Tensor
import Verif.Proofs.Shape
import Verif.Proofs.TIss

/-! Tensors holding one item per batch index. -/

namespace Torchiva

set_option linter.unusedSimpArgs false

theorem bnat {n i : ℕ} (h : i < n) : (if n = 1 then 0 else i) = i := by
  split_ifs <;> omega

theorem bIdx_inside {β : List ℕ} {b : Shape} (h : Inside β b) : bIdx b β = β := by
  induction b generalizing β with
  | nil => cases β <;> simp_all [Inside, bIdx]
  | cons n b ih =>
    cases β with
    | nil => simp_all [Inside]
    | cons i β =>
      simp only [Inside] at h
      simp only [bIdx, ih h.2, bnat h.1]

variable {α γ : Type}

attribute [local simp] ok_bind' err_bind' pure_ok' comb_self comb_one_left comb_one_right bcast_self
  bcast_nil_left bcast_nil_right bcast_cons bcastTo sel pick onDim unsq swap01 swap12 move13
  reduceKeep maxKeep reduce bindLabel bindOp bindOps einsum matmul eighS List.lookup
  Ten.map Ten.map2 Ten.read bIdx sumOver opIdx einsumT bnat bIdx_inside



/-! ## One outcome per item -/

theorem Batched.pure {ρ A : Type} {b : Shape} {R : ρ → (List ℕ → A) → Prop} {t : ρ}
    {a : List ℕ → A} (h : R t a) : Batched b R (.ok t) fun β => .ok (a β) := ⟨a, fun _ _ => rfl, h⟩

theorem Batched.of_ok {ρ A : Type} {b : Shape} {R : ρ → (List ℕ → A) → Prop} {x : Except Err ρ}
    {a : List ℕ → A} (h : ∃ t, x = .ok t ∧ R t a) : Batched b R x fun β => .ok (a β) := by
  obtain ⟨t, rfl, h⟩ := h
  exact .pure h

theorem Batched.bind {ρ ρ' A A' : Type} {b : Shape} {R : ρ → (List ℕ → A) → Prop}
    {S : ρ' → (List ℕ → A') → Prop} {x : Except Err ρ} {y : List ℕ → Except Err A}
    {k : ρ → Except Err ρ'} {k' : List ℕ → A → Except Err A'} (h : Batched b R x y)
    (hk : ∀ t a, R t a → Batched b S (k t) fun β => k' β (a β)) :
    Batched b S (x >>= k) fun β => y β >>= k' β := by
  cases x with
  | error e =>
    obtain ⟨β, hβ, h⟩ := h
    exact ⟨β, hβ, by beta_reduce; rw [h]; rfl⟩
  | ok t =>
    obtain ⟨a, ha, h⟩ := h
    have := hk t a h
    rw [ok_bind']
    unfold Batched at this ⊢
    cases hx : k t with
    | error e =>
      rw [hx] at this
      obtain ⟨β, hβ, h2⟩ := this
      exact ⟨β, hβ, by beta_reduce; rw [ha β hβ]; exact h2⟩
    | ok t' =>
      rw [hx] at this
      obtain ⟨a', ha', h2⟩ := this
      exact ⟨a', fun β hβ => by beta_reduce; rw [ha β hβ]; exact ha' β hβ, h2⟩

/-- A step that cannot fail in front of the rest of the computation. -/
theorem Batched.bind_ok {ρ ρ' A A' : Type} {b : Shape} {R : ρ → (List ℕ → A) → Prop}
    {S : ρ' → (List ℕ → A') → Prop} {x : Except Err ρ} {a : List ℕ → A}
    {k : ρ → Except Err ρ'} {y : List ℕ → Except Err A'} (h : ∃ t, x = .ok t ∧ R t a)
    (hk : ∀ t, R t a → Batched b S (k t) y) : Batched b S (x >>= k) y := by
  obtain ⟨t, rfl, h⟩ := h
  exact hk t h

theorem Batched.congr {ρ A : Type} {b : Shape} {R : ρ → (List ℕ → A) → Prop} {x : Except Err ρ}
    {y y' : List ℕ → Except Err A} (h : Batched b R x y) (hy : ∀ β, Inside β b → y β = y' β) :
    Batched b R x y' := by
  cases x with
  | error e =>
    obtain ⟨β, hβ, h⟩ := h
    exact ⟨β, hβ, by rw [← hy β hβ, h]⟩
  | ok t =>
    obtain ⟨a, ha, h⟩ := h
    exact ⟨a, fun β hβ => by rw [← hy β hβ, ha β hβ], h⟩

/-- If every item returns, so does the batch. -/
theorem Batched.total {ρ A : Type} {b : Shape} {R : ρ → (List ℕ → A) → Prop} {x : Except Err ρ}
    {y : List ℕ → Except Err A} (h : Batched b R x y) (hy : ∀ β, Inside β b → ∃ a, y β = .ok a) :
    ∃ t, x = .ok t := by
  cases x with
  | ok t => exact ⟨t, rfl⟩
  | error e =>
    obtain ⟨β, hβ, h⟩ := h
    obtain ⟨a, ha⟩ := hy β hβ
    rw [ha] at h
    cases h

theorem Batched.iter {ρ A : Type} {b : Shape} {R : ρ → (List ℕ → A) → Prop} {f : ρ → Except Err ρ}
    {g : List ℕ → A → Except Err A} (h : ∀ t a, R t a → Batched b R (f t) fun β => g β (a β)) (n : ℕ)
    {t : ρ} {a : List ℕ → A} (ht : R t a) :
    Batched b R (iterM f n t) fun β => iterM (g β) n (a β) := by
  induction n generalizing t a with
  | zero => exact .pure ht
  | succ n ih => exact (h t a ht).bind fun t' a' h' => ih h'

theorem foldlM_rep {ρ A : Type} {R : ρ → (List ℕ → A) → Prop} {n : ℕ} {f : ρ → ℕ → Except Err ρ}
    {g : List ℕ → A → Fin n → A}
    (h : ∀ (i : Fin n) t a, R t a → ∃ t', f t i = .ok t' ∧ R t' fun β => g β (a β) i)
    {t : ρ} {a : List ℕ → A} (ht : R t a) :
    ∃ t', (List.range n).foldlM f t = .ok t' ∧ R t' fun β => (List.finRange n).foldl (g β) (a β) := by
  have e : List.range n = (List.finRange n).map Fin.val := by
    apply List.ext_getElem <;> simp
  rw [e]
  generalize List.finRange n = l
  induction l generalizing t a with
  | nil => exact ⟨t, rfl, ht⟩
  | cons i l ih =>
    obtain ⟨t1, h1, r1⟩ := h i t a ht
    simp only [List.map_cons, List.foldlM_cons, h1, ok_bind', List.foldl_cons]
    exact ih r1

/-- A loop over `range(n)` whose steps may fail. -/
theorem Batched.foldlM {ρ A : Type} {b : Shape} {R : ρ → (List ℕ → A) → Prop} {n : ℕ}
    {f : ρ → ℕ → Except Err ρ} {g : List ℕ → A → Fin n → Except Err A}
    (h : ∀ (i : Fin n) t a, R t a → Batched b R (f t i) fun β => g β (a β) i)
    {t : ρ} {a : List ℕ → A} (ht : R t a) :
    Batched b R ((List.range n).foldlM f t) fun β => (List.finRange n).foldlM (g β) (a β) := by
  have e : List.range n = (List.finRange n).map Fin.val := by
    apply List.ext_getElem <;> simp
  rw [e]
  generalize List.finRange n = l
  induction l generalizing t a with
  | nil => exact .pure ht
  | cons i l ih =>
    simp only [List.map_cons, List.foldlM_cons]
    exact (h i t a ht).bind fun t' a' h' => ih h'

/-! ## Exceptions of the frequencies -/

variable {e0 : Err}

theorem seqAll_error' {φ α : Type} {g : φ → Except Err α} {e : Err}
    (h : ∀ f, (∃ x, g f = .ok x) ∨ g f = .error e) (f0 : φ) (h0 : g f0 = .error e) :
    seqAll g = .error e := by
  have hn : ¬ ∀ f, ∃ x, g f = .ok x := fun hh => by
    obtain ⟨x, hx⟩ := hh f0
    rw [h0] at hx
    cases hx
  unfold seqAll
  rw [dif_neg hn]
  have h1 := (not_forall.1 hn).choose_spec
  rcases h (not_forall.1 hn).choose with h2 | h2
  · exact absurd h2 h1
  · rw [h2]

/-- The only possible exception is `e0`. -/
def OnlyErr {A : Type} (e0 : Err) (x : Except Err A) : Prop := ∀ e, x = .error e → e = e0

theorem OnlyErr.ok {A : Type} (a : A) : OnlyErr e0 (.ok a) := fun _ h => by cases h

theorem OnlyErr.bind {A B : Type} {x : Except Err A} {k : A → Except Err B} (h : OnlyErr e0 x)
    (hk : ∀ a, OnlyErr e0 (k a)) : OnlyErr e0 (x >>= k) := by
  cases x with
  | error e => exact fun e' h' => h e' (by simpa using h')
  | ok a => exact hk a

theorem OnlyErr.foldlM {A ι : Type} {g : A → ι → Except Err A} (h : ∀ a i, OnlyErr e0 (g a i))
    (l : List ι) (a : A) : OnlyErr e0 (l.foldlM g a) := by
  induction l generalizing a with
  | nil => exact .ok a
  | cons i l ih => exact (h a i).bind fun a' => ih a'

theorem onlySingular_solve {n k : ℕ} (A : Matrix (Fin n) (Fin n) ℂ) (B : Matrix (Fin n) (Fin k) ℂ) :
    OnlyErr .singular (solve A B) := by
  intro e h
  unfold solve at h
  split_ifs at h
  exact (Except.error.inj h).symm

theorem onlySingular_loaded {m n k : ℕ} (A : Matrix (Fin m) (Fin n) ℂ) (B : Matrix (Fin m) (Fin k) ℂ)
    (load eps : ℝ) : OnlyErr .singular (solveLoadedGeneral A B load eps) := onlySingular_solve _ _

theorem OnlyErr.cases {A : Type} {x : Except Err A} (h : OnlyErr e0 x) :
    (∃ a, x = .ok a) ∨ x = .error e0 := by
  cases x with
  | ok a => exact Or.inl ⟨a, rfl⟩
  | error e => exact Or.inr (by rw [h e rfl])

theorem seqAll_onlyErr {φ A : Type} {x : φ → Except Err A} (h : ∀ f, OnlyErr e0 (x f)) :
    (∃ a : φ → A, (∀ f, x f = .ok (a f)) ∧ seqAll x = .ok a) ∨
      ∃ f, x f = .error e0 ∧ seqAll x = .error e0 := by
  by_cases hx : ∀ f, ∃ a, x f = .ok a
  · refine Or.inl ⟨fun f => (hx f).choose, fun f => (hx f).choose_spec, seqAll_ok_iff.2 fun f => (hx f).choose_spec⟩
  · push Not at hx
    obtain ⟨f, hf⟩ := hx
    have h1 : x f = .error e0 := (h f).cases.resolve_left fun ⟨a, ha⟩ => hf a ha
    exact Or.inr ⟨f, h1, seqAll_error' (fun f => (h f).cases) f h1⟩

theorem OnlyErr.seqAll {φ A : Type} {x : φ → Except Err A} (h : ∀ f, OnlyErr e0 (x f)) :
    OnlyErr e0 (seqAll x) := by
  rcases seqAll_onlyErr h with ⟨a, -, h⟩ | ⟨f, -, h⟩ <;> rw [h] <;> intro e he <;> simp_all

/-- Running all frequencies through one step and then through the next is running each through both. -/
theorem seqAll_bind {φ A B : Type} {x : φ → Except Err A} {y : φ → A → Except Err B}
    (hx : ∀ f, OnlyErr e0 (x f)) (hy : ∀ f a, OnlyErr e0 (y f a)) :
    (seqAll fun f => x f >>= y f) = seqAll x >>= fun a => seqAll fun f => y f (a f) := by
  rcases seqAll_onlyErr hx with ⟨a, ha, e⟩ | ⟨f, hf, e⟩
  · rw [e, ok_bind']
    congr 1
    funext f
    rw [ha f, ok_bind']
  · rw [e]
    refine seqAll_error' (fun f => ((hx f).bind (hy f)).cases) f ?_
    rw [hf]; rfl

theorem seqAll_pure {φ A : Type} (a : φ → A) : (seqAll fun f => (.ok (a f) : Except Err A)) = .ok a :=
  seqAll_ok_iff.2 fun _ => rfl

/-- The frequencies in lock step, or one after the other. -/
theorem seqAll_foldlM {φ A ι : Type} {g : φ → A → ι → Except Err A}
    (h : ∀ f a i, OnlyErr e0 (g f a i)) (l : List ι) (a : φ → A) :
    (seqAll fun f => l.foldlM (g f) (a f)) = l.foldlM (fun a i => seqAll fun f => g f (a f) i) a := by
  induction l generalizing a with
  | nil => exact seqAll_pure a
  | cons i l ih =>
    simp only [List.foldlM_cons]
    rw [seqAll_bind (fun f => h f _ _) fun f a => .foldlM (h f) l a]
    congr 1
    funext a'
    exact ih a'

theorem inside_length {β : List ℕ} {b : Shape} (h : Inside β b) : β.length = b.length := by
  induction b generalizing β with
  | nil => cases β <;> simp_all [Inside]
  | cons n b ih => cases β with
    | nil => simp_all [Inside]
    | cons i β => simp only [Inside] at h; simp [ih h.2]

theorem inside_nil {β : List ℕ} (h : Inside β []) : β = [] := by
  cases β <;> simp_all [Inside]

/-- From the comparison with the formulas to the comparison with the items alone. -/
theorem Batched.alone {ρ A : Type} {b : Shape} {R R1 : ρ → (List ℕ → A) → Prop} {x : Except Err ρ}
    {y : List ℕ → Except Err A} {x1 : List ℕ → Except Err ρ} {y1 : List ℕ → List ℕ → Except Err A}
    {Q : List ℕ → ρ → ρ → Prop} (h : Batched b R x y)
    (h1 : ∀ β, Inside β b → Batched [] R1 (x1 β) (y1 β)) (hy : ∀ β, y1 β [] = y β)
    (hQ : ∀ β t t1 a a1, Inside β b → R t a → R1 t1 a1 → a1 [] = a β → Q β t t1) :
    AsAlone b Q x x1 := by
  cases x with
  | error e =>
    obtain ⟨β, hβ, h⟩ := h
    refine ⟨β, hβ, ?_⟩
    have h2 := h1 β hβ
    cases hx : x1 β with
    | error e' =>
      rw [hx] at h2
      obtain ⟨β', hβ', h2⟩ := h2
      obtain rfl := inside_nil hβ'
      rw [hy, h] at h2
      rw [Except.error.inj h2]
    | ok r1 =>
      rw [hx] at h2
      obtain ⟨a1, ha1, -⟩ := h2
      have h4 := ha1 [] trivial
      rw [hy, h] at h4
      cases h4
  | ok t =>
    obtain ⟨a, ha, h⟩ := h
    intro β hβ
    have h2 := h1 β hβ
    cases hx : x1 β with
    | error e =>
      rw [hx] at h2
      obtain ⟨β', hβ', h2⟩ := h2
      obtain rfl := inside_nil hβ'
      rw [hy, ha β hβ] at h2
      cases h2
    | ok r1 =>
      rw [hx] at h2
      obtain ⟨a1, ha1, h2⟩ := h2
      have h4 := ha1 [] trivial
      rw [hy, ha β hβ] at h4
      exact ⟨r1, rfl, hQ β t r1 a a1 hβ h h2 (Except.ok.inj h4).symm⟩

theorem Rep3.isItem {b : Shape} {p q r : ℕ} {t t1 : Ten α} {A A1} (h : Rep3 b p q r t A)
    (h1 : Rep3 [] p q r t1 A1) {β : List ℕ} (hβ : Inside β b) (e : A1 [] = A β) : IsItem β t t1 := by
  refine ⟨by simp [h.shape, h1.shape, inside_length hβ, show b.length + 1 + 1 + 1 - b.length = 3 by omega],
    fun idx hidx => ?_⟩
  rw [h1.shape] at hidx
  match idx, hidx with
  | [k, j, i], ⟨hk, hj, hi, _⟩ =>
    rw [h1.val [] trivial i hi j hj k hk, e]
    exact (h.val β hβ i hi j hj k hk).symm

theorem Rep2.isItem {b : Shape} {p q : ℕ} {t t1 : Ten α} {A A1} (h : Rep2 b p q t A)
    (h1 : Rep2 [] p q t1 A1) {β : List ℕ} (hβ : Inside β b) (e : A1 [] = A β) : IsItem β t t1 := by
  refine ⟨by simp [h.shape, h1.shape, inside_length hβ, show b.length + 1 + 1 - b.length = 2 by omega],
    fun idx hidx => ?_⟩
  rw [h1.shape] at hidx
  match idx, hidx with
  | [j, i], ⟨hj, hi, _⟩ =>
    rw [h1.val [] trivial i hi j hj, e]
    exact (h.val β hβ i hi j hj).symm

/-! ## Linear systems -/

variable {b : Shape}

/-- `torch.linalg.solve` on a stack of matrices, one per batch index and frequency. -/
theorem solveT_rep {F n k : ℕ} {A B : Ten ℂ}
    {AA : List ℕ → Fin F → Fin n → Fin n → ℂ} {AB : List ℕ → Fin F → Fin n → Fin k → ℂ}
    (hA : Rep3 b F n n A AA) (hB : Rep3 b F n k B AB) :
    Batched b (fun t (a : List ℕ → Fin F → Matrix (Fin n) (Fin k) ℂ) => Rep3 b F n k t fun β f i j => a β f i j)
      (solveT A B) fun β =>
      seqAll fun f => solve (Matrix.of (AA β f)) (Matrix.of (AB β f)) := by
  classical
  have hmat : ∀ β, Inside β b → ∀ f (hf : f < F), matAt A n (f :: β) = Matrix.of (AA β ⟨f, hf⟩) := by
    intro β hβ f hf
    ext i j
    simp [matAt, hA.shape, hβ, hf, hA.val]
  have hsh : ¬ (B.shape = A.shape.tail ∨ B.shape.length = 1) := by
    rw [hA.shape, hB.shape]
    rintro (h | h)
    · have := congrArg List.length h
      simp at this
    · simp at h
  have hs : solveS A.shape B.shape = .ok (k :: n :: F :: b) := by
    rw [hA.shape, hB.shape]
    have : ¬ (k :: n :: F :: b = n :: F :: b) := fun h => by
      have := congrArg List.length h
      simp at this
    simp [solveS, this]
  simp only [solveT, hs, ok_bind', if_neg hsh]
  rw [show A.shape.headD 0 = n by simp [hA.shape]]
  by_cases h : ∀ β, Inside β ((k :: n :: F :: b).drop 2) → IsUnit (matAt A n β).det
  · rw [if_pos h]
    refine ⟨fun β f => (Matrix.of (AA β f))⁻¹ * Matrix.of (AB β f), fun β hβ => ?_, rfl,
      fun β hβ f hf i hi j hj => ?_⟩
    · refine seqAll_ok_iff.2 fun f => ?_
      have h1 := h (f :: β) ⟨f.2, hβ⟩
      rw [hmat β hβ f f.2] at h1
      exact if_pos h1
    · simp [hi, hmat β hβ f hf, Matrix.mul_apply, Matrix.mulVec, dotProduct, hB.shape, hβ, hf, hj, hB.val]
  · rw [if_neg h]
    push Not at h
    obtain ⟨β', hβ', hu⟩ := h
    match β', hβ' with
    | f :: β, hβ' =>
      refine ⟨β, hβ'.2, seqAll_error' (fun f => ?_) ⟨f, hβ'.1⟩ ?_⟩
      · by_cases hd : IsUnit (Matrix.of (AA β f)).det
        · exact Or.inl ⟨_, if_pos hd⟩
        · exact Or.inr (if_neg hd)
      · rw [hmat β hβ'.2 f hβ'.1] at hu
        exact if_neg hu

/-- `solve_loaded_general` on a stack of matrices, one per batch index and frequency.  The right-hand
side may be broadcast. -/
theorem solveLoadedGeneralT_rep {F m n k : ℕ} {A B : Ten ℂ} (load eps : ℝ)
    {AA : List ℕ → Fin F → Fin m → Fin n → ℂ} {AB : List ℕ → Fin F → Fin m → Fin k → ℂ}
    (hA : Rep3 b F m n A AA) (hB : bcast B.shape (1 :: m :: F :: b) = .ok (k :: m :: F :: b))
    (hBv : ∀ β, Inside β b → ∀ f (hf : f < F) i (hi : i < m) j (hj : j < k),
      B.read (j :: i :: f :: β) = AB β ⟨f, hf⟩ ⟨i, hi⟩ ⟨j, hj⟩) :
    Batched b (fun t (a : List ℕ → Fin F → Matrix (Fin n) (Fin k) ℂ) => Rep3 b F n k t fun β f i j => a β f i j)
      (solveLoadedGeneralT A B load eps) fun β =>
      seqAll fun f => solveLoadedGeneral (Matrix.of (AA β f)) (Matrix.of (AB β f)) load eps := by
  classical
  have hw : ∃ w : Ten ℝ, normKeep A = .ok w ∧
      Rep3 b F m 1 w fun β f i _ => √(∑ j, ‖AA β f i j‖ ^ 2) := by
    simp [normKeep, Ten.sumKeep, hA.shape]
    refine ⟨rfl, fun β hβ f hf i hi j hj => ?_⟩
    simp [Finset.sum_range, hβ, hf, hi, hA.val]
  obtain ⟨w, hw, rw'⟩ := hw
  -- the scaled right-hand side
  have hb2 : ∃ b2 : Ten ℂ, Ten.map2 (fun x y => x * y) B (w.map fun x => 1 / clampMin x eps).toC = .ok b2 ∧
      Rep3 b F m k b2 fun β f i j => AB β f i j * (rowWeight (Matrix.of (AA β f)) eps i : ℂ) := by
    simp [Ten.toC, rw'.shape, hB]
    refine ⟨rfl, fun β hβ f hf i hi j hj => ?_⟩
    have := hBv β hβ f hf i hi j hj
    simp [Ten.read] at this
    simp [hβ, hf, hi, hj, this, rw'.val, rowWeight]
  obtain ⟨b2, hb2, rb2⟩ := hb2
  have hA2 : ∃ A2 : Ten ℂ, Ten.map2 (fun x y => x * y) A (w.map fun x => 1 / clampMin x eps).toC = .ok A2 ∧
      Rep3 b F m n A2 fun β f i j => AA β f i j * (rowWeight (Matrix.of (AA β f)) eps i : ℂ) := by
    simp [Ten.toC, rw'.shape, hA.shape]
    refine ⟨rfl, fun β hβ f hf i hi j hj => ?_⟩
    simp [hβ, hf, hi, hj, hA.val, rw'.val, rowWeight]
  obtain ⟨A2, hA2, rA2⟩ := hA2
  have hAA : ∃ t : Ten ℂ, einsumT [("km", A2.map star), ("kn", A2)] "mn" = .ok t ∧
      Rep3 b F n n t fun β f i j => ∑ l, star (AA β f l i * (rowWeight (Matrix.of (AA β f)) eps l : ℂ)) *
        (AA β f l j * (rowWeight (Matrix.of (AA β f)) eps l : ℂ)) := by
    simp [rA2.shape]
    refine ⟨rfl, fun β hβ f hf i hi j hj => ?_⟩
    simp [hβ, hf, hi, hj, rA2.val]
  obtain ⟨AAt, hAA, rAA⟩ := hAA
  have hAb : ∃ t : Ten ℂ, einsumT [("km", A2.map star), ("kn", b2)] "mn" = .ok t ∧
      Rep3 b F n k t fun β f i j => ∑ l, star (AA β f l i * (rowWeight (Matrix.of (AA β f)) eps l : ℂ)) *
        (AB β f l j * (rowWeight (Matrix.of (AA β f)) eps l : ℂ)) := by
    simp [rA2.shape, rb2.shape]
    refine ⟨rfl, fun β hβ f hf i hi j hj => ?_⟩
    simp [hβ, hf, hi, hj, rA2.val, rb2.val]
  obtain ⟨Abt, hAb, rAb⟩ := hAb
  have hL : ∃ t : Ten ℂ, Ten.map2 (fun x y => x + y) AAt ((Ten.eye n n).map fun x => (load : ℂ) * x) = .ok t ∧
      Rep3 b F n n t fun β f i j => (∑ l, star (AA β f l i * (rowWeight (Matrix.of (AA β f)) eps l : ℂ)) *
        (AA β f l j * (rowWeight (Matrix.of (AA β f)) eps l : ℂ))) + (load : ℂ) * (1 : Matrix (Fin n) (Fin n) ℂ) i j := by
    simp [rAA.shape, Ten.eye]
    refine ⟨rfl, fun β hβ f hf i hi j hj => ?_⟩
    simp [hβ, hf, hi, hj, rAA.val, Matrix.one_apply]
  obtain ⟨L, hL, rL⟩ := hL
  simp only [solveLoadedGeneralT, hw, ok_bind', hA2, hb2, hAA, hAb]
  rw [show A.shape.headD 0 = n by simp [hA.shape], hL, ok_bind']
  refine (solveT_rep rL rAb).congr fun β hβ => ?_
  congr 1

end Torchiva
