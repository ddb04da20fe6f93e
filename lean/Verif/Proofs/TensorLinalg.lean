import Verif.Model.TensorLinalg
import Verif.Proofs.Tensor

/-! Reshaping, maxima and loaded solves on tensors. -/

namespace Torchiva

set_option linter.unusedSimpArgs false

attribute [local simp] ok_bind' err_bind' pure_ok' comb_self comb_one_left comb_one_right bcast_self
  bcast_nil_left bcast_nil_right bcast_cons bcastTo sel pick onDim unsq swap01 swap12 move13
  reduceKeep maxKeep reduce bindLabel bindOp bindOps einsum matmul eighS List.lookup catS
  Ten.map Ten.map2 Ten.read bIdx sumOver opIdx einsumT bnat bIdx_inside Ten.swapIdx01 Ten.swapIdx12

variable {b : Shape} {e0 : Err}

/-! ## Dimensions seen as batch dimensions -/

theorem inside_append {l β : List ℕ} {p b : Shape} (hl : Inside l p) (hβ : Inside β b) :
    Inside (l ++ β) (p ++ b) := by
  induction p generalizing l with
  | nil => obtain rfl := inside_nil hl; exact hβ
  | cons n p ih => cases l with
    | nil => simp_all [Inside]
    | cons i l => exact ⟨hl.1, ih hl.2⟩

theorem inside_split {γ : List ℕ} {p b : Shape} (h : Inside γ (p ++ b)) :
    ∃ l β, γ = l ++ β ∧ Inside l p ∧ Inside β b := by
  induction p generalizing γ with
  | nil => exact ⟨[], γ, rfl, trivial, h⟩
  | cons n p ih => cases γ with
    | nil => simp_all [Inside]
    | cons i γ =>
      obtain ⟨l, β, rfl, hl, hβ⟩ := ih h.2
      exact ⟨i :: l, β, rfl, ⟨h.1, hl⟩, hβ⟩

/-- A computation on all positions of the leading dimensions `p` and all items, seen as one computation per item. -/
theorem Batched.seqPre {φ ρ A : Type} {p : Shape} (e : φ → List ℕ) (he : ∀ i, Inside (e i) p)
    (hsurj : ∀ l, Inside l p → ∃ i, e i = l) {R : ρ → (List ℕ → A) → Prop} {R' : ρ → (List ℕ → φ → A) → Prop}
    {x : Except Err ρ} {y : List ℕ → Except Err A} (h : Batched (p ++ b) R x y)
    (hy : ∀ γ, OnlyErr e0 (y γ)) (hR : ∀ t a, R t a → R' t fun β i => a (e i ++ β)) :
    Batched b R' x fun β => seqAll fun i => y (e i ++ β) := by
  cases x with
  | ok t =>
    obtain ⟨a, ha, hr⟩ := h
    exact ⟨fun β i => a (e i ++ β), fun β hβ => seqAll_ok_iff.2 fun i => ha _ (inside_append (he i) hβ), hR t a hr⟩
  | error er =>
    obtain ⟨γ, hγ, hr⟩ := h
    obtain ⟨l, β, rfl, hl, hβ⟩ := inside_split hγ
    obtain ⟨i, rfl⟩ := hsurj l hl
    refine ⟨β, hβ, ?_⟩
    obtain rfl := hy _ _ hr
    exact seqAll_error' (fun f => (hy _).cases) i hr

/-- The last leading dimension, for instance the frequencies. -/
theorem Batched.seq1 {ρ A : Type} {F : ℕ} {R : ρ → (List ℕ → A) → Prop} {R' : ρ → (List ℕ → Fin F → A) → Prop}
    {x : Except Err ρ} {y : List ℕ → Except Err A} (h : Batched (F :: b) R x y)
    (hy : ∀ γ, OnlyErr e0 (y γ)) (hR : ∀ t a, R t a → R' t fun β f => a ((f : ℕ) :: β)) :
    Batched b R' x fun β => seqAll fun f : Fin F => y ((f : ℕ) :: β) :=
  Batched.seqPre (p := [F]) (fun f : Fin F => [(f : ℕ)]) (fun f => ⟨f.2, trivial⟩)
    (fun l hl => by
      match l, hl with
      | [i], hl => exact ⟨⟨i, hl.1⟩, rfl⟩) h hy hR

/-- The last two leading dimensions, for instance sources and frequencies. -/
theorem Batched.seq2 {ρ A : Type} {S F : ℕ} {R : ρ → (List ℕ → A) → Prop}
    {R' : ρ → (List ℕ → Fin S × Fin F → A) → Prop}
    {x : Except Err ρ} {y : List ℕ → Except Err A} (h : Batched (F :: S :: b) R x y)
    (hy : ∀ γ, OnlyErr e0 (y γ)) (hR : ∀ t a, R t a → R' t fun β p => a ((p.2 : ℕ) :: (p.1 : ℕ) :: β)) :
    Batched b R' x fun β => seqAll fun p : Fin S × Fin F => y ((p.2 : ℕ) :: (p.1 : ℕ) :: β) :=
  Batched.seqPre (p := [F, S]) (fun p : Fin S × Fin F => [(p.2 : ℕ), (p.1 : ℕ)])
    (fun p => ⟨p.2.2, p.1.2, trivial⟩)
    (fun l hl => by
      match l, hl with
      | [i, j], hl => exact ⟨(⟨j, hl.2.1⟩, ⟨i, hl.1⟩), rfl⟩) h hy hR

/-! ## Memory order -/

theorem unflat_flat {β : List ℕ} {b : Shape} (h : Inside β b) : unflatIdx b (flatIdx b β) = β := by
  induction b generalizing β with
  | nil => rw [inside_nil h]; rfl
  | cons n b ih => cases β with
    | nil => simp_all [Inside]
    | cons i β =>
      have hn : 0 < n := by have := h.1; omega
      simp only [flatIdx, unflatIdx]
      rw [Nat.add_mul_mod_self_left, Nat.mod_eq_of_lt h.1, Nat.add_mul_div_left _ _ hn, Nat.div_eq_of_lt h.1,
        Nat.zero_add, ih h.2]

theorem unflat_cons {n i r : ℕ} (s : Shape) (hi : i < n) : unflatIdx (n :: s) (i + n * r) = i :: unflatIdx s r := by
  have hn : 0 < n := by omega
  simp only [unflatIdx]
  rw [Nat.add_mul_mod_self_left, Nat.mod_eq_of_lt hi, Nat.add_mul_div_left _ _ hn, Nat.div_eq_of_lt hi,
    Nat.zero_add]

/-- Two dimensions from one. -/
theorem unflat_two {T C k r : ℕ} (s : Shape) (hk : k < T * C) :
    unflatIdx (T :: C :: s) (k + T * C * r) = k % T :: k / T :: unflatIdx s r := by
  have hT : 0 < T := Nat.pos_of_ne_zero fun h => by simp [h] at hk
  have hC : 0 < C := Nat.pos_of_ne_zero fun h => by simp [h] at hk
  have h1 : k / T < C := Nat.div_lt_of_lt_mul hk
  simp only [unflatIdx]
  rw [mul_assoc, Nat.add_mul_mod_self_left, Nat.add_mul_div_left _ _ hT, Nat.add_mul_mod_self_left,
    Nat.mod_eq_of_lt h1, Nat.add_mul_div_left _ _ hC, Nat.div_eq_of_lt h1, Nat.zero_add]

/-- One dimension from two. -/
theorem unflat_one {T C t c r : ℕ} (s : Shape) (ht : t < T) (hc : c < C) :
    unflatIdx (T * C :: s) (t + T * (c + C * r)) = (t + T * c) :: unflatIdx s r := by
  have h : t + T * c < T * C := by
    calc t + T * c < T + T * c := by omega
      _ = T * (c + 1) := by ring
      _ ≤ T * C := Nat.mul_le_mul_left _ hc
  rw [← unflat_cons s h]
  congr 1
  ring

/-! ## Loading -/

theorem sSup_range_eq {n : ℕ} (hn : 0 < n) (g : Fin n → ℝ) (g' : ℕ → ℝ) (h : ∀ i (hi : i < n), g' i = g ⟨i, hi⟩) :
    sSup {x | ∃ i, i < n ∧ x = g' i} =
      Finset.univ.sup' (Finset.univ_nonempty_iff.2 ⟨⟨0, hn⟩⟩) g := by
  have : {x | ∃ i, i < n ∧ x = g' i} = Set.range g := by
    ext x
    constructor
    · rintro ⟨i, hi, rfl⟩; exact ⟨⟨i, hi⟩, (h i hi).symm⟩
    · rintro ⟨i, rfl⟩; exact ⟨i, i.2, (h i i.2).symm⟩
  rw [this, Finset.sup'_eq_csSup_image]
  simp

theorem loadT_rep {n : ℕ} (hn : 0 < n) {A : Ten ℂ} {AA : List ℕ → Fin n → Fin n → ℂ} (hA : Rep2 b n n A AA)
    (load : ℝ) : ∃ t, loadT A load = .ok t ∧ Rep2 b n n t fun β i j => AA β i j +
      (clampMin (load * Finset.univ.sup' (Finset.univ_nonempty_iff.2 ⟨⟨0, hn⟩⟩) fun j =>
        Finset.univ.sup' (Finset.univ_nonempty_iff.2 ⟨⟨0, hn⟩⟩) fun i => ‖AA β i j‖) load : ℂ) *
      (1 : Matrix (Fin n) (Fin n) ℂ) i j := by
  have hn' : n ≠ 0 := by omega
  have h1 : ∃ m1, Ten.maxKeep 1 (A.map fun z => ‖z‖) = .ok m1 ∧ Rep2 b 1 n m1 fun β _ j =>
      Finset.univ.sup' (Finset.univ_nonempty_iff.2 ⟨⟨0, hn⟩⟩) fun i => ‖AA β i j‖ := by
    simp [Ten.maxKeep, hA.shape, hn']
    refine ⟨rfl, fun β hβ i hi j hj => ?_⟩
    simp only [List.set_cons_succ, List.set_cons_zero]
    exact sSup_range_eq hn (fun i => ‖AA β i ⟨j, hj⟩‖) _ fun i hi => by rw [hA.val β hβ i hi j hj]
  obtain ⟨m1, e1, r1⟩ := h1
  have h2 : ∃ m, m1.maxKeep 0 = .ok m ∧ Rep2 b 1 1 m fun β _ _ =>
      Finset.univ.sup' (Finset.univ_nonempty_iff.2 ⟨⟨0, hn⟩⟩) fun j =>
      Finset.univ.sup' (Finset.univ_nonempty_iff.2 ⟨⟨0, hn⟩⟩) fun i => ‖AA β i j‖ := by
    simp [Ten.maxKeep, r1.shape, hn']
    refine ⟨rfl, fun β hβ i hi j hj => ?_⟩
    simp only [List.set_cons_zero]
    exact sSup_range_eq hn _ _ fun j hj => r1.val β hβ i hi j hj
  obtain ⟨m, e2, r2⟩ := h2
  have h3 : ∃ D, Ten.map2 (fun x y => x * y) (m.map fun x => clampMin (load * x) load).toC (Ten.eye n n) = .ok D ∧
      Rep2 b n n D fun β i j => (clampMin (load * Finset.univ.sup' (Finset.univ_nonempty_iff.2 ⟨⟨0, hn⟩⟩) fun j =>
        Finset.univ.sup' (Finset.univ_nonempty_iff.2 ⟨⟨0, hn⟩⟩) fun i => ‖AA β i j‖) load : ℂ) *
      (1 : Matrix (Fin n) (Fin n) ℂ) i j := by
    simp [Ten.toC, r2.shape, Ten.eye]
    refine ⟨rfl, fun β hβ i hi j hj => ?_⟩
    simp [hβ, hi, hj, r2.val β hβ 0 (by omega) 0 (by omega), Matrix.one_apply]
  obtain ⟨D, e3, r3⟩ := h3
  have e4 : A.shape.headD 0 = n := by simp [hA.shape]
  simp only [loadT, e4, e1, e2, e3, ok_bind']
  simp [hA.shape, r3.shape]
  refine ⟨rfl, fun β hβ i hi j hj => ?_⟩
  simp [hβ, hi, hj, r3.val, hA.val]

theorem loadT_empty {A : Ten ℂ} {AA : List ℕ → Fin 0 → Fin 0 → ℂ} (hA : Rep2 b 0 0 A AA) (load : ℝ) :
    loadT A load = .error .indexError := by
  simp [loadT, Ten.maxKeep, hA.shape]

/-! ## Systems, one per batch index -/

theorem solveT_mat {n k : ℕ} {A B : Ten ℂ} {AA : List ℕ → Fin n → Fin n → ℂ} {AB : List ℕ → Fin n → Fin k → ℂ}
    (hA : Rep2 b n n A AA) (hB : Rep2 b n k B AB) :
    Batched b (fun t (a : List ℕ → Matrix (Fin n) (Fin k) ℂ) => Rep2 b n k t fun β i j => a β i j)
      (solveT A B) fun β => solve (Matrix.of (AA β)) (Matrix.of (AB β)) := by
  classical
  have hmat : ∀ β, Inside β b → matAt A n β = Matrix.of (AA β) := by
    intro β hβ
    ext i j
    simp [matAt, hA.shape, hβ, hA.val]
  have hsh : ¬ (B.shape = A.shape.tail ∨ B.shape.length = 1) := by
    rw [hA.shape, hB.shape]
    rintro (h | h)
    · have := congrArg List.length h
      simp at this
    · simp at h
  have hs : solveS A.shape B.shape = .ok (k :: n :: b) := by
    rw [hA.shape, hB.shape]
    have : ¬ (k :: n :: b = n :: b) := fun h => by
      have := congrArg List.length h
      simp at this
    simp [solveS, this]
  simp only [solveT, hs, ok_bind', if_neg hsh]
  rw [show A.shape.headD 0 = n by simp [hA.shape]]
  by_cases h : ∀ β, Inside β ((k :: n :: b).drop 2) → IsUnit (matAt A n β).det
  · rw [if_pos h]
    refine ⟨fun β => (Matrix.of (AA β))⁻¹ * Matrix.of (AB β), fun β hβ => ?_, rfl,
      fun β hβ i hi j hj => ?_⟩
    · have h1 := h β hβ
      rw [hmat β hβ] at h1
      exact if_pos h1
    · simp [hi, hmat β hβ, Matrix.mul_apply, Matrix.mulVec, dotProduct, hB.shape, hβ, hj, hB.val]
  · rw [if_neg h]
    push Not at h
    obtain ⟨β, hβ, hu⟩ := h
    refine ⟨β, hβ, ?_⟩
    rw [hmat β hβ] at hu
    exact if_neg hu

theorem solveT_vec {n : ℕ} {A B : Ten ℂ} {AA : List ℕ → Fin n → Fin n → ℂ} {AB : List ℕ → Fin n → ℂ}
    (hA : Rep2 b n n A AA) (hB : Rep1 b n B AB) :
    Batched b (fun t (a : List ℕ → Matrix (Fin n) Unit ℂ) => Rep1 b n t fun β i => a β i ())
      (solveT A B) fun β => solve (Matrix.of (AA β)) (Matrix.of fun i (_ : Unit) => AB β i) := by
  classical
  have hmat : ∀ β, Inside β b → matAt A n β = Matrix.of (AA β) := by
    intro β hβ
    ext i j
    simp [matAt, hA.shape, hβ, hA.val]
  have hsh : (B.shape = A.shape.tail ∨ B.shape.length = 1) := by
    rw [hA.shape, hB.shape]
    exact Or.inl rfl
  have hs : solveS A.shape B.shape = .ok (n :: b) := by
    rw [hA.shape, hB.shape]
    simp [solveS]
  simp only [solveT, hs, ok_bind', if_pos hsh]
  rw [show A.shape.headD 0 = n by simp [hA.shape]]
  by_cases h : ∀ β, Inside β ((n :: b).tail) → IsUnit (matAt A n β).det
  · rw [if_pos h]
    refine ⟨fun β => (Matrix.of (AA β))⁻¹ * Matrix.of fun i (_ : Unit) => AB β i, fun β hβ => ?_, rfl,
      fun β hβ i hi => ?_⟩
    · have h1 := h β hβ
      rw [hmat β hβ] at h1
      exact if_pos h1
    · simp [hi, hmat β hβ, Matrix.mul_apply, Matrix.mulVec, dotProduct, hB.shape, hβ, hB.val]
  · rw [if_neg h]
    push Not at h
    obtain ⟨β, hβ, hu⟩ := h
    refine ⟨β, hβ, ?_⟩
    rw [hmat β hβ] at hu
    exact if_neg hu

theorem invT_rep {n : ℕ} {A : Ten ℂ} {AA : List ℕ → Fin n → Fin n → ℂ} (hA : Rep2 b n n A AA) :
    Batched b (fun t (a : List ℕ → Matrix (Fin n) (Fin n) ℂ) => Rep2 b n n t fun β i j => a β i j)
      (invT A) fun β => inv (Matrix.of (AA β)) := by
  classical
  have hmat : ∀ β, Inside β b → matAt A n β = Matrix.of (AA β) := by
    intro β hβ
    ext i j
    simp [matAt, hA.shape, hβ, hA.val]
  simp only [invT, hA.shape, if_true]
  by_cases h : ∀ β, Inside β b → IsUnit (matAt A n β).det
  · rw [if_pos h]
    refine ⟨fun β => (Matrix.of (AA β))⁻¹, fun β hβ => ?_, rfl, fun β hβ i hi j hj => ?_⟩
    · have h1 := h β hβ
      rw [hmat β hβ] at h1
      exact if_pos h1
    · simp [hi, hj, hmat β hβ]
  · rw [if_neg h]
    push Not at h
    obtain ⟨β, hβ, hu⟩ := h
    refine ⟨β, hβ, ?_⟩
    rw [hmat β hβ] at hu
    exact if_neg hu

section loaded
variable {n k : ℕ} {A B : Ten ℂ} {AA : List ℕ → Fin n → Fin n → ℂ}

theorem maxAbs_fin (hn : 0 < n) (M : Matrix (Fin n) (Fin n) ℂ) :
    maxAbs M = .ok (Finset.univ.sup' (Finset.univ_nonempty_iff.2 ⟨⟨0, hn⟩⟩) fun j =>
      Finset.univ.sup' (Finset.univ_nonempty_iff.2 ⟨⟨0, hn⟩⟩) fun i => ‖M i j‖) := by
  have : Nonempty (Fin n) := ⟨⟨0, hn⟩⟩
  unfold maxAbs
  rw [dif_pos ⟨this, this⟩]

theorem maxAbs_fin_zero (M : Matrix (Fin 0) (Fin 0) ℂ) : maxAbs M = .error .indexError := by
  unfold maxAbs
  rw [dif_neg]
  rintro ⟨⟨i⟩, -⟩
  exact i.elim0

theorem solveLoadedT_mat (hb : ∃ β, Inside β b) {AB : List ℕ → Fin n → Fin k → ℂ}
    (hA : Rep2 b n n A AA) (hB : Rep2 b n k B AB) (load : ℝ) :
    Batched b (fun t (a : List ℕ → Matrix (Fin n) (Fin k) ℂ) => Rep2 b n k t fun β i j => a β i j)
      (solveLoadedT A B load) fun β => solveLoaded (Matrix.of (AA β)) (Matrix.of (AB β)) load := by
  rcases Nat.eq_zero_or_pos n with rfl | hn
  · obtain ⟨β, hβ⟩ := hb
    simp only [solveLoadedT, loadT_empty hA, err_bind']
    exact ⟨β, hβ, by simp only [solveLoaded, maxAbs_fin_zero]; rfl⟩
  · obtain ⟨L, e, r⟩ := loadT_rep hn hA load
    simp only [solveLoadedT, e, ok_bind']
    refine (solveT_mat r hB).congr fun β hβ => ?_
    simp only [solveLoaded, maxAbs_fin hn, ok_bind']
    rfl

theorem solveLoadedT_vec (hb : ∃ β, Inside β b) {AB : List ℕ → Fin n → ℂ}
    (hA : Rep2 b n n A AA) (hB : Rep1 b n B AB) (load : ℝ) :
    Batched b (fun t (a : List ℕ → Matrix (Fin n) Unit ℂ) => Rep1 b n t fun β i => a β i ())
      (solveLoadedT A B load) fun β => solveLoaded (Matrix.of (AA β)) (Matrix.of fun i (_ : Unit) => AB β i) load := by
  rcases Nat.eq_zero_or_pos n with rfl | hn
  · obtain ⟨β, hβ⟩ := hb
    simp only [solveLoadedT, loadT_empty hA, err_bind']
    exact ⟨β, hβ, by simp only [solveLoaded, maxAbs_fin_zero]; rfl⟩
  · obtain ⟨L, e, r⟩ := loadT_rep hn hA load
    simp only [solveLoadedT, e, ok_bind']
    refine (solveT_vec r hB).congr fun β hβ => ?_
    simp only [solveLoaded, maxAbs_fin hn, ok_bind']
    rfl

theorem invLoadedT_rep (hb : ∃ β, Inside β b) (hA : Rep2 b n n A AA) (load : ℝ) :
    Batched b (fun t (a : List ℕ → Matrix (Fin n) (Fin n) ℂ) => Rep2 b n n t fun β i j => a β i j)
      (invLoadedT A load) fun β => invLoaded (Matrix.of (AA β)) load := by
  rcases Nat.eq_zero_or_pos n with rfl | hn
  · obtain ⟨β, hβ⟩ := hb
    simp only [invLoadedT, loadT_empty hA, err_bind']
    exact ⟨β, hβ, by simp only [invLoaded, maxAbs_fin_zero]; rfl⟩
  · obtain ⟨L, e, r⟩ := loadT_rep hn hA load
    simp only [invLoadedT, e, ok_bind']
    refine (invT_rep r).congr fun β hβ => ?_
    simp only [invLoaded, maxAbs_fin hn, ok_bind']
    rfl

end loaded

/-- The exception of the loaded solve depends only on the size. -/
theorem onlyErr_solveLoaded (n : ℕ) : ∃ e0, ∀ (κ : Type) (A : Matrix (Fin n) (Fin n) ℂ) (B : Matrix (Fin n) κ ℂ)
    (load : ℝ), OnlyErr e0 (solveLoaded A B load) := by
  rcases Nat.eq_zero_or_pos n with rfl | hn
  · refine ⟨.indexError, fun κ A B load e h => ?_⟩
    simp only [solveLoaded, maxAbs_fin_zero, err_bind'] at h
    exact (Except.error.inj h).symm
  · refine ⟨.singular, fun κ A B load e h => ?_⟩
    simp only [solveLoaded, maxAbs_fin hn, ok_bind'] at h
    unfold solve at h
    split_ifs at h
    exact (Except.error.inj h).symm

theorem onlyErr_invLoaded (n : ℕ) : ∃ e0, ∀ (A : Matrix (Fin n) (Fin n) ℂ)
    (load : ℝ), OnlyErr e0 (invLoaded A load) := by
  rcases Nat.eq_zero_or_pos n with rfl | hn
  · refine ⟨.indexError, fun A load e h => ?_⟩
    simp only [invLoaded, maxAbs_fin_zero, err_bind'] at h
    exact (Except.error.inj h).symm
  · refine ⟨.singular, fun A load e h => ?_⟩
    simp only [invLoaded, maxAbs_fin hn, ok_bind'] at h
    unfold inv at h
    split_ifs at h
    exact (Except.error.inj h).symm

/-! ## Frequencies and other dimensions as part of the batch index -/

/-- A family indexed by a dimension and the batch index, as a family over longer batch indices. -/
def joinF {δ : Type} {F : ℕ} (d : δ) (A : List ℕ → Fin F → δ) : List ℕ → δ
  | f :: β => if h : f < F then A β ⟨f, h⟩ else d
  | [] => d

@[simp] theorem joinF_cons {δ : Type} {F : ℕ} (d : δ) (A : List ℕ → Fin F → δ) (f : Fin F) (β : List ℕ) :
    joinF d A ((f : ℕ) :: β) = A β f := by simp [joinF]

theorem Rep3.join {α : Type} [Zero α] {F p q : ℕ} {t : Ten α} {A : List ℕ → Fin F → Fin p → Fin q → α} (h : Rep3 b F p q t A) :
    Rep2 (F :: b) p q t (joinF (fun _ _ => 0) A) := by
  refine ⟨h.shape, fun γ hγ i hi j hj => ?_⟩
  match γ, hγ with
  | f :: β, hγ => simp [joinF, hγ.1, h.val β hγ.2 f hγ.1 i hi j hj]

theorem Rep2.join {α : Type} [Zero α] {F p : ℕ} {t : Ten α} {A : List ℕ → Fin F → Fin p → α} (h : Rep2 b F p t A) :
    Rep1 (F :: b) p t (joinF (fun _ => 0) A) := by
  refine ⟨h.shape, fun γ hγ i hi => ?_⟩
  match γ, hγ with
  | f :: β, hγ => simp [joinF, hγ.1, h.val β hγ.2 f hγ.1 i hi]

theorem Rep2.split {α : Type} {F p q : ℕ} {t : Ten α} {A : List ℕ → Fin p → Fin q → α} (h : Rep2 (F :: b) p q t A) :
    Rep3 b F p q t fun β f => A ((f : ℕ) :: β) :=
  ⟨h.shape, fun β hβ f hf i hi j hj => h.val (f :: β) ⟨hf, hβ⟩ i hi j hj⟩

theorem Rep1.split {α : Type} {F p : ℕ} {t : Ten α} {A : List ℕ → Fin p → α} (h : Rep1 (F :: b) p t A) :
    Rep2 b F p t fun β f => A ((f : ℕ) :: β) :=
  ⟨h.shape, fun β hβ f hf i hi => h.val (f :: β) ⟨hf, hβ⟩ i hi⟩

theorem Rep4.join {α : Type} [Zero α] {S F p q : ℕ} {t : Ten α} {A : List ℕ → Fin S → Fin F → Fin p → Fin q → α}
    (h : Rep4 b S F p q t A) : Rep3 (S :: b) F p q t (joinF (fun _ _ _ => 0) A) := by
  refine ⟨h.shape, fun γ hγ i hi j hj k hk => ?_⟩
  match γ, hγ with
  | f :: β, hγ => simp [joinF, hγ.1, h.val β hγ.2 f hγ.1 i hi j hj k hk]

theorem Rep3.split {α : Type} {S F p q : ℕ} {t : Ten α} {A : List ℕ → Fin F → Fin p → Fin q → α} (h : Rep3 (S :: b) F p q t A) :
    Rep4 b S F p q t fun β s => A ((s : ℕ) :: β) :=
  ⟨h.shape, fun β hβ s hs f hf i hi j hj => h.val (s :: β) ⟨hs, hβ⟩ f hf i hi j hj⟩

/-! ## Other names for the rows -/

section equiv
variable {ι ι' κ : Type} [Fintype ι] [DecidableEq ι] [Fintype ι'] [DecidableEq ι']

theorem maxAbs_equiv (A : Matrix ι ι ℂ) (e : ι' ≃ ι) : maxAbs (A.submatrix e e) = maxAbs A := by
  unfold maxAbs
  by_cases h : Nonempty ι ∧ Nonempty ι
  · have h' : Nonempty ι' ∧ Nonempty ι' := ⟨h.1.map e.symm, h.1.map e.symm⟩
    rw [dif_pos h, dif_pos h']
    congr 1
    apply le_antisymm
    · refine Finset.sup'_le _ _ fun j _ => Finset.sup'_le _ _ fun i _ => ?_
      exact (Finset.le_sup' (fun i => ‖A i (e j)‖) (Finset.mem_univ (e i))).trans
        (Finset.le_sup' (fun j => Finset.univ.sup' _ fun i => ‖A i j‖) (Finset.mem_univ (e j)))
    · refine Finset.sup'_le _ _ fun j _ => Finset.sup'_le _ _ fun i _ => ?_
      have h1 : ‖A i j‖ = ‖(A.submatrix e e) (e.symm i) (e.symm j)‖ := by simp
      rw [h1]
      exact (Finset.le_sup' (fun i => ‖(A.submatrix e e) i (e.symm j)‖) (Finset.mem_univ (e.symm i))).trans
        (Finset.le_sup' (fun j => Finset.univ.sup' _ fun i => ‖(A.submatrix e e) i j‖) (Finset.mem_univ (e.symm j)))
  · rw [dif_neg h, dif_neg fun h' => h ⟨h'.1.map e, h'.1.map e⟩]

theorem solveLoaded_equiv (A : Matrix ι ι ℂ) (B : Matrix ι κ ℂ) (e : ι' ≃ ι) (load : ℝ) :
    solveLoaded (A.submatrix e e) (B.submatrix e id) load =
      (solveLoaded A B load).map fun x => x.submatrix e id := by
  unfold solveLoaded
  rw [maxAbs_equiv]
  cases maxAbs A with
  | error e => rfl
  | ok m =>
    simp only [bind, Except.bind]
    have e1 : A.submatrix e e + ((clampMin (load * m) load : ℝ) : ℂ) • (1 : Matrix ι' ι' ℂ) =
        (A + ((clampMin (load * m) load : ℝ) : ℂ) • (1 : Matrix ι ι ℂ)).submatrix e e := by
      ext i j
      simp [Matrix.one_apply]
    rw [e1]
    unfold solve
    rw [Matrix.det_submatrix_equiv_self, Matrix.inv_submatrix_equiv, Matrix.submatrix_mul_equiv]
    split_ifs <;> rfl

end equiv

end Torchiva
