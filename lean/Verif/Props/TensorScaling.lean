import Verif.Proofs.TensorScaling

/-!
# The scaling functions treat a batch item by item (C134)
-/

namespace Torchiva.Props

open Torchiva

variable {b : Shape} {C F N : ℕ}

/-- The item at batch index `β` of a tensor `(..., p, q)`. -/
def item2 {α : Type} (t : Ten α) (p q : ℕ) (β : List ℕ) : Fin p → Fin q → α := fun i j => t.val (j :: i :: β)

/-- **C134**, `projection_back`.  With at least as many frames as channels, a batch of signals is rescaled exactly when every
signal can be rescaled alone, and to the same result; when it raises, it does so for one of the signals. -/
theorem projection_back_batch (sorter : Sorter) (hC : C ≠ 0) (hCN : C ≤ N) (Y ref : Ten ℂ)
    (hY : Y.shape = N :: F :: C :: b) (hR : ref.shape = N :: F :: b) :
    Batched b (fun t (a : List ℕ → Sig C F N) => Rep3 b C F N t a) (projectionBackT sorter Y ref) fun β =>
      projectionBack (sorter N) (item3 Y C F N β) (item2 ref F N β) :=
  projectionBackT_rep sorter hC hCN ⟨hY, fun _ _ _ _ _ _ _ _ => rfl⟩ ⟨hR, fun _ _ _ _ _ _ => rfl⟩

example (sorter : Sorter) (Y ref : Ten ℂ) (hY : Y.shape = [50, 129, 4, 2, 3]) (hR : ref.shape = [50, 129, 2, 3]) :
    Batched [2, 3] (fun t (a : List ℕ → Sig 4 129 50) => Rep3 [2, 3] 4 129 50 t a) (projectionBackT sorter Y ref) fun β =>
      projectionBack (sorter 50) (item3 Y 4 129 50 β) (item2 ref 129 50 β) :=
  projection_back_batch sorter (by norm_num) (by norm_num) Y ref hY hR

/-- **C134**, seen from outside: `projection_back(Y, ref)[β] = projection_back(Y[β], ref[β])`. -/
theorem projection_back_batch_alone (sorter : Sorter) (hC : C ≠ 0) (hCN : C ≤ N) (Y ref : Ten ℂ)
    (hY : Y.shape = N :: F :: C :: b) (hR : ref.shape = N :: F :: b) :
    AsAlone b IsItem (projectionBackT sorter Y ref) fun β =>
      projectionBackT sorter (Y.itemAt 3 β) (ref.itemAt 2 β) :=
  (projection_back_batch sorter hC hCN Y ref hY hR).alone
    (fun β _ => projection_back_batch sorter hC hCN (Y.itemAt 3 β) (ref.itemAt 2 β) (by simp [Ten.itemAt, hY])
      (by simp [Ten.itemAt, hR])) (fun _ => rfl) fun _ _ _ _ _ hβ h h1 e => h.isItem h1 hβ e

/-- **C134**: with fewer frames than channels `projection_back` raises for every non-empty batch. -/
theorem projection_back_few_frames (sorter : Sorter) (hNC : N < C) (Y ref : Ten ℂ) (hF : F ≠ 0) (hb : ∃ β, Inside β b)
    (hY : Y.shape = N :: F :: C :: b) (hR : ref.shape = N :: F :: b) : ∃ e, projectionBackT sorter Y ref = .error e :=
  projectionBackT_few sorter hNC hF hb hY hR

/-- **C134**, `minimum_distortion_l2`: every batch is rescaled, and every item to what the function gives for it. -/
theorem min_distortion_l2_batch (Y ref : Ten ℂ) (hY : Y.shape = N :: F :: C :: b) (hR : ref.shape = N :: F :: b) :
    ∃ t, minDistL2T Y ref = .ok t ∧ t.shape = Y.shape ∧
      (∀ β, Inside β b → ∀ c f n, item3 t C F N β c f n = minDistL2 (item3 Y C F N β) (item2 ref F N β) c f n) ∧
      ∀ β, Inside β b → ∃ t1, minDistL2T (Y.itemAt 3 β) (ref.itemAt 2 β) = .ok t1 ∧ IsItem β t t1 := by
  have key : ∀ (b : Shape) (Y ref : Ten ℂ), Y.shape = N :: F :: C :: b → ref.shape = N :: F :: b →
      ∃ t, minDistL2T Y ref = .ok t ∧
        Rep3 b C F N t fun β => minDistL2 (item3 Y C F N β) (item2 ref F N β) := fun b Y ref hY hR =>
    minDistL2T_rep ⟨hY, fun _ _ _ _ _ _ _ _ => rfl⟩ ⟨hR, fun _ _ _ _ _ _ => rfl⟩
  obtain ⟨t, e, ht⟩ := key b Y ref hY hR
  refine ⟨t, e, by rw [ht.shape, hY], fun β hβ c f n => ht.val β hβ c c.2 f f.2 n n.2, fun β hβ => ?_⟩
  obtain ⟨t1, e1, h1⟩ := key [] (Y.itemAt 3 β) (ref.itemAt 2 β) (by simp [Ten.itemAt, hY]) (by simp [Ten.itemAt, hR])
  exact ⟨t1, e1, ht.isItem h1 hβ rfl⟩

/-- **C134**, `minimum_distortion_l2_phase`. -/
theorem min_distortion_phase_batch (Y ref : Ten ℂ) (hY : Y.shape = N :: F :: C :: b) (hR : ref.shape = N :: F :: b) :
    ∃ t, minDistL2PhaseT Y ref = .ok t ∧ t.shape = Y.shape ∧
      (∀ β, Inside β b → ∀ c f n, item3 t C F N β c f n = minDistL2Phase (item3 Y C F N β) (item2 ref F N β) c f n) ∧
      ∀ β, Inside β b → ∃ t1, minDistL2PhaseT (Y.itemAt 3 β) (ref.itemAt 2 β) = .ok t1 ∧ IsItem β t t1 := by
  have key : ∀ (b : Shape) (Y ref : Ten ℂ), Y.shape = N :: F :: C :: b → ref.shape = N :: F :: b →
      ∃ t, minDistL2PhaseT Y ref = .ok t ∧
        Rep3 b C F N t fun β => minDistL2Phase (item3 Y C F N β) (item2 ref F N β) := fun b Y ref hY hR =>
    minDistL2PhaseT_rep ⟨hY, fun _ _ _ _ _ _ _ _ => rfl⟩ ⟨hR, fun _ _ _ _ _ _ => rfl⟩
  obtain ⟨t, e, ht⟩ := key b Y ref hY hR
  refine ⟨t, e, by rw [ht.shape, hY], fun β hβ c f n => ht.val β hβ c c.2 f f.2 n n.2, fun β hβ => ?_⟩
  obtain ⟨t1, e1, h1⟩ := key [] (Y.itemAt 3 β) (ref.itemAt 2 β) (by simp [Ten.itemAt, hY]) (by simp [Ten.itemAt, hR])
  exact ⟨t1, e1, ht.isItem h1 hβ rfl⟩

/-- Hypotheses met: a batch of shape `(3, 2)`, four channels. -/
example (sorter : Sorter) (Y ref : Ten ℂ) (hY : Y.shape = [50, 129, 4, 2, 3]) (hR : ref.shape = [50, 129, 2, 3]) :
    AsAlone [2, 3] IsItem (projectionBackT sorter Y ref) fun β =>
      projectionBackT sorter (Y.itemAt 3 β) (ref.itemAt 2 β) :=
  projection_back_batch_alone (C := 4) sorter (by norm_num) (by norm_num) Y ref hY hR

/-- Hypotheses met: two frames for four channels. -/
example (sorter : Sorter) (Y ref : Ten ℂ) (hY : Y.shape = [2, 129, 4, 2, 3]) (hR : ref.shape = [2, 129, 2, 3]) :
    ∃ e, projectionBackT sorter Y ref = .error e :=
  projection_back_few_frames (C := 4) (N := 2) sorter (by norm_num) Y ref (by norm_num) ⟨[0, 0], by simp [Inside]⟩ hY hR

/-- A batch of two one-channel signals whose items are scaled differently: the constants `2` and `3` against the reference `6`. -/
example : ∃ t, minDistL2T ⟨[1, 1, 1, 2], fun idx => if idx.getD 3 0 = 0 then 2 else 3⟩ ⟨[1, 1, 2], fun _ => 6⟩ = .ok t ∧
    t.val [0, 0, 0, 0] = 6 ∧ t.val [0, 0, 0, 1] = 6 := by
  obtain ⟨t, e, -, h, -⟩ := min_distortion_l2_batch (b := [2]) (C := 1) (F := 1) (N := 1)
    ⟨[1, 1, 1, 2], fun idx => if idx.getD 3 0 = 0 then 2 else 3⟩ ⟨[1, 1, 2], fun _ => 6⟩ rfl rfl
  refine ⟨t, e, ?_, ?_⟩
  · have := h [0] ⟨by norm_num, trivial⟩ 0 0 0
    rw [show t.val [0, 0, 0, 0] = item3 t 1 1 1 [0] 0 0 0 from rfl, this]
    simp [minDistL2, item3, item2, magSq, magSqE, clampMin]
    norm_num
  · have := h [1] ⟨by norm_num, trivial⟩ 0 0 0
    rw [show t.val [0, 0, 0, 1] = item3 t 1 1 1 [1] 0 0 0 from rfl, this]
    simp [minDistL2, item3, item2, magSq, magSqE, clampMin]
    norm_num

end Torchiva.Props
