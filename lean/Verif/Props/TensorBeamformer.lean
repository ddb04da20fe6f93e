import Verif.Proofs.TensorBeamformer
import Verif.Props.Beamformer

/-!
# The beamformers treat a batch of recordings item by item (C131)
-/

namespace Torchiva.Props

open Torchiva

private theorem rep_item {X : Ten ℂ} {b : Shape} {C F N : ℕ} (hX : X.shape = N :: F :: C :: b) :
    Rep3 b C F N X (item3 X C F N) := ⟨hX, fun _ _ _ _ _ _ _ _ => rfl⟩

/-- A mask model that works entry by entry: mask `i` of source `s` is a function `w s i` of the entry. -/
def pointMaskT (S M : ℕ) (w : ℕ → ℕ → ℂ → ℝ) : MaskT := fun x =>
  match x.shape with
  | N :: F :: b => .ok ⟨N :: F :: M :: S :: b, fun idx =>
      w (idx.getD 3 0) (idx.getD 2 0) (x.val (idx.getD 0 0 :: idx.getD 1 0 :: idx.drop 4))⟩
  | _ => .error .valueError

theorem pointMask_rep (b : Shape) (S M F N : ℕ) (w : ℕ → ℕ → ℂ → ℝ) :
    MaskRep b S F N M (pointMaskT S M w) fun x => ⟨M, fun s i f n => w s i (x f n)⟩ := by
  intro x A hx
  simp only [pointMaskT, hx.shape]
  exact ⟨_, rfl, fun β s i f n => w s i (A β f n), ⟨rfl, fun β hβ s _ i _ f hf n hn => by
    simp [hx.val β hβ f hf n hn]⟩, fun _ => rfl⟩

section
variable {b : Shape} {C S F N M : ℕ} {mask : MaskT} {m : (Fin F → Fin N → ℂ) → MaskOut S F N}

/-- **C131.**  For every batch shape, `MVDRBeamformer.forward` on the batch returns exactly when it returns for every
recording of the batch, and then holds their outputs: both types, two or three masks, eigendecomposition or power
iteration.  The mask model is any model that treats the items of a batch one by one. -/
theorem mvdr_batch [NeZero C] (hm : MaskRep b S F N M mask m) (solver : Solver) (ref : Fin C) (eps : ℝ)
    (mvdrType : String) (nPower : Option ℕ) (X : Ten ℂ) (hX : X.shape = N :: F :: C :: b) (hb : ∃ β, Inside β b) :
    BatchedOk b (Rep3 b S F N) (mvdrForwardT solver mask ref eps mvdrType nPower X) fun β =>
      mvdrForward (solver C) m ref eps mvdrType nPower (item3 X C F N β) :=
  mvdrForwardT_rep hm (rep_item hX) hb solver ref eps mvdrType nPower

example (X : Ten ℂ) (hX : X.shape = [50, 129, 4, 2, 3]) (solver : Solver) :
    BatchedOk [2, 3] (Rep3 [2, 3] 2 129 50) (mvdrForwardT solver (pointMaskT 2 2 fun _ i z => if i = 0 then ‖z‖ else 1)
      (1 : Fin 4) 1e-5 "rtf" none X) fun β => mvdrForward (solver 4)
      (fun x => ⟨2, fun _ i f n => if i.1 = 0 then ‖x f n‖ else 1⟩) 1 1e-5 "rtf" none (item3 X 4 129 50 β) :=
  mvdr_batch (pointMask_rep _ _ _ _ _ _) solver 1 1e-5 "rtf" none X hX ⟨[0, 0], by simp [Inside]⟩

/-- **C131.**  The same for `MWFBeamformer.forward`, time-invariant or not. -/
theorem mwf_batch (hm : MaskRep b S F N M mask m) (ref : Fin C) (eps : ℝ) (timeInvariant : Bool) (X : Ten ℂ)
    (hX : X.shape = N :: F :: C :: b) (hb : ∃ β, Inside β b) :
    BatchedOk b (Rep3 b S F N) (mwfForwardT mask ref timeInvariant X) fun β =>
      mwfForward m ref eps timeInvariant (item3 X C F N β) :=
  mwfForwardT_rep hm (rep_item hX) hb ref eps timeInvariant

example (X : Ten ℂ) (hX : X.shape = [50, 129, 4, 2, 3]) :
    BatchedOk [2, 3] (Rep3 [2, 3] 2 129 50) (mwfForwardT (pointMaskT 2 2 fun _ i z => if i = 0 then ‖z‖ else 1)
      (1 : Fin 4) false X) fun β => mwfForward
      (fun x => ⟨2, fun _ i f n => if i.1 = 0 then ‖x f n‖ else 1⟩) 1 1e-5 false (item3 X 4 129 50 β) :=
  mwf_batch (pointMask_rep _ _ _ _ _ _) 1 1e-5 false X hX ⟨[0, 0], by simp [Inside]⟩

/-- **C131.**  The same for `GEVBeamformer.forward`. -/
theorem gev_batch [NeZero C] (hm : MaskRep b S F N M mask m) (solver : Solver) (ref : Fin C) (X : Ten ℂ)
    (hX : X.shape = N :: F :: C :: b) (hb : ∃ β, Inside β b) :
    BatchedOk b (Rep3 b S F N) (gevForwardT solver mask ref X) fun β =>
      gevForward (solver C) m ref (item3 X C F N β) :=
  gevForwardT_rep hm (rep_item hX) hb solver ref

example (X : Ten ℂ) (hX : X.shape = [50, 129, 4, 2, 3]) (solver : Solver) :
    BatchedOk [2, 3] (Rep3 [2, 3] 2 129 50) (gevForwardT solver (pointMaskT 2 2 fun _ i z => if i = 0 then ‖z‖ else 1)
      (1 : Fin 4) X) fun β => gevForward (solver 4)
      (fun x => ⟨2, fun _ i f n => if i.1 = 0 then ‖x f n‖ else 1⟩) 1 (item3 X 4 129 50 β) :=
  gev_batch (pointMask_rep _ _ _ _ _ _) solver 1 X hX ⟨[0, 0], by simp [Inside]⟩

/-- **C131**, seen from outside: `beamform(X)[β] = beamform(X[β])` for every batch index `β`, and when `beamform(X)`
fails, `beamform(X[β])` fails for some `β`. -/
theorem mvdr_batch_alone [NeZero C] (hm : MaskRep b S F N M mask m) (hm1 : MaskRep [] S F N M mask m) (solver : Solver)
    (ref : Fin C) (eps : ℝ) (mvdrType : String) (nPower : Option ℕ) (X : Ten ℂ) (hX : X.shape = N :: F :: C :: b)
    (hb : ∃ β, Inside β b) :
    AsAloneOk b IsItem (mvdrForwardT solver mask ref eps mvdrType nPower X) fun β =>
      mvdrForwardT solver mask ref eps mvdrType nPower (X.itemAt 3 β) :=
  (mvdr_batch hm solver ref eps mvdrType nPower X hX hb).alone
    (fun β _ => mvdr_batch hm1 solver ref eps mvdrType nPower (X.itemAt 3 β) (by simp [Ten.itemAt, hX]) ⟨[], trivial⟩)
    (fun _ => rfl) fun _ _ _ _ _ hβ h h1 e => h.isItem h1 hβ e

theorem mwf_batch_alone (hm : MaskRep b S F N M mask m) (hm1 : MaskRep [] S F N M mask m) (ref : Fin C)
    (timeInvariant : Bool) (X : Ten ℂ) (hX : X.shape = N :: F :: C :: b) (hb : ∃ β, Inside β b) :
    AsAloneOk b IsItem (mwfForwardT mask ref timeInvariant X) fun β => mwfForwardT mask ref timeInvariant (X.itemAt 3 β) :=
  (mwf_batch hm ref 0 timeInvariant X hX hb).alone
    (fun β _ => mwf_batch hm1 ref 0 timeInvariant (X.itemAt 3 β) (by simp [Ten.itemAt, hX]) ⟨[], trivial⟩)
    (fun _ => rfl) fun _ _ _ _ _ hβ h h1 e => h.isItem h1 hβ e

example (X : Ten ℂ) (hX : X.shape = [50, 129, 4, 2, 3]) :
    AsAloneOk [2, 3] IsItem (mwfForwardT (pointMaskT 2 2 fun _ i z => if i = 0 then ‖z‖ else 1) (1 : Fin 4) false X)
      fun β => mwfForwardT (pointMaskT 2 2 fun _ i z => if i = 0 then ‖z‖ else 1) (1 : Fin 4) false (X.itemAt 3 β) :=
  mwf_batch_alone (pointMask_rep _ _ _ _ _ _) (pointMask_rep _ _ _ _ _ _) 1 false X hX ⟨[0, 0], by simp [Inside]⟩

theorem gev_batch_alone [NeZero C] (hm : MaskRep b S F N M mask m) (hm1 : MaskRep [] S F N M mask m) (solver : Solver)
    (ref : Fin C) (X : Ten ℂ) (hX : X.shape = N :: F :: C :: b) (hb : ∃ β, Inside β b) :
    AsAloneOk b IsItem (gevForwardT solver mask ref X) fun β => gevForwardT solver mask ref (X.itemAt 3 β) :=
  (gev_batch hm solver ref X hX hb).alone
    (fun β _ => gev_batch hm1 solver ref (X.itemAt 3 β) (by simp [Ten.itemAt, hX]) ⟨[], trivial⟩)
    (fun _ => rfl) fun _ _ _ _ _ hβ h h1 e => h.isItem h1 hβ e

/-- For nonnegative masks the Wiener filters need no other hypothesis: every batch is beamformed, whatever the
recordings, and every item of the result is the result for the item. -/
theorem mwf_batch_total (hm : MaskRep b S F N M mask m) (hm1 : MaskRep [] S F N M mask m)
    (hnn : ∀ x s i f n, 0 ≤ (m x).2 s i f n) (ref : Fin C) (timeInvariant : Bool)
    (hM : if timeInvariant then 2 ≤ M else M = 4) (X : Ten ℂ) (hX : X.shape = N :: F :: C :: b)
    (hb : ∃ β, Inside β b) :
    ∃ Y, mwfForwardT mask ref timeInvariant X = .ok Y ∧ Y.shape = N :: F :: S :: b ∧ ∀ β, Inside β b →
      ∃ Y1, mwfForwardT mask ref timeInvariant (X.itemAt 3 β) = .ok Y1 ∧ IsItem β Y Y1 := by
  have : NeZero C := ⟨by have := ref.2; omega⟩
  obtain ⟨x, -, hx⟩ := refMic_rep (rep_item hX) ref
  obtain ⟨t, -, a, -, ha⟩ := hm x _ hx
  have h1 := mwf_batch hm ref 0 timeInvariant X hX hb
  have hpos : ∀ β s i f n, 0 ≤ a β s i f n := fun β => by
    have := hnn (item3 X C F N β ref)
    rw [ha β] at this
    exact this
  obtain ⟨Y, hY⟩ := h1.total fun β _ => by
    cases timeInvariant with
    | true => exact (mwf_forward_time_invariant m ref 0 _ M hM (a β) (ha β) (hpos β)).imp fun _ h => h.1
    | false =>
      obtain rfl : M = 4 := hM
      exact (mwf_forward_time_varying m ref 0 _ (a β) (ha β) (hpos β)).imp fun _ h => h.1
  refine ⟨Y, hY, ?_, ?_⟩
  · rw [hY] at h1
    obtain ⟨_, -, h⟩ := h1
    exact h.shape
  · have h2 := mwf_batch_alone hm hm1 ref timeInvariant X hX hb
    rw [hY] at h2
    exact h2

end

/-- Hypotheses met: two sources, target and noise masks that depend on the recordings, a batch of shape `(3, 2)`. -/
example (X : Ten ℂ) (hX : X.shape = [50, 129, 4, 2, 3]) :
    ∃ Y, mwfForwardT (pointMaskT 2 2 fun s i z => if (s + i) % 2 = 0 then ‖z‖ else 1) (1 : Fin 4) true X = .ok Y ∧
      Y.shape = [50, 129, 2, 2, 3] ∧ ∀ β, Inside β [2, 3] →
      ∃ Y1, mwfForwardT (pointMaskT 2 2 fun s i z => if (s + i) % 2 = 0 then ‖z‖ else 1) (1 : Fin 4) true (X.itemAt 3 β)
        = .ok Y1 ∧ IsItem β Y Y1 :=
  mwf_batch_total (pointMask_rep _ _ _ _ _ _) (pointMask_rep _ _ _ _ _ _)
    (fun x s i f n => by dsimp only; split_ifs <;> simp) 1 true (le_refl 2) X hX ⟨[0, 0], by simp [Inside]⟩

/-- The MVDR and GEV beamformers on the same batch. -/
example (X : Ten ℂ) (hX : X.shape = [50, 129, 4, 2, 3]) (solver : Solver) :
    AsAloneOk [2, 3] IsItem
      (mvdrForwardT solver (pointMaskT 2 2 fun s i z => if (s + i) % 2 = 0 then ‖z‖ else 1) (1 : Fin 4) 1e-5 "rtf" none X)
      (fun β => mvdrForwardT solver (pointMaskT 2 2 fun s i z => if (s + i) % 2 = 0 then ‖z‖ else 1) (1 : Fin 4) 1e-5
        "rtf" none (X.itemAt 3 β)) ∧
    AsAloneOk [2, 3] IsItem
      (gevForwardT solver (pointMaskT 2 2 fun s i z => if (s + i) % 2 = 0 then ‖z‖ else 1) (1 : Fin 4) X)
      (fun β => gevForwardT solver (pointMaskT 2 2 fun s i z => if (s + i) % 2 = 0 then ‖z‖ else 1) (1 : Fin 4)
        (X.itemAt 3 β)) :=
  ⟨mvdr_batch_alone (pointMask_rep _ _ _ _ _ _) (pointMask_rep _ _ _ _ _ _) solver 1 1e-5 "rtf" none X hX
      ⟨[0, 0], by simp [Inside]⟩,
    gev_batch_alone (pointMask_rep _ _ _ _ _ _) (pointMask_rep _ _ _ _ _ _) solver 1 X hX ⟨[0, 0], by simp [Inside]⟩⟩

end Torchiva.Props
