import Verif.Proofs.TensorIp2
import Verif.Proofs.TensorTIssLoop
import Verif.Props.Ip2

/-!
# AuxIVA-IP2 treats a batch of mixtures item by item (C133)
-/

namespace Torchiva.Props

open Torchiva

variable {τ σ : Type}

/-- **C133.**  For every batch shape, `AuxIVA_IP2.forward` on the batch returns exactly when it returns for every mixture of
the batch, and then holds the signals of the mixtures; when it raises (or divides by zero), it does so
for one of the mixtures, in the same way.  The source model is any model that treats the items of a batch one by one;
the number of channels and the reference microphone are arbitrary. -/
theorem ip2_batch (nIter : ℕ) (pb : Option ℤ) (eps : ℝ) {b : Shape} {C F N : ℕ} {M : TenModel τ}
    {m : SourceModel σ F N} {S : τ → (List ℕ → σ) → Prop} (hM : ModelRep b 2 F N M m S) (reset : τ → τ) (reset' : σ → σ)
    (ts : τ) (ms : List ℕ → σ) (hS : S (reset ts) fun β => reset' (ms β)) (X : Ten ℂ)
    (hX : X.shape = N :: F :: C :: b) (hb : ∃ β, Inside β b) :
    Batched b (fun t (a : List ℕ → Sig 2 F N) => Rep3 b 2 F N t a) (auxiva2ForwardT nIter pb eps M reset ts X) fun β =>
      auxiva2Forward nIter pb eps (item3 X C F N β) m reset' (ms β) :=
  auxiva2ForwardT_rep nIter pb eps hM hS ⟨hX, fun _ _ _ _ _ _ _ _ => rfl⟩ hb

example (X : Ten ℂ) (hX : X.shape = [50, 129, 2, 2, 3]) :
    Batched [2, 3] (fun t (a : List ℕ → Sig 2 129 50) => Rep3 [2, 3] 2 129 50 t a)
      (auxiva2ForwardT 10 (some 0) (1e-5) (laplaceT 1e-5) id () X) fun β =>
      auxiva2Forward 10 (some 0) (1e-5) (item3 X 2 129 50 β) (laplaceModel 1e-5) id () :=
  ip2_batch 10 (some 0) (1e-5) (laplaceT_rep _ _ _ _ _) id id () (fun _ => ()) trivial X hX ⟨[0, 0], by simp [Inside]⟩

/-- **C133**, seen from outside: `separate(X)[β] = separate(X[β])` for every batch index `β`, and when `separate(X)` raises,
`separate(X[β])` raises the same exception for some `β`. -/
theorem ip2_batch_alone (nIter : ℕ) (pb : Option ℤ) (eps : ℝ) {b : Shape} {C F N : ℕ} {M : TenModel τ}
    {m : SourceModel σ F N} {S S1 : τ → (List ℕ → σ) → Prop} (hM : ModelRep b 2 F N M m S)
    (hM1 : ModelRep [] 2 F N M m S1) (reset : τ → τ) (reset' : σ → σ) (ts : τ) (ts1 : List ℕ → τ) (ms : List ℕ → σ)
    (hS : S (reset ts) fun β => reset' (ms β)) (hS1 : ∀ β, S1 (reset (ts1 β)) fun _ => reset' (ms β)) (X : Ten ℂ)
    (hX : X.shape = N :: F :: C :: b) (hb : ∃ β, Inside β b) :
    AsAlone b IsItem (auxiva2ForwardT nIter pb eps M reset ts X)
      fun β => auxiva2ForwardT nIter pb eps M reset (ts1 β) (X.itemAt 3 β) :=
  (ip2_batch nIter pb eps hM reset reset' ts ms hS X hX hb).alone
    (fun β _ => ip2_batch nIter pb eps hM1 reset reset' (ts1 β) (fun _ => ms β) (hS1 β) (X.itemAt 3 β)
      (by simp [Ten.itemAt, hX]) ⟨[], trivial⟩) (fun _ => rfl)
    fun _ _ _ _ _ hβ h h1 e => h.isItem h1 hβ e

/-- Two channels, a reference microphone among them or none, a source model with nonnegative weights and `eps > 0`: the
batch is separated, and every item of the result is the result for the item. -/
theorem ip2_batch_total (nIter : ℕ) (mic : Option (Fin 2)) (eps : ℝ) (he : 0 < eps) {b : Shape} {F N : ℕ}
    {M : TenModel τ} {m : SourceModel σ F N} (hm : ∀ s ms Y k f n, 0 ≤ (m s ms Y).1 k f n)
    {S S1 : τ → (List ℕ → σ) → Prop} (hM : ModelRep b 2 F N M m S)
    (hM1 : ModelRep [] 2 F N M m S1) (reset : τ → τ) (reset' : σ → σ) (ts : τ) (ts1 : List ℕ → τ) (ms : List ℕ → σ)
    (hS : S (reset ts) fun β => reset' (ms β)) (hS1 : ∀ β, S1 (reset (ts1 β)) fun _ => reset' (ms β)) (X : Ten ℂ)
    (hX : X.shape = N :: F :: 2 :: b) (hb : ∃ β, Inside β b) :
    ∃ Y, auxiva2ForwardT nIter (mic.map fun m => ((m.1 : ℕ) : ℤ)) eps M reset ts X = .ok Y ∧ Y.shape = X.shape ∧
      ∀ β, Inside β b → ∃ Y1, auxiva2ForwardT nIter (mic.map fun m => ((m.1 : ℕ) : ℤ)) eps M reset (ts1 β)
        (X.itemAt 3 β) = .ok Y1 ∧ IsItem β Y Y1 := by
  have h := ip2_batch nIter (mic.map fun m => ((m.1 : ℕ) : ℤ)) eps hM reset reset' ts ms hS X hX hb
  obtain ⟨Y, hY⟩ := h.total fun β _ => ip2_succeeds nIter mic eps he _ m hm reset' (ms β)
  refine ⟨Y, hY, ?_, ?_⟩
  · rw [hY] at h
    obtain ⟨a, -, h⟩ := h
    rw [h.shape, hX]
  · have h2 := ip2_batch_alone nIter (mic.map fun m => ((m.1 : ℕ) : ℤ)) eps hM hM1 reset reset' ts ts1 ms hS hS1 X hX hb
    rw [hY] at h2
    exact h2

/-- Hypotheses met: a batch of shape `(3, 2)` and the Laplace model. -/
example (X : Ten ℂ) (hX : X.shape = [50, 129, 2, 2, 3]) :
    ∃ Y, auxiva2ForwardT 10 (some 0) (1e-5) (laplaceT 1e-5) id () X = .ok Y ∧ Y.shape = X.shape ∧
      ∀ β, Inside β [2, 3] → ∃ Y1, auxiva2ForwardT 10 (some 0) (1e-5) (laplaceT 1e-5) id () (X.itemAt 3 β) = .ok Y1 ∧
        IsItem β Y Y1 :=
  ip2_batch_total 10 (some 0) (1e-5) (by norm_num) (m := laplaceModel 1e-5)
    (fun s ms Y k f n => by
      simp only [laplaceModel, laplaceForward]
      exact div_nonneg zero_le_one (le_trans (by norm_num) (le_max_right _ _)))
    (laplaceT_rep _ _ _ _ _) (laplaceT_rep _ _ _ _ _) id id () (fun _ => ())
    (fun _ => ()) trivial (fun _ => trivial) X hX ⟨[0, 0], by simp [Inside]⟩

/-- Hypotheses met: three channels; the batch raises because every item does. -/
example (X : Ten ℂ) (hX : X.shape = [50, 129, 3, 2]) :
    AsAlone [2] IsItem (auxiva2ForwardT 10 none (1e-5) (laplaceT 1e-5) id () X)
      fun β => auxiva2ForwardT 10 none (1e-5) (laplaceT 1e-5) id () (X.itemAt 3 β) :=
  ip2_batch_alone 10 none (1e-5) (laplaceT_rep _ _ _ _ _) (laplaceT_rep _ _ _ _ _) id id () (fun _ => ())
    (fun _ => ()) trivial (fun _ => trivial) X hX ⟨[0], by simp [Inside]⟩

end Torchiva.Props
