import Verif.Proofs.TensorWpe
import Verif.Props.Wpe

/-!
# WPE treats a batch of recordings item by item (C130)
-/

namespace Torchiva.Props

open Torchiva

variable {τ σ : Type}

private theorem rep_item {X : Ten ℂ} {b : Shape} {C F N : ℕ} (hX : X.shape = N :: F :: C :: b) :
    Rep3 b C F N X (item3 X C F N) := ⟨hX, fun _ _ _ _ _ _ _ _ => rfl⟩

/-- **C130.**  For every batch shape, `WPE.forward` on the batch returns exactly when it returns for every
recording of the batch, and then holds the dereverberated recordings; when it raises (or divides by zero), it does
so for one of the recordings, in the same way.  The source model is the default one, or any model that treats the
items of a batch one by one. -/
theorem wpe_batch (nIter T D : ℕ) (eps : ℝ) {b : Shape} {C F N : ℕ} {M : Option (TenModel τ)}
    {m : Option (WpeModel σ C F N)} {S : τ → (List ℕ → σ) → Prop} (hM : WpeModelRep b C F N M m S)
    (ts : τ) (ms : List ℕ → σ) (hS : S ts ms) (X : Ten ℂ) (hX : X.shape = N :: F :: C :: b)
    (hb : ∃ β, Inside β b) (hF : 0 < F) :
    Batched b (RepWpe b C F N S) (wpeForwardT nIter T D eps M ts X) fun β =>
      wpeRun nIter T D eps (item3 X C F N β) m (ms β) :=
  wpeForwardT_rep hb hF nIter T D eps hM (rep_item hX) hS

/-- The default weights meet the contract of the model. -/
example (X : Ten ℂ) (hX : X.shape = [50, 129, 4, 2, 3]) :
    Batched [2, 3] (RepWpe (σ := Unit) [2, 3] 4 129 50 fun (_ : Unit) _ => True) (wpeForwardT 3 5 3 (1e-5) none () X) fun β =>
      wpeRun 3 5 3 (1e-5) (item3 X 4 129 50 β) none () :=
  wpe_batch 3 5 3 (1e-5) (M := none) (m := none) trivial () (fun _ => ()) trivial X hX ⟨[0, 0], by simp [Inside]⟩
    (by norm_num)

/-- **C130**, seen from outside: `dereverberate(X)[β] = dereverberate(X[β])` for every batch index `β`, and when
`dereverberate(X)` raises, `dereverberate(X[β])` raises the same exception for some `β`. -/
theorem wpe_batch_alone (nIter T D : ℕ) (eps : ℝ) {b : Shape} {C F N : ℕ} {M : Option (TenModel τ)}
    {m : Option (WpeModel σ C F N)} {S S1 : τ → (List ℕ → σ) → Prop} (hM : WpeModelRep b C F N M m S)
    (hM1 : WpeModelRep [] C F N M m S1) (ts : τ) (ts1 : List ℕ → τ) (ms : List ℕ → σ) (hS : S ts ms)
    (hS1 : ∀ β, S1 (ts1 β) fun _ => ms β) (X : Ten ℂ) (hX : X.shape = N :: F :: C :: b)
    (hb : ∃ β, Inside β b) (hF : 0 < F) :
    AsAlone b (fun β r r1 => IsItem β r.Y r1.Y) (wpeForwardT nIter T D eps M ts X)
      fun β => wpeForwardT nIter T D eps M (ts1 β) (X.itemAt 3 β) :=
  (wpe_batch nIter T D eps hM ts ms hS X hX hb hF).alone
    (fun β _ => wpe_batch nIter T D eps hM1 (ts1 β) (fun _ => ms β) (hS1 β) (X.itemAt 3 β)
      (by simp [Ten.itemAt, hX]) ⟨[], trivial⟩ hF) (fun _ => rfl)
    fun _ _ _ _ _ hβ h h1 e => h.Y.isItem h1.Y hβ (by rw [e])

example (X : Ten ℂ) (hX : X.shape = [50, 129, 4, 2, 3]) :
    AsAlone [2, 3] (fun β r r1 => IsItem β r.Y r1.Y) (wpeForwardT 3 5 3 (1e-5) none () X)
      fun β => wpeForwardT 3 5 3 (1e-5) none () (X.itemAt 3 β) :=
  wpe_batch_alone (σ := Unit) 3 5 3 (1e-5) (M := none) (m := none) (S := fun _ _ => True) (S1 := fun _ _ => True) trivial trivial ()
    (fun _ => ()) (fun _ => ()) trivial (fun _ => trivial) X hX ⟨[0, 0], by simp [Inside]⟩ (by norm_num)

/-- The default weights need no hypothesis: for `model=None`, any load `eps > 0`, any recordings with at least
one channel, frequency, frame and tap, and any batch with at least one item, the batch is dereverberated
and every item of the result is the result for the item. -/
theorem wpe_batch_default [NeZero T] (nIter D : ℕ) (eps : ℝ) (he : 0 < eps) {b : Shape} {C F N : ℕ} (hC : 0 < C)
    (hF : 0 < F) (hN : 0 < N) (X : Ten ℂ) (hX : X.shape = N :: F :: C :: b) (hb : ∃ β, Inside β b) :
    ∃ r, wpeForwardT nIter T D eps none () X = .ok r ∧ r.Y.shape = X.shape ∧ ∀ β, Inside β b →
      ∃ r1, wpeForwardT nIter T D eps none () (X.itemAt 3 β) = .ok r1 ∧ IsItem β r.Y r1.Y := by
  have : NeZero C := ⟨by omega⟩
  have : NeZero N := ⟨by omega⟩
  have hM : WpeModelRep b C F N (none : Option (TenModel Unit)) (none : Option (WpeModel Unit C F N)) fun _ _ => True :=
    trivial
  have h1 := wpe_batch nIter T D eps hM () (fun _ => ()) trivial X hX hb hF
  obtain ⟨r, hr⟩ := h1.total fun β _ => by
    obtain ⟨Y, hY⟩ := wpe_total (T := T) nIter D eps he (item3 X C F N β) (none : Option (WpeModel Unit C F N))
      (by simp [NonnegWpe]) ()
    unfold wpeForward at hY
    cases h : wpeRun nIter T D eps (item3 X C F N β) (none : Option (WpeModel Unit C F N)) () with
    | ok st => exact ⟨st, rfl⟩
    | error e => rw [h] at hY; cases hY
  refine ⟨r, hr, ?_, ?_⟩
  · rw [hr] at h1
    obtain ⟨a, -, h⟩ := h1
    rw [h.Y.shape, hX]
  · have h2 := wpe_batch_alone nIter T D eps hM (M := none) (m := (none : Option (WpeModel Unit C F N)))
      (S1 := fun _ _ => True) trivial () (fun _ => ()) (fun _ => ()) trivial (fun _ => trivial) X hX hb hF
    rw [hr] at h2
    exact h2

/-- Hypotheses met: a batch of shape `(3, 2)`, four channels. -/
example (X : Ten ℂ) (hX : X.shape = [50, 129, 4, 2, 3]) :
    ∃ r, wpeForwardT 3 5 3 (1e-5) none () X = .ok r ∧ r.Y.shape = X.shape ∧ ∀ β, Inside β [2, 3] →
      ∃ r1, wpeForwardT 3 5 3 (1e-5) none () (X.itemAt 3 β) = .ok r1 ∧ IsItem β r.Y r1.Y :=
  wpe_batch_default 3 3 (1e-5) (by norm_num) (by norm_num) (by norm_num) (by norm_num) X hX
    ⟨[0, 0], by simp [Inside]⟩

end Torchiva.Props
