import Verif.Proofs.TensorFive

/-!
# FIVE treats a batch of recordings item by item (C132)
-/

namespace Torchiva.Props

open Torchiva

variable {τ σ : Type}

/-- **C132.**  For every batch shape, `FIVE.forward` on the batch returns exactly when it returns for every recording of the
batch, and then holds the extracted signals; when it raises (or divides by zero), it does so for one of
the recordings, in the same way.  The source model is any model that treats the items of a batch one by one. -/
theorem five_batch (solver : Solver) (nIter : ℕ) {b : Shape} {C F N : ℕ} [NeZero C] (ref : Fin C) (nPower : Option ℕ)
    {M : TenModel τ} {m : SourceModel σ F N} {S : τ → (List ℕ → σ) → Prop} (hM : FiveModelRep b F N M m S)
    (reset : τ → τ) (reset' : σ → σ) (ts : τ) (ms : List ℕ → σ) (hS : S (reset ts) fun β => reset' (ms β))
    (X : Ten ℂ) (hX : X.shape = N :: (F + 1) :: C :: b) (hb : ∃ β, Inside β b) :
    Batched b (fun t (a : List ℕ → Sig 1 (F + 1) N) => Rep3 b 1 (F + 1) N t a)
      (fiveForwardT solver nIter ref nPower M reset ts X) fun β =>
      fiveForward (solver C) nIter ref nPower (item3 X C (F + 1) N β) m reset' (ms β) :=
  fiveForwardT_rep solver nIter ref nPower hb ⟨hX, fun _ _ _ _ _ _ _ _ => rfl⟩ hM hS

example (solver : Solver) (X : Ten ℂ) (hX : X.shape = [50, 129, 4, 2, 3]) :
    Batched [2, 3] (fun t (a : List ℕ → Sig 1 (128 + 1) 50) => Rep3 [2, 3] 1 (128 + 1) 50 t a)
      (fiveForwardT solver 10 (0 : Fin 4) (some 5) (laplaceT 1e-5) id () X) fun β =>
      fiveForward (solver 4) 10 0 (some 5) (item3 X 4 (128 + 1) 50 β) (laplaceModel 1e-5) id () :=
  five_batch (F := 128) solver 10 (0 : Fin 4) (some 5) (laplaceT_five _ _ _ _) id id () (fun _ => ()) trivial X hX
    ⟨[0, 0], by simp [Inside]⟩

/-- **C132**, seen from outside: `extract(X)[β] = extract(X[β])` for every batch index `β`, and when `extract(X)` raises,
`extract(X[β])` raises the same exception for some `β`. -/
theorem five_batch_alone (solver : Solver) (nIter : ℕ) {b : Shape} {C F N : ℕ} [NeZero C] (ref : Fin C)
    (nPower : Option ℕ) {M : TenModel τ} {m : SourceModel σ F N} {S S1 : τ → (List ℕ → σ) → Prop}
    (hM : FiveModelRep b F N M m S) (hM1 : FiveModelRep [] F N M m S1) (reset : τ → τ) (reset' : σ → σ) (ts : τ)
    (ts1 : List ℕ → τ) (ms : List ℕ → σ) (hS : S (reset ts) fun β => reset' (ms β))
    (hS1 : ∀ β, S1 (reset (ts1 β)) fun _ => reset' (ms β)) (X : Ten ℂ) (hX : X.shape = N :: (F + 1) :: C :: b)
    (hb : ∃ β, Inside β b) :
    AsAlone b IsItem (fiveForwardT solver nIter ref nPower M reset ts X)
      fun β => fiveForwardT solver nIter ref nPower M reset (ts1 β) (X.itemAt 3 β) :=
  (five_batch solver nIter ref nPower hM reset reset' ts ms hS X hX hb).alone
    (fun β _ => five_batch solver nIter ref nPower hM1 reset reset' (ts1 β) (fun _ => ms β) (hS1 β) (X.itemAt 3 β)
      (by simp [Ten.itemAt, hX]) ⟨[], trivial⟩) (fun _ => rfl)
    fun _ _ _ _ _ hβ h h1 e => h.isItem h1 hβ e

private theorem whiten_total {C : ℕ} (solver : Matrix (Fin C) (Fin C) ℂ → EigRes (Fin C)) (x : Matrix (Fin C) (Fin C) ℂ) :
    ∃ wh, fiveWhiten solver x = .ok wh := by
  have h : ∃ r, eigh solver x none 1e-15 = .ok r := by
    by_cases h : C = 2
    · subst h
      rw [eigh_two]
      simp only [eigh2x2Plain, normalizeCols]
      have h0 : ∀ y : ℝ, clampMin y 1e-15 ≠ 0 := fun y =>
        ne_of_gt (lt_of_lt_of_le (by norm_num) (le_max_right y (1e-15 : ℝ)))
      rw [if_neg (by simp [h0])]
      exact ⟨_, rfl⟩
    · simp only [eigh, dif_neg h]
      exact ⟨_, rfl⟩
  obtain ⟨r, hr⟩ := h
  exact ⟨_, by simp only [fiveWhiten, hr, ok_bind']; rfl⟩

private theorem epochs_total {C F N : ℕ} [NeZero C] (solver : Matrix (Fin C) (Fin C) ℂ → EigRes (Fin C)) (Xw : Sig C F N)
    (q : Fin F → Fin C → ℂ) (m : SourceModel σ F N) (n : ℕ) (st : FiveState σ F N) :
    ∃ st', iterM (fiveEpoch solver none Xw q m) n st = .ok st' := by
  induction n generalizing st with
  | zero => exact ⟨st, rfl⟩
  | succ n ih =>
    simp only [iterM, fiveEpoch, fiveVectors, ok_bind', pure_ok']
    exact ih _

/-- With the Laplace model of the library and the eigendecomposition, nothing can fail: a batch of recordings gives a batch
of signals, and every item of the result is the result for the item. -/
theorem five_batch_laplace (solver : Solver) (nIter : ℕ) {b : Shape} {C F N : ℕ} [NeZero C] (ref : Fin C)
    (eps : ℝ) (X : Ten ℂ) (hX : X.shape = N :: (F + 1) :: C :: b) (hb : ∃ β, Inside β b) :
    ∃ r, fiveForwardT solver nIter ref none (laplaceT eps) id () X = .ok r ∧ r.shape = N :: (F + 1) :: 1 :: b ∧
      ∀ β, Inside β b → ∃ r1, fiveForwardT solver nIter ref none (laplaceT eps) id () (X.itemAt 3 β) = .ok r1 ∧
        IsItem β r r1 := by
  have h1 := five_batch solver nIter ref none (laplaceT_five b F N eps) id id () (fun _ => ()) trivial X hX hb
  have ht : ∀ β, ∃ a, fiveForward (solver C) nIter ref none (item3 X C (F + 1) N β) (laplaceModel eps) id () = .ok a := by
    intro β
    unfold fiveForward
    obtain ⟨wh, hwh⟩ := seqAll_total (g := fun f : Fin F => fiveWhiten (solver C)
      (fiveCov fun c => item3 X C (F + 1) N β c f.succ)) fun f => whiten_total _ _
    have hwh : (seqAll fun f : Fin F => fiveWhiten (solver C)
      (fiveCov fun c n => item3 X C (F + 1) N β c f.succ n)) = .ok wh := hwh
    simp only [hwh, ok_bind']
    obtain ⟨st', hst⟩ := epochs_total (solver C) (fun c f n => ∑ d, (wh f).Q c d * item3 X C (F + 1) N β d f.succ n)
      (fun f c => (wh f).Qinv ref c) (laplaceModel eps) nIter ⟨fun f n => (∑ c, (wh f).Q 0 c *
        fiveCov (fun c n => item3 X C (F + 1) N β c f.succ n) c ref) *
        ∑ d, (wh f).Q 0 d * item3 X C (F + 1) N β d f.succ n, id ()⟩
    rw [hst, ok_bind']
    exact ⟨_, rfl⟩
  obtain ⟨r, hr⟩ := h1.total fun β _ => ht β
  refine ⟨r, hr, ?_, ?_⟩
  · rw [hr] at h1
    obtain ⟨a, -, h⟩ := h1
    exact h.shape
  · have h2 := five_batch_alone solver nIter ref none (laplaceT_five b F N eps) (laplaceT_five [] F N eps) id id ()
      (fun _ => ()) (fun _ => ()) trivial (fun _ => trivial) X hX hb
    rw [hr] at h2
    exact h2

/-- Hypotheses met: a batch of shape `(3, 2)`, four channels, the power method and the Laplace model. -/
example (solver : Solver) (X : Ten ℂ) (hX : X.shape = [50, 129, 4, 2, 3]) :
    AsAlone [2, 3] IsItem (fiveForwardT solver 10 0 (some 5) (laplaceT 1e-5) id () X)
      fun β => fiveForwardT solver 10 0 (some 5) (laplaceT 1e-5) id () (X.itemAt 3 β) :=
  five_batch_alone (F := 128) solver 10 (0 : Fin 4) (some 5) (laplaceT_five _ _ _ _) (laplaceT_five _ _ _ _) id id ()
    (fun _ => ()) (fun _ => ()) trivial (fun _ => trivial) X hX ⟨[0, 0], by simp [Inside]⟩

/-- Hypotheses met: the same recordings with the eigendecomposition. -/
example (solver : Solver) (X : Ten ℂ) (hX : X.shape = [50, 129, 4, 2, 3]) :
    ∃ r, fiveForwardT solver 10 0 none (laplaceT 1e-5) id () X = .ok r ∧ r.shape = [50, 129, 1, 2, 3] ∧
      ∀ β, Inside β [2, 3] → ∃ r1, fiveForwardT solver 10 0 none (laplaceT 1e-5) id () (X.itemAt 3 β) = .ok r1 ∧
        IsItem β r r1 :=
  five_batch_laplace (F := 128) solver 10 (0 : Fin 4) (1e-5) X hX ⟨[0, 0], by simp [Inside]⟩

end Torchiva.Props
