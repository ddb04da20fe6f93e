import Verif.Proofs.TensorAuxIva
import Verif.Props.TensorTIss
import Verif.Props.AuxIva

/-!
# AuxIVA-IP treats a batch of mixtures item by item (C129)
-/

namespace Torchiva.Props

open Torchiva

set_option linter.unusedSimpArgs false

variable {τ σ : Type}

private theorem rep_item {X : Ten ℂ} {b : Shape} {C F N : ℕ} (hX : X.shape = N :: F :: C :: b) :
    Rep3 b C F N X (item3 X C F N) := ⟨hX, fun _ _ _ _ _ _ _ _ => rfl⟩

section

attribute [local simp] ok_bind' err_bind' pure_ok' comb_self comb_one_left comb_one_right bcast_self
  bcast_nil_left bcast_nil_right bcast_cons bcastTo onDim bindLabel bindOp bindOps einsum List.lookup
  Ten.map Ten.map2 Ten.read bIdx sumOver opIdx einsumT

private theorem too_many_sources (p : IpParams) {s C F N : ℕ} {b : Shape} (hs : C < s) (M : TenModel τ)
    (resetT : τ → τ) (ts : τ) (X : Ten ℂ) (hX : X.shape = N :: F :: C :: b) :
    auxivaForwardT p (some s) M resetT ts X = .error .valueError := by
  have h1 : s ≠ C := by omega
  simp only [auxivaForwardT, hX]
  simp [inputCovT, Ten.eye, Ten.expand, Ten.take, hX, orthogonalConstraintT, h1, hs]

end

/-- **C129.**  For every batch shape, `AuxIVA_IP.forward` on the batch returns exactly when it returns
for every mixture of the batch, and then holds the signals of the mixtures; when it raises, it raises
what it raises for one of the mixtures.  The source model is any model that treats the items of a batch
one by one.  (Projection back on a microphone beyond the sources is excluded; its result has additional
dimensions, `auxiva_ref_mic_violated`.) -/
theorem auxiva_batch (p : IpParams) (nSrc : Option ℕ) {b : Shape} {C F N : ℕ} {M : TenModel τ}
    {m : SourceModel σ F N} {S : τ → (List ℕ → σ) → Prop} (hM : ModelRep b (nSrc.getD C) F N M m S)
    (resetT : τ → τ) (reset : σ → σ) (ts : τ) (ms : List ℕ → σ)
    (hS : S (resetT ts) fun β => reset (ms β))
    (X : Ten ℂ) (hX : X.shape = N :: F :: C :: b) (hb : ∃ β, Inside β b)
    (hmic : ∀ mic ∈ p.projBackMic, ∀ s ∈ nSrc, mic < s) :
    Batched b (fun r (o : List ℕ → Σ s : ℕ, IpOut σ s F N) =>
        ∃ s, nSrc = some s ∧ ∃ A : List ℕ → IpOut σ s F N, (∀ β, o β = ⟨s, A β⟩) ∧ RepIpOut b s F N S r A)
      (auxivaForwardT p nSrc M resetT ts X) fun β =>
      auxivaForward p nSrc (item3 X C F N β) m reset (ms β) := by
  obtain ⟨β, hβ⟩ := hb
  rcases nSrc with _ | s
  · exact ⟨β, hβ, rfl⟩
  · by_cases hs : s ≤ C
    · have h := auxivaForwardT_rep p s hs hM (rep_item hX) resetT reset hS fun mic h => hmic mic h s rfl
      cases hx : auxivaForwardT p (some s) M resetT ts X with
      | error e => rw [hx] at h; exact h
      | ok r =>
        rw [hx] at h
        obtain ⟨o, ho, A, hA⟩ := h
        exact ⟨o, ho, s, rfl, A, hA⟩
    · rw [too_many_sources p (by omega) M resetT ts X hX]
      exact ⟨β, hβ, by simp only [auxivaForward, dif_neg hs]⟩

/-- **C129**, seen from outside: `separate(X)[β] = separate(X[β])` for every batch index `β`, and when
`separate(X)` raises, `separate(X[β])` raises the same exception for some `β`. -/
theorem auxiva_batch_alone (p : IpParams) (nSrc : Option ℕ) {b : Shape} {C F N : ℕ} {M : TenModel τ}
    {m : SourceModel σ F N} {S S1 : τ → (List ℕ → σ) → Prop} (hM : ModelRep b (nSrc.getD C) F N M m S)
    (hM1 : ModelRep [] (nSrc.getD C) F N M m S1) (resetT : τ → τ) (reset : σ → σ) (ts : τ) (ts1 : List ℕ → τ)
    (ms : List ℕ → σ) (hS : S (resetT ts) fun β => reset (ms β))
    (hS1 : ∀ β, S1 (resetT (ts1 β)) fun _ => reset (ms β))
    (X : Ten ℂ) (hX : X.shape = N :: F :: C :: b) (hb : ∃ β, Inside β b)
    (hmic : ∀ mic ∈ p.projBackMic, ∀ s ∈ nSrc, mic < s) :
    AsAlone b (fun β r r1 => IsItem β r.Y r1.Y) (auxivaForwardT p nSrc M resetT ts X)
      fun β => auxivaForwardT p nSrc M resetT (ts1 β) (X.itemAt 3 β) := by
  refine (auxiva_batch p nSrc hM resetT reset ts ms hS X hX hb hmic).alone
    (fun β _ => auxiva_batch p nSrc hM1 resetT reset (ts1 β) (fun _ => ms β) (hS1 β) (X.itemAt 3 β)
      (by simp [Ten.itemAt, hX]) ⟨[], trivial⟩ hmic) (fun β => rfl) ?_
  rintro β r r1 a a1 hβ ⟨s, rfl, A, hA, h⟩ ⟨s', hs', A1, hA1, h1⟩ e
  obtain rfl := Option.some.inj hs'
  have e' : A1 [] = A β := by
    rw [hA, hA1] at e
    simpa using e
  exact h.Y.isItem h1.Y hβ (by rw [e'])

/-- Hypotheses met: the Laplace model, a batch of shape `(3, 2)`, two sources from four channels; the
batch is separated, and the result for an item is that for the item alone. -/
example (X : Ten ℂ) (hX : X.shape = [50, 129, 4, 2, 3]) :
    ∃ r, auxivaForwardT ⟨5, some 1, 1 / 1000⟩ (some 2) (laplaceT (1e-5)) id () X = .ok r ∧
      AsAlone [2, 3] (fun β r r1 => IsItem β r.Y r1.Y) (.ok r) fun β =>
        auxivaForwardT ⟨5, some 1, 1 / 1000⟩ (some 2) (laplaceT (1e-5)) id () (X.itemAt 3 β) := by
  obtain ⟨r, hr⟩ := (auxiva_batch ⟨5, some 1, 1 / 1000⟩ (some 2)
    (laplace_per_item [2, 3] _ 129 50 (1e-5)) id id () (fun _ => ()) trivial X hX ⟨[0, 0], by simp [Inside]⟩
    (by simp)).total fun β _ => by
      obtain ⟨o, _, _, ho, -⟩ := auxiva_output ⟨5, some 1, 1 / 1000⟩ (by norm_num) 2 (by norm_num)
        (item3 X 4 129 50 β) (laplaceModel (1e-5)) (fun s ms Y k f n => Demo.laplace_nonneg s ms Y k f n) id () (by simp)
      exact ⟨_, ho⟩
  refine ⟨r, hr, ?_⟩
  rw [← hr]
  exact auxiva_batch_alone ⟨5, some 1, 1 / 1000⟩ (some 2)
    (laplace_per_item [2, 3] _ 129 50 (1e-5)) (laplace_per_item [] _ 129 50 (1e-5)) id id ()
    (fun _ => ()) (fun _ => ()) trivial (fun _ => trivial) X hX ⟨[0, 0], by simp [Inside]⟩ (by simp)

end Torchiva.Props
