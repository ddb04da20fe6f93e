import Verif.Proofs.TensorTIssLoop
import Verif.Props.TIss

/-!
# A batch of mixtures is separated item by item (C128)

`tissForwardT` is `T_ISS.forward` on tensors with any batch dimensions, einsum by einsum;
`tissForward` is the formula for one mixture, of which the other modules prove properties.
-/

namespace Torchiva.Props

open Torchiva

variable {τ σ : Type}

/-- What `T_ISS.forward` returns for a batch, against what it returns for the items. -/
def SeparatesItems (b : Shape) (C F N : ℕ) (nSrc : Option ℕ) (S : τ → (List ℕ → σ) → Prop)
    (r : TissOutT τ) (o : List ℕ → Σ s : ℕ, TissOut σ s C F N) : Prop :=
  ∃ A : List ℕ → TissOut σ (nSrc.getD C) C F N, (∀ β, o β = ⟨nSrc.getD C, A β⟩) ∧
    RepTissOut b (nSrc.getD C) C F N S r A

private theorem rep_item {X : Ten ℂ} {b : Shape} {C F N : ℕ} (hX : X.shape = N :: F :: C :: b) :
    Rep3 b C F N X (item3 X C F N) := ⟨hX, fun _ _ _ _ _ _ _ _ => rfl⟩

/-- **C128.**  For every batch shape, `T_ISS.forward` on the batch returns exactly when it returns for
every mixture of the batch, its tensors then hold the signals, the demixing filters and the background
filters of the mixtures, and when it raises, it raises what it raises for one of the mixtures.  The
source model is any model that treats the items of a batch one by one.  (Projection back on a
microphone beyond the sources is excluded for over-determined batches, see
`tiss_batch_mic_violated`.) -/
theorem tiss_batch (p : TissParams) (nSrc : Option ℕ) {b : Shape} {C F N : ℕ} {M : TenModel τ}
    {m : SourceModel σ F N} {S : τ → (List ℕ → σ) → Prop} (hM : ModelRep b (nSrc.getD C) F N M m S)
    (resetT : τ → τ) (reset : σ → σ) (ts : τ) (ms : List ℕ → σ)
    (hS : S (resetT ts) fun β => reset (ms β))
    (X : Ten ℂ) (hX : X.shape = N :: F :: C :: b) (hb : ∃ β, Inside β b)
    (hmic : ∀ mic ∈ p.projBackMic, 0 < p.nIter → ¬ (nSrc.getD C ≤ mic ∧ mic < C ∧ b ≠ [])) :
    Batched b (SeparatesItems b C F N nSrc S) (tissForwardT p nSrc M resetT ts X) fun β =>
      tissForward p nSrc (item3 X C F N β) m reset (ms β) := by
  unfold tissForwardT
  simp only [hX]
  by_cases hs : nSrc.getD C ≤ C
  · rw [if_pos hs]
    have h := tissCoreT_rep hs p hM (rep_item hX) hS hmic hb
    simp only [tissForward, dif_pos hs]
    cases hx : tissCoreT p (nSrc.getD C) C F b M (resetT ts) X with
    | error e =>
      rw [hx] at h
      obtain ⟨β, hβ, h⟩ := h
      exact ⟨β, hβ, by beta_reduce at h ⊢; rw [h]; rfl⟩
    | ok r =>
      rw [hx] at h
      obtain ⟨a, ha, h⟩ := h
      exact ⟨fun β => ⟨_, a β⟩, fun β hβ => by
        have := ha β hβ
        beta_reduce at this ⊢
        rw [this]; rfl, a, fun _ => rfl, h⟩
  · rw [if_neg hs]
    obtain ⟨β, hβ⟩ := hb
    exact ⟨β, hβ, by simp only [tissForward, dif_neg hs]⟩

/-- The Laplace model treats the items of a batch one by one. -/
theorem laplace_per_item (b : Shape) (s F N : ℕ) (eps : ℝ) :
    ModelRep b s F N (laplaceT eps) (laplaceModel eps) fun _ _ => True := laplaceT_rep b s F N eps

/-- The Gauss model treats the items of a batch one by one. -/
theorem gauss_per_item (b : Shape) (s F N : ℕ) (eps : ℝ) :
    ModelRep b s F N (gaussT eps) (gaussModel eps) fun _ _ => True := gaussT_rep b s F N eps

/-- **C128**, seen from outside: `separate(X)[β] = separate(X[β])` for every batch index `β` (signals,
demixing filters and background filters), and when `separate(X)` raises, `separate(X[β])` raises the
same exception for some `β`. -/
theorem tiss_batch_alone (p : TissParams) (nSrc : Option ℕ) {b : Shape} {C F N : ℕ} {M : TenModel τ}
    {m : SourceModel σ F N} {S S1 : τ → (List ℕ → σ) → Prop} (hM : ModelRep b (nSrc.getD C) F N M m S)
    (hM1 : ModelRep [] (nSrc.getD C) F N M m S1) (resetT : τ → τ) (reset : σ → σ) (ts : τ) (ts1 : List ℕ → τ)
    (ms : List ℕ → σ) (hS : S (resetT ts) fun β => reset (ms β))
    (hS1 : ∀ β, S1 (resetT (ts1 β)) fun _ => reset (ms β))
    (X : Ten ℂ) (hX : X.shape = N :: F :: C :: b) (hb : ∃ β, Inside β b)
    (hmic : ∀ mic ∈ p.projBackMic, 0 < p.nIter → ¬ (nSrc.getD C ≤ mic ∧ mic < C ∧ b ≠ [])) :
    AsAlone b (fun β r r1 => IsItem β r.Y r1.Y ∧ IsItem β r.W r1.W ∧ (r.J.isSome ↔ r1.J.isSome) ∧
        ∀ J ∈ r.J, ∀ J1 ∈ r1.J, IsItem β J J1)
      (tissForwardT p nSrc M resetT ts X)
      fun β => tissForwardT p nSrc M resetT (ts1 β) (X.itemAt 3 β) := by
  refine (tiss_batch p nSrc hM resetT reset ts ms hS X hX hb hmic).alone
    (fun β _ => tiss_batch p nSrc hM1 resetT reset (ts1 β) (fun _ => ms β) (hS1 β) (X.itemAt 3 β)
      (by simp [Ten.itemAt, hX]) ⟨[], trivial⟩ (by simp)) (fun β => rfl) ?_
  rintro β r r1 a a1 hβ ⟨A, hA, h⟩ ⟨A1, hA1, h1⟩ e
  have e' : A1 [] = A β := by
    rw [hA, hA1] at e
    simpa using e
  refine ⟨h.Y.isItem h1.Y hβ (by rw [e']), h.W.isItem h1.W hβ (by rw [e']), ?_, ?_⟩
  · have hJ := h.J
    have hJ1 := h1.J
    have k : (r.J.isSome ↔ (A β).J.isSome) := by
      generalize r.J = o at hJ ⊢
      rcases o with _ | J
      · have := hJ β
        beta_reduce at this
        rw [this]; simp
      · obtain ⟨AJ, -, hJ⟩ := hJ
        have := hJ β
        beta_reduce at this
        rw [this]; simp
    have k1 : (r1.J.isSome ↔ (A1 []).J.isSome) := by
      generalize r1.J = o at hJ1 ⊢
      rcases o with _ | J
      · have := hJ1 []
        beta_reduce at this
        rw [this]; simp
      · obtain ⟨AJ, -, hJ1⟩ := hJ1
        have := hJ1 []
        beta_reduce at this
        rw [this]; simp
    rw [k, k1, e']
  · intro J hJm J1 hJm1
    have hJ := h.J
    have hJ1 := h1.J
    rw [Option.mem_def] at hJm hJm1
    rw [hJm] at hJ
    rw [hJm1] at hJ1
    obtain ⟨AJ, rJ, h2⟩ := hJ
    obtain ⟨AJ1, rJ1, h3⟩ := hJ1
    refine rJ.isItem rJ1 hβ ?_
    have h4 := h2 β
    have h5 := h3 []
    beta_reduce at h4 h5
    rw [e', h4] at h5
    exact (Option.some.inj h5).symm

/-- Hypotheses met: the Laplace model, a batch of shape `(3, 2)`, two sources from four channels. -/
example (X : Ten ℂ) (hX : X.shape = [50, 129, 4, 2, 3]) :
    ∃ r, tissForwardT ⟨5, 2, 1, some 1, true, 1 / 1000⟩ (some 2) (laplaceT (1 / 100000)) id () X = .ok r ∧
      AsAlone [2, 3] (fun β r r1 => IsItem β r.Y r1.Y) (.ok r) fun β =>
        tissForwardT ⟨5, 2, 1, some 1, true, 1 / 1000⟩ (some 2) (laplaceT (1 / 100000)) id ()
          (X.itemAt 3 β) := by
  have h := tiss_batch ⟨5, 2, 1, some 1, true, 1 / 1000⟩ (some 2)
    (laplace_per_item [2, 3] _ 129 50 (1 / 100000)) id id () (fun _ => ()) trivial X hX ⟨[0, 0], by simp [Inside]⟩
    (by simp)
  have h1 := tiss_batch_alone ⟨5, 2, 1, some 1, true, 1 / 1000⟩ (some 2)
    (laplace_per_item [2, 3] _ 129 50 (1 / 100000)) (laplace_per_item [] _ 129 50 (1 / 100000)) id id ()
    (fun _ => ()) (fun _ => ()) trivial (fun _ => trivial) X hX ⟨[0, 0], by simp [Inside]⟩ (by simp)
  cases hx : tissForwardT ⟨5, 2, 1, some 1, true, 1 / 1000⟩ (some 2) (laplaceT (1 / 100000)) id () X with
  | error e =>
    rw [hx] at h
    obtain ⟨β, hβ, h⟩ := h
    obtain ⟨o, ho⟩ := tiss_succeeds ⟨5, 2, 1, some 1, true, 1 / 1000⟩ (by norm_num) (some 2)
      (item3 X 4 129 50 β) (by simp) (by simp) (laplaceModel (1 / 100000)) id ()
    beta_reduce at h
    rw [ho] at h
    cases h
  | ok r =>
    rw [hx] at h1
    refine ⟨r, rfl, fun β hβ => ?_⟩
    obtain ⟨t1, h2, h3, -⟩ := h1 β hβ
    exact ⟨t1, h2, h3⟩

section

attribute [local simp] ok_bind' err_bind' pure_ok' comb_self comb_one_left comb_one_right bcast_self
  bcast_nil_left bcast_nil_right bcast_cons bcastTo sel pick onDim unsq swap01 swap12 move13
  reduceKeep maxKeep reduce bindLabel bindOp bindOps einsum matmul eighS List.lookup
  Ten.map Ten.map2 Ten.read bIdx sumOver opIdx einsumT bnat bIdx_inside

private theorem back_weights_error {b : Shape} {s C F : ℕ} {W J : Ten ℂ} (hW : W.shape = C :: F :: s :: b)
    (hJ : J.shape = s :: F :: (C - s) :: b) (hb0 : b ≠ []) {mic : ℕ} (h1 : s ≤ mic) (h2 : mic < C) :
    projectionBackWeightsT W (some J) mic = .error .runtimeError := by
  have hs : s < C := by omega
  have hs' : s ≤ C := hs.le
  have e1 : W.shape.getD 2 0 = s := by simp [hW]
  have e2 : W.shape.getD 0 0 = C := by simp [hW]
  have h3 : mic - s < C - s := by omega
  have h4 : b.length ≠ 0 := by simpa using hb0
  simp only [projectionBackWeightsT, e1, e2, if_pos hs, if_neg (show ¬ mic < s by omega)]
  simp [Ten.take, Ten.drop, Ten.pick, Ten.permute, permute, hW, hJ, hs', h3, h4]

end

/-- The excluded case: projecting an over-determined **batch** back on a microphone beyond the sources
raises `RuntimeError`, although every mixture of the batch alone is separated (line 290 permutes three
dimensions of a tensor with more). -/
theorem tiss_batch_mic_violated (p : TissParams) (he : 0 < p.eps) (hn : 0 < p.nIter) {s C F N : ℕ}
    {b : Shape} (hb : ∃ β, Inside β b) (hb0 : b ≠ []) (mic : ℕ) (hp : p.projBackMic = some mic)
    (h1 : s ≤ mic) (h2 : mic < C) (eps : ℝ) (X : Ten ℂ) (hX : X.shape = N :: F :: C :: b) :
    tissForwardT p (some s) (laplaceT eps) id () X = .error .runtimeError ∧
      ∀ β, Inside β b → ∃ r, tissForwardT p (some s) (laplaceT eps) id () (X.itemAt 3 β) = .ok r := by
  refine ⟨?_, fun β hβ => ?_⟩
  · have h := tiss_batch { p with projBackMic := none } (some s) (laplace_per_item b _ F N eps) id id ()
      (fun _ => ()) trivial X hX hb (by simp)
    have hs : s ≤ C := by omega
    cases hx : tissForwardT { p with projBackMic := none } (some s) (laplaceT eps) id () X with
    | error e =>
      rw [hx] at h
      obtain ⟨β', hβ', h⟩ := h
      obtain ⟨o, ho⟩ := tiss_succeeds { p with projBackMic := none } he (some s) (item3 X C F N β')
        (by simp; omega) (by simp) (laplaceModel eps) id ()
      beta_reduce at h
      rw [ho] at h
      cases h
    | ok r =>
      rw [hx] at h
      obtain ⟨-, -, A, -, rep⟩ := h
      simp only [tissForwardT, hX, Option.getD_some, if_pos hs, tissCoreT, hp, if_pos hn, id] at hx ⊢
      cases e1 : delayedT p.nTaps p.nDelay X with
      | error e => rw [e1] at hx; cases hx
      | ok Xbar =>
      rw [e1] at hx
      simp only [ok_bind'] at hx ⊢
      cases e2 : covT X Xbar with
      | error e => rw [e2] at hx; cases hx
      | ok cov =>
      rw [e2] at hx
      simp only [ok_bind'] at hx ⊢
      cases e3 : tissInitT s C F p.nTaps b X Xbar cov.1 cov.2 p.eps () with
      | error e => rw [e3] at hx; cases hx
      | ok st0 =>
      rw [e3] at hx
      simp only [ok_bind'] at hx ⊢
      cases e4 : iterM (if p.useDmc then tissOneIterDmcT (laplaceT eps) X Xbar cov.1 cov.2 p.eps
        else tissOneIterT (laplaceT eps) X Xbar cov.1 cov.2 p.eps) p.nIter st0 with
      | error e => rw [e4] at hx; cases hx
      | ok st =>
      rw [e4] at hx
      simp only [ok_bind'] at hx ⊢
      cases e5 : (if p.useDmc then demixDerevT X Xbar st.W st.H else .ok st.Y : Except Err (Ten ℂ)) with
      | error e => rw [e5] at hx; cases hx
      | ok Y =>
      rw [e5] at hx
      simp only [ok_bind'] at hx ⊢
      obtain rfl := Except.ok.inj hx
      have hW := rep.W.shape
      have hJ := rep.J
      have hn := rep.noJ
      dsimp only at hW hJ hn
      rcases e6 : st.J with _ | J
      · exact absurd (hn e6) (by simp; omega)
      · rw [e6] at hJ
        obtain ⟨AJ, rJ, -⟩ := hJ
        rw [back_weights_error hW rJ.shape hb0 h1 h2]
        rfl
  · have h := tiss_batch p (some s) (laplace_per_item [] _ F N eps) id id () (fun _ => ()) trivial
      (X.itemAt 3 β) (show _ = N :: F :: C :: [] by simp [Ten.itemAt, hX]) ⟨[], trivial⟩ (by simp)
    cases hx : tissForwardT p (some s) (laplaceT eps) id () (X.itemAt 3 β) with
    | ok r => exact ⟨r, rfl⟩
    | error e =>
      rw [hx] at h
      obtain ⟨β', hβ', h⟩ := h
      obtain ⟨o, ho⟩ := tiss_succeeds p he (some s) (item3 (X.itemAt 3 β) C F N β') (by simp; omega)
        (by simp [hp, h2]) (laplaceModel eps) id ()
      beta_reduce at h
      rw [ho] at h
      cases h

/-- Two sources from four channels in a batch of six, projected back on the fourth microphone. -/
example (X : Ten ℂ) (hX : X.shape = [50, 129, 4, 2, 3]) :
    tissForwardT ⟨5, 0, 0, some 3, false, 1e-3⟩ (some 2) (laplaceT 1e-5) id () X = .error .runtimeError :=
  (tiss_batch_mic_violated ⟨5, 0, 0, some 3, false, 1e-3⟩ (by norm_num) (by norm_num) ⟨[0, 0], by simp [Inside]⟩ (by simp) 3 rfl
    (by norm_num) (by norm_num) _ X hX).1

end Torchiva.Props
