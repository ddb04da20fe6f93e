import Verif.Proofs.TensorNmf
import Verif.Props.TensorTIss
import Verif.Props.TensorAuxIva
import Verif.Props.TensorIp2

/-!
# The NMF source model treats a batch item by item (C135)

`nmfT` is `NMFModel.forward` on tensors: it flattens batch dimensions and sources into one dimension, keeps the factors of
all of them in its attributes and draws their initial values at random.  Mixture `β` of the batch compared with the
mixture alone: the model of the mixture alone is to draw the numbers drawn for mixture `β` in the batch.
-/

namespace Torchiva.Props

open Torchiva

/-- The numbers `u` drawn for a batch of shape `b` with `s` sources, those of mixture `β`. -/
def itemDraws (s : ℕ) (b : Shape) (u : List ℕ → ℝ) (β : List ℕ) : List ℕ → ℝ
  | [k, i, c] => u [k, i, flatIdx (s :: b) (c :: β)]
  | _ => 0

/-- An `NMFModel` that is not initialised, or was reset, and will draw the numbers `uT` and `uV`. -/
def freshNmf (uT uV : List ℕ → ℝ) : NmfModelT := ⟨uT, uV, none⟩

/-- The model for mixture `β` alone. -/
def freshNmfItem (s : ℕ) (b : Shape) (uT uV : List ℕ → ℝ) (β : List ℕ) : NmfModelT :=
  freshNmf (itemDraws s b uT β) (itemDraws s b uV β)

def itemState (s F N K : ℕ) (b : Shape) (uT uV : List ℕ → ℝ) (β : List ℕ) : NmfItem s F N K :=
  ⟨fun c f k => uT [k, f, flatIdx (s :: b) (c :: β)], fun c n k => uV [k, n, flatIdx (s :: b) (c :: β)], none⟩

theorem fresh_rep (eps : ℝ) (s F N K : ℕ) (b : Shape) (uT uV : List ℕ → ℝ) (h1 : ∀ i, 0 ≤ uT i)
    (h2 : ∀ i, 0 ≤ uV i) : NmfRep eps b (freshNmf uT uV) (itemState s F N K b uT uV) :=
  ⟨fun _ _ _ _ _ => rfl, fun _ _ _ _ _ => rfl, fun _ _ _ _ _ => h1 _, fun _ _ _ _ _ => h2 _, .inl ⟨rfl, fun _ _ => rfl⟩⟩

theorem fresh_rep_item (eps : ℝ) (s F N K : ℕ) (b : Shape) (uT uV : List ℕ → ℝ) (h1 : ∀ i, 0 ≤ uT i)
    (h2 : ∀ i, 0 ≤ uV i) (β : List ℕ) :
    NmfRep eps [] (freshNmfItem s b uT uV β) (fun _ => itemState s F N K b uT uV β) := by
  refine ⟨fun γ hγ c f k => ?_, fun γ hγ c f k => ?_, fun _ _ _ _ _ => h1 _, fun _ _ _ _ _ => h2 _,
    .inl ⟨rfl, fun _ _ => rfl⟩⟩
  all_goals
    match γ, hγ with
    | [], _ => simp [freshNmfItem, freshNmf, itemDraws, itemState, flatIdx]

/-- The NMF model treats the items of a batch one by one. -/
theorem nmf_per_item (b : Shape) (s F N K : ℕ) [NeZero F] [NeZero N] {eps : ℝ} (he : 0 < eps) :
    ModelRep b s F N (nmfT eps K) (nmfModel eps) (NmfRep (s := s) (F := F) (N := N) (K := K) eps b) :=
  nmfT_rep b s F N K he

example : ModelRep [2, 3] 4 129 50 (nmfT 1e-3 8) (nmfModel 1e-3) (NmfRep (s := 4) (F := 129) (N := 50) (K := 8) 1e-3 [2, 3]) :=
  nmf_per_item [2, 3] 4 129 50 8 (by norm_num)

/-- A source model called with several signals, one after the other: the weights it returns. -/
def callModel {τ : Type} (M : TenModel τ) : τ → List (Ten ℂ) → Except Err (List (Ten ℝ))
  | _, [] => .ok []
  | ts, X :: Xs => do
    let r ← M ts X
    let Rs ← callModel M r.2 Xs
    .ok (r.1 :: Rs)

private theorem calls_rep {s F N K : ℕ} [NeZero F] [NeZero N] {eps : ℝ} (he : 0 < eps) {b : Shape} {ts : NmfModelT}
    {ts1 : List ℕ → NmfModelT} {ms : List ℕ → NmfItem s F N K} (h : NmfRep eps b ts ms)
    (h1 : ∀ β, Inside β b → NmfRep eps [] (ts1 β) fun _ => ms β) (Xs : List (Ten ℂ))
    (hX : ∀ X ∈ Xs, X.shape = N :: F :: s :: b) :
    ∃ Rs, callModel (nmfT eps K) ts Xs = .ok Rs ∧ (∀ R ∈ Rs, R.shape = N :: F :: s :: b) ∧ Rs.length = Xs.length ∧
      ∀ β, Inside β b → ∃ Rs1, callModel (nmfT eps K) (ts1 β) (Xs.map fun X => X.itemAt 3 β) = .ok Rs1 ∧
        List.Forall₂ (IsItem β) Rs Rs1 := by
  induction Xs generalizing ts ts1 ms with
  | nil => exact ⟨[], rfl, by simp, rfl, fun β hβ => ⟨[], rfl, .nil⟩⟩
  | cons X Xs ih =>
    have hX0 := hX X (by simp)
    obtain ⟨r, e, hR, hS⟩ := nmfT_rep b s F N K he ts ms X (item3 X s F N) h ⟨hX0, fun _ _ _ _ _ _ _ _ => rfl⟩
    have k1 : ∀ β, Inside β b → ∃ r1, nmfT eps K (ts1 β) (X.itemAt 3 β) = .ok r1 ∧ IsItem β r.1 r1.1 ∧
        NmfRep eps [] r1.2 fun _ => (nmfModel eps s (ms β) (item3 X s F N β)).2 := fun β hβ => by
      obtain ⟨r1, e1, hR1, hS1⟩ := nmfT_rep [] s F N K he (ts1 β) (fun _ => ms β) (X.itemAt 3 β)
        (fun _ => item3 X s F N β) (h1 β hβ) ⟨by simp [Ten.itemAt, hX0], fun γ hγ i hi j hj k hk => by
          match γ, hγ with
          | [], _ => rfl⟩
      exact ⟨r1, e1, hR.isItem hR1 hβ rfl, hS1⟩
    let ts2 : List ℕ → NmfModelT := fun β => match nmfT eps K (ts1 β) (X.itemAt 3 β) with
      | .ok r1 => r1.2
      | .error _ => ts1 β
    obtain ⟨Rs, e2, hsh, hlen, h2⟩ := ih (ts1 := ts2) hS (fun β hβ => by
      obtain ⟨r1, e1, -, hS1⟩ := k1 β hβ
      simpa only [ts2, e1] using hS1) fun X h => hX X (by simp [h])
    refine ⟨r.1 :: Rs, ?_, ?_, by simp [hlen], fun β hβ => ?_⟩
    · rw [callModel, e, ok_bind', e2, ok_bind']
    · intro R h
      rcases List.mem_cons.mp h with rfl | h
      · exact hR.shape
      · exact hsh R h
    · obtain ⟨r1, e1, hi, -⟩ := k1 β hβ
      obtain ⟨Rs1, e3, h3⟩ := h2 β hβ
      refine ⟨r1.1 :: Rs1, ?_, .cons hi h3⟩
      rw [List.map_cons, callModel, e1, ok_bind', show r1.2 = ts2 β by simp only [ts2, e1], e3, ok_bind']

/-- **C135.**  A new `NMFModel` called with one batch of signals after another, all of the same shape: every call returns,
the weights have the shape of the signals, and those of item `β` are the weights that a new model, drawing the random
numbers drawn for item `β`, returns when it is called with item `β` of the signals. -/
theorem nmf_batch {s F N K : ℕ} (hF : 0 < F) (hN : 0 < N) {eps : ℝ} (he : 0 < eps) (b : Shape) (uT uV : List ℕ → ℝ)
    (hT : ∀ i, 0 ≤ uT i) (hV : ∀ i, 0 ≤ uV i) (Xs : List (Ten ℂ)) (hX : ∀ X ∈ Xs, X.shape = N :: F :: s :: b) :
    ∃ Rs, callModel (nmfT eps K) (freshNmf uT uV) Xs = .ok Rs ∧ (∀ R ∈ Rs, R.shape = N :: F :: s :: b) ∧
      Rs.length = Xs.length ∧ ∀ β, Inside β b →
        ∃ Rs1, callModel (nmfT eps K) (freshNmfItem s b uT uV β) (Xs.map fun X => X.itemAt 3 β) = .ok Rs1 ∧
          List.Forall₂ (IsItem β) Rs Rs1 :=
  haveI : NeZero F := ⟨by omega⟩
  haveI : NeZero N := ⟨by omega⟩
  calls_rep he (fresh_rep eps s F N K b uT uV hT hV) (fun β _ => fresh_rep_item eps s F N K b uT uV hT hV β) Xs hX

/-- Hypotheses met: two calls with batches of shape `(3, 2)`. -/
example (X Y : Ten ℂ) (hX : X.shape = [50, 129, 2, 2, 3]) (hY : Y.shape = [50, 129, 2, 2, 3]) :
    ∃ Rs, callModel (nmfT 1e-3 4) (freshNmf (fun _ => 1 / 2) fun _ => 1 / 3) [X, Y] = .ok Rs ∧
      Rs.length = 2 ∧ ∀ β, Inside β [2, 3] → ∃ Rs1, callModel (nmfT 1e-3 4)
        (freshNmfItem 2 [2, 3] (fun _ => 1 / 2) (fun _ => 1 / 3) β) [X.itemAt 3 β, Y.itemAt 3 β] = .ok Rs1 ∧
          List.Forall₂ (IsItem β) Rs Rs1 := by
  obtain ⟨Rs, h1, -, h2, h3⟩ := nmf_batch (s := 2) (F := 129) (N := 50) (K := 4) (by norm_num) (by norm_num)
    (eps := 1e-3) (by norm_num) [2, 3] (fun _ => 1 / 2) (fun _ => 1 / 3) (by norm_num) (by norm_num) [X, Y]
    (by simp [hX, hY])
  exact ⟨Rs, h1, h2, h3⟩

/-- The weights of `NMFModel` are nonnegative whatever its state. -/
lemma nmfModel_nonneg {s F N K : ℕ} {eps : ℝ} (he : 0 < eps) (s' : ℕ) (ms : NmfItem s F N K) (Y : Sig s' F N)
    (k f n) : 0 ≤ (nmfModel eps s' ms Y).1 k f n := by
  unfold nmfModel
  split
  · rename_i h
    split
    · rename_i r hr
      unfold nmfForward at hr
      dsimp only at hr
      cases h1 : nmfUpdateT eps (fun b f n => magSq (Y (b.cast h.symm) f n)) (ms.st.getD (nmfInit eps ms.uT ms.uV)) with
      | error e => rw [h1] at hr; cases hr
      | ok st1 =>
        rw [h1, ok_bind'] at hr
        cases h2 : nmfUpdateV eps (fun b f n => magSq (Y (b.cast h.symm) f n)) st1 with
        | error e => rw [h2] at hr; cases hr
        | ok st2 =>
          rw [h2, ok_bind'] at hr
          obtain rfl := Except.ok.inj hr
          unfold nmfUpdateV at h2
          dsimp only at h2
          split at h2
          · cases h2
          · obtain rfl := Except.ok.inj h2
            exact inv_nonneg.mpr (le_trans he.le (le_max_right _ _))
    · exact le_rfl
  · exact le_rfl

/-- **C135** in T-ISS: a batch separated with an NMF model is separated item by item. -/
theorem tiss_nmf_batch (p : TissParams) (nSrc : Option ℕ) {b : Shape} {C F N K : ℕ} (hF : 0 < F) (hN : 0 < N) {eps : ℝ}
    (he : 0 < eps) (uT uV : List ℕ → ℝ) (hT : ∀ i, 0 ≤ uT i) (hV : ∀ i, 0 ≤ uV i) (st : Option NmfT)
    (st1 : List ℕ → Option NmfT) (X : Ten ℂ) (hX : X.shape = N :: F :: C :: b) (hb : ∃ β, Inside β b)
    (hmic : ∀ mic ∈ p.projBackMic, 0 < p.nIter → ¬ (nSrc.getD C ≤ mic ∧ mic < C ∧ b ≠ [])) :
    AsAlone b (fun β r r1 => IsItem β r.Y r1.Y ∧ IsItem β r.W r1.W)
      (tissForwardT p nSrc (nmfT eps K) nmfResetT { freshNmf uT uV with st := st } X)
      fun β => tissForwardT p nSrc (nmfT eps K) nmfResetT { freshNmfItem (nSrc.getD C) b uT uV β with st := st1 β }
        (X.itemAt 3 β) := by
  haveI : NeZero F := ⟨by omega⟩
  haveI : NeZero N := ⟨by omega⟩
  have h := tiss_batch_alone p nSrc (nmfT_rep b (nSrc.getD C) F N K he) (nmfT_rep [] (nSrc.getD C) F N K he) nmfResetT
    nmfItemReset { freshNmf uT uV with st := st } (fun β => { freshNmfItem (nSrc.getD C) b uT uV β with st := st1 β })
    (itemState (nSrc.getD C) F N K b uT uV) (fresh_rep eps _ F N K b uT uV hT hV)
    (fun β => fresh_rep_item eps _ F N K b uT uV hT hV β) X hX hb hmic
  revert h
  cases tissForwardT p nSrc (nmfT eps K) nmfResetT { freshNmf uT uV with st := st } X with
  | error e => exact id
  | ok r =>
    intro h β hβ
    obtain ⟨r1, e, h1, h2, -⟩ := h β hβ
    exact ⟨r1, e, h1, h2⟩

/-- **C135** in AuxIVA-IP. -/
theorem auxiva_nmf_batch (p : IpParams) (s : ℕ) {b : Shape} {C F N K : ℕ} (hF : 0 < F) (hN : 0 < N) {eps : ℝ}
    (he : 0 < eps) (uT uV : List ℕ → ℝ) (hT : ∀ i, 0 ≤ uT i) (hV : ∀ i, 0 ≤ uV i) (st : Option NmfT)
    (st1 : List ℕ → Option NmfT) (X : Ten ℂ) (hX : X.shape = N :: F :: C :: b) (hb : ∃ β, Inside β b)
    (hmic : ∀ mic ∈ p.projBackMic, mic < s) :
    AsAlone b (fun β r r1 => IsItem β r.Y r1.Y)
      (auxivaForwardT p (some s) (nmfT eps K) nmfResetT { freshNmf uT uV with st := st } X)
      fun β => auxivaForwardT p (some s) (nmfT eps K) nmfResetT { freshNmfItem s b uT uV β with st := st1 β }
        (X.itemAt 3 β) :=
  haveI : NeZero F := ⟨by omega⟩
  haveI : NeZero N := ⟨by omega⟩
  auxiva_batch_alone p (some s) (nmfT_rep b s F N K he) (nmfT_rep [] s F N K he) nmfResetT
    nmfItemReset { freshNmf uT uV with st := st } (fun β => { freshNmfItem s b uT uV β with st := st1 β })
    (itemState s F N K b uT uV) (fresh_rep eps _ F N K b uT uV hT hV)
    (fun β => fresh_rep_item eps _ F N K b uT uV hT hV β) X hX hb
    (fun mic h s' hs => by obtain rfl := Option.some.inj hs; exact hmic mic h)

/-- **C135** in AuxIVA-IP2, which returns for every batch of two-channel mixtures. -/
theorem ip2_nmf_batch (nIter : ℕ) (mic : Option (Fin 2)) (eps : ℝ) (he : 0 < eps) {b : Shape} {F N K : ℕ} (hF : 0 < F)
    (hN : 0 < N) {eps' : ℝ} (he' : 0 < eps') (uT uV : List ℕ → ℝ) (hT : ∀ i, 0 ≤ uT i) (hV : ∀ i, 0 ≤ uV i)
    (st : Option NmfT) (st1 : List ℕ → Option NmfT) (X : Ten ℂ) (hX : X.shape = N :: F :: 2 :: b)
    (hb : ∃ β, Inside β b) :
    ∃ Y, auxiva2ForwardT nIter (mic.map fun m => ((m.1 : ℕ) : ℤ)) eps (nmfT eps' K) nmfResetT
        { freshNmf uT uV with st := st } X = .ok Y ∧ Y.shape = X.shape ∧
      ∀ β, Inside β b → ∃ Y1, auxiva2ForwardT nIter (mic.map fun m => ((m.1 : ℕ) : ℤ)) eps (nmfT eps' K) nmfResetT
        { freshNmfItem 2 b uT uV β with st := st1 β } (X.itemAt 3 β) = .ok Y1 ∧ IsItem β Y Y1 :=
  haveI : NeZero F := ⟨by omega⟩
  haveI : NeZero N := ⟨by omega⟩
  ip2_batch_total nIter mic eps he (fun s' ms Y k f n => nmfModel_nonneg he' s' ms Y k f n) (nmfT_rep b 2 F N K he')
    (nmfT_rep [] 2 F N K he') nmfResetT nmfItemReset { freshNmf uT uV with st := st }
    (fun β => { freshNmfItem 2 b uT uV β with st := st1 β }) (itemState 2 F N K b uT uV)
    (fresh_rep eps' _ F N K b uT uV hT hV) (fun β => fresh_rep_item eps' _ F N K b uT uV hT hV β) X hX hb

/-- Hypotheses met: a batch of shape `(3, 2)`, two sources from four channels in T-ISS and AuxIVA-IP. -/
example (X : Ten ℂ) (hX : X.shape = [50, 129, 4, 2, 3]) :
    AsAlone [2, 3] (fun β r r1 => IsItem β r.Y r1.Y ∧ IsItem β r.W r1.W)
      (tissForwardT ⟨5, 2, 1, some 1, true, 1 / 1000⟩ (some 2) (nmfT 1e-3 4) nmfResetT
        (freshNmf (fun _ => 1 / 2) fun _ => 1 / 3) X)
      fun β => tissForwardT ⟨5, 2, 1, some 1, true, 1 / 1000⟩ (some 2) (nmfT 1e-3 4) nmfResetT
        (freshNmfItem 2 [2, 3] (fun _ => 1 / 2) (fun _ => 1 / 3) β) (X.itemAt 3 β) :=
  tiss_nmf_batch ⟨5, 2, 1, some 1, true, 1 / 1000⟩ (some 2) (by norm_num) (by norm_num) (by norm_num) _ _ (by norm_num)
    (by norm_num) none (fun _ => none) X hX ⟨[0, 0], by simp [Inside]⟩ (by simp)

example (X : Ten ℂ) (hX : X.shape = [50, 129, 4, 2, 3]) :
    AsAlone [2, 3] (fun β r r1 => IsItem β r.Y r1.Y)
      (auxivaForwardT ⟨5, some 1, 1 / 1000⟩ (some 2) (nmfT 1e-3 4) nmfResetT
        (freshNmf (fun _ => 1 / 2) fun _ => 1 / 3) X)
      fun β => auxivaForwardT ⟨5, some 1, 1 / 1000⟩ (some 2) (nmfT 1e-3 4) nmfResetT
        (freshNmfItem 2 [2, 3] (fun _ => 1 / 2) (fun _ => 1 / 3) β) (X.itemAt 3 β) :=
  auxiva_nmf_batch ⟨5, some 1, 1 / 1000⟩ 2 (by norm_num) (by norm_num) (by norm_num) _ _ (by norm_num)
    (by norm_num) none (fun _ => none) X hX ⟨[0, 0], by simp [Inside]⟩ (by simp)

/-- Hypotheses met: AuxIVA-IP2 on a batch of shape `(3, 2)`. -/
example (X : Ten ℂ) (hX : X.shape = [50, 129, 2, 2, 3]) :
    ∃ Y, auxiva2ForwardT 10 (some 0) (1e-5) (nmfT 1e-3 4) nmfResetT (freshNmf (fun _ => 1 / 2) fun _ => 1 / 3) X = .ok Y ∧
      Y.shape = X.shape ∧ ∀ β, Inside β [2, 3] → ∃ Y1, auxiva2ForwardT 10 (some 0) (1e-5) (nmfT 1e-3 4) nmfResetT
        (freshNmfItem 2 [2, 3] (fun _ => 1 / 2) (fun _ => 1 / 3) β) (X.itemAt 3 β) = .ok Y1 ∧ IsItem β Y Y1 :=
  ip2_nmf_batch 10 (some 0) (1e-5) (by norm_num) (by norm_num) (by norm_num) (by norm_num) _ _ (by norm_num)
    (by norm_num) none (fun _ => none) X hX ⟨[0, 0], by simp [Inside]⟩

end Torchiva.Props
