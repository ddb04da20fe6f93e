import Verif.Model.TensorMinDist
import Verif.Proofs.TensorScaling
import Verif.Proofs.TensorNmf
import Verif.Spec.ModelUse

/-! `minimum_distortion` on tensors. -/

namespace Torchiva

open Spec

set_option linter.unusedSimpArgs false

attribute [local simp] ok_bind' err_bind' pure_ok' comb_self comb_one_left comb_one_right bcast_self
  bcast_nil_left bcast_nil_right bcast_cons bcastTo sel pick onDim unsq swap01 swap12 move13
  reduceKeep maxKeep reduce bindLabel bindOp bindOps einsum matmul eighS List.lookup catS
  Ten.map Ten.map2 Ten.read bIdx sumOver opIdx einsumT bnat bIdx_inside Ten.swapIdx01 Ten.swapIdx12

variable {b : Shape} {C F N : ℕ}

/-- The sum over the entries of a tensor in memory order. -/
theorem sum_unflat {n : ℕ} {s : Shape} (g : List ℕ → ℝ) :
    ∑ i ∈ Finset.range (numel (n :: s)), g (unflatIdx (n :: s) i) =
      ∑ j ∈ Finset.range (numel s), ∑ i ∈ Finset.range n, g (i :: unflatIdx s j) := by
  rw [Finset.sum_sigma']
  refine Finset.sum_nbij' (fun k => ⟨k / n, k % n⟩) (fun p => p.2 + n * p.1) ?_ ?_ ?_ ?_ ?_
  · intro k hk
    simp only [Finset.mem_range, numel, List.prod_cons] at hk
    have hn : 0 < n := Nat.pos_of_ne_zero fun h => by simp [h] at hk
    simp only [Finset.mem_sigma, Finset.mem_range, numel]
    exact ⟨Nat.div_lt_of_lt_mul hk, Nat.mod_lt _ hn⟩
  · rintro ⟨j, i⟩ h
    simp only [Finset.mem_sigma, Finset.mem_range, numel, List.prod_cons] at h ⊢
    calc i + n * j < n + n * j := by omega
      _ = n * (j + 1) := by ring
      _ ≤ n * s.prod := Nat.mul_le_mul_left _ h.1
  · intro k _
    exact Nat.mod_add_div k n
  · rintro ⟨j, i⟩ h
    simp only [Finset.mem_sigma, Finset.mem_range] at h
    have hn : 0 < n := by omega
    simp [Nat.add_mul_mod_self_left, Nat.mod_eq_of_lt h.2, Nat.add_mul_div_left _ _ hn, Nat.div_eq_of_lt h.2]
  · intro k _
    rfl

/-- The scale factors of the batch as a function of the position in memory order. -/
def RepScale (b : Shape) (F C : ℕ) (c : Ten ℂ) (k : MdScale (numel b) F C) : Prop :=
  Rep2 b F C c fun β f j => if h : flatIdx b β < numel b then k ⟨flatIdx b β, h⟩ f j else 0

theorem RepScale.val {c : Ten ℂ} {k : MdScale (numel b) F C} (h : RepScale b F C c k) (i : Fin (numel b)) (f : Fin F) (j : Fin C) :
    c.val (j :: f :: unflatIdx b i) = k i f j := by
  rw [Rep2.val h _ (unflat_inside i.2) f f.2 j j.2]
  simp [flat_unflat i.2]

theorem RepScale.of {c : Ten ℂ} {k : MdScale (numel b) F C} {K : List ℕ → Fin F → Fin C → ℂ} (h : Rep2 b F C c K)
    (hk : ∀ i : Fin (numel b), K (unflatIdx b i) = k i) : RepScale b F C c k := by
  refine ⟨h.shape, fun β hβ f hf j hj => ?_⟩
  rw [h.val β hβ f hf j hj, dif_pos (flatIdx_lt hβ), ← hk]
  simp [unflat_flat hβ]

theorem mdNormT_eq {c : Ten ℂ} {k : MdScale (numel b) F C} (h : RepScale b F C c k) : mdNormT c = mdNorm k := by
  unfold mdNormT mdNorm
  rw [Rep2.shape h, sum_unflat fun idx => ‖c.val idx‖ ^ 2,
    sum_unflat fun idx => ∑ i ∈ Finset.range C, ‖c.val (i :: idx)‖ ^ 2, Finset.sum_range]
  congr 1
  refine Finset.sum_congr rfl fun i _ => ?_
  rw [Finset.sum_range]
  refine Finset.sum_congr rfl fun f _ => ?_
  rw [Finset.sum_range]
  exact Finset.sum_congr rfl fun j _ => by rw [h.val]

/-- Whatever step is used, the loop on tensors follows the loop on the items. -/
theorem mdLoopT_rep {T : Ten ℂ → Except Err (Ten ℂ)} {I : MdScale (numel b) F C → Except Err (MdScale (numel b) F C)}
    (hs : ∀ c k, RepScale b F C c k → Alike (RepScale b F C) (T c) (I k)) (rtol : ℝ) (fuel : ℕ) :
    ∀ pc pk c k, Option.Rel (RepScale b F C) pc pk → RepScale b F C c k →
      Alike (RepScale b F C) (mdLoopT T rtol fuel pc c) (mdLoop I rtol fuel pk k) := by
  induction fuel with
  | zero =>
    intro pc pk c k _ h
    refine Or.inl ⟨c, k, ?_, ?_, h⟩
    · cases pc <;> rfl
    · cases pk <;> rfl
  | succ fuel ih =>
    intro pc pk c k hp h
    cases hp with
    | none =>
      rw [mdLoopT, mdLoop]
      rcases hs c k h with ⟨c', k', e, e', h'⟩ | ⟨e, e1, e2⟩
      · rw [e, e', ok_bind', ok_bind']
        exact ih _ _ _ _ (.some h') h'
      · rw [e1, e2, err_bind', err_bind']
        exact Or.inr ⟨e, rfl, rfl⟩
    | @some pc pk hp =>
      rw [mdLoopT, mdLoop]
      rcases hs c k h with ⟨c', k', e, e', h'⟩ | ⟨e, e1, e2⟩
      · rw [e, e', ok_bind', ok_bind']
        obtain ⟨d, e, hd⟩ : ∃ t, Ten.map2 (fun x y => x - y) c' pc = .ok t ∧ RepScale b F C t fun i f j => k' i f j - pk i f j := by
          simp [Rep2.shape h', Rep2.shape hp]
          refine ⟨rfl, fun β hβ f hf j hj => ?_⟩
          simp [hβ, hf, hj, Rep2.val h', Rep2.val hp, Rep2.shape h', Rep2.shape hp, flatIdx_lt hβ]
        rw [e, ok_bind', mdNormT_eq hp, mdNormT_eq hd]
        split_ifs
        · exact Or.inl ⟨_, _, rfl, rfl, h'⟩
        · exact ih _ _ _ _ (.some h') h'
      · rw [e1, e2, err_bind', err_bind']
        exact Or.inr ⟨e, rfl, rfl⟩

/-- The weights without a model, for one item. -/
noncomputable def mdItemWeights (p q : Option ℝ) : Except Err ((Fin F → Fin C → Fin N → ℂ) → Fin F → Fin C → Fin N → ℝ) :=
  open Classical in
  let lp := fun p : ℝ => if 0 < p ∧ p < 2 then
    Except.ok (ε := Err) fun (E : Fin F → Fin C → Fin N → ℂ) f c n => p / clampMin (2 * ‖E f c n‖ ^ (2 - p)) 1e-5 else .error .assertionError
  match p, q with
  | none, _ => .error .typeError
  | some p, none => lp p
  | some p, some q => if p = q then lp p else if 0 < p ∧ p ≤ q ∧ q ≤ 2 then
      .ok fun E f c n => p / clampMin (2 * (∑ f, ((‖E f c n‖ + 1e-5) ^ q + 1e-5)) ^ (1 - p / q)
        * |(‖E f c n‖ + 1e-5) ^ q + 1e-5| ^ (2 - q)) 1e-5
    else .error .assertionError

theorem mdWeights_item (p q : Option ℝ) {B : ℕ} (E : MdErr B F C N) :
    mdWeights p q none E = (mdItemWeights p q).map fun w i => w (E i) := by
  unfold mdWeights mdItemWeights lpNorm lpqNorm
  rcases p with _ | p
  · rfl
  · rcases q with _ | q
    · dsimp only
      split_ifs <;> rfl
    · dsimp only
      split_ifs <;> rfl

theorem mdWeightsT_rep (p q : Option ℝ) {E : Ten ℂ} {A : List ℕ → Fin F → Fin C → Fin N → ℂ} (h : Rep3 b F C N E A) :
    Alike (fun t w => Rep3 b F C N t fun β => w (A β)) (mdWeightsT p q none E) (mdItemWeights p q) := by
  have hlp : ∀ p : ℝ, Rep3 b F C N (E.map fun z => p / clampMin (2 * ‖z‖ ^ (2 - p)) 1e-5)
      fun β f c n => p / clampMin (2 * ‖A β f c n‖ ^ (2 - p)) 1e-5 := fun p =>
    ⟨h.shape, fun β hβ i hi j hj k hk => by simp [h.val β hβ i hi j hj k hk]⟩
  unfold mdWeightsT mdItemWeights lpNormT lpqNormT
  rcases p with _ | p
  · exact Or.inr ⟨_, rfl, rfl⟩
  · rcases q with _ | q
    · dsimp only
      split_ifs
      · exact Or.inl ⟨_, _, rfl, rfl, hlp p⟩
      · exact Or.inr ⟨_, rfl, rfl⟩
    · dsimp only
      split_ifs
      · exact Or.inl ⟨_, _, rfl, rfl, hlp p⟩
      · exact Or.inr ⟨_, rfl, rfl⟩
      · obtain ⟨rn, e, hrn⟩ : ∃ t, Ten.sumKeep 2 ((E.map fun z => ‖z‖ + 1e-5).map fun x => x ^ q + 1e-5) = .ok t ∧
            Rep3 b 1 C N t fun β _ c n => ∑ f, ((‖A β f c n‖ + 1e-5) ^ q + 1e-5) := by
          simp [Ten.sumKeep, h.shape]
          refine ⟨rfl, fun β hβ i hi j hj k hk => ?_⟩
          simp [Finset.sum_range, hβ, hj, hk, h.val]
        rw [e, ok_bind']; clear e
        obtain ⟨rq, e, hrq⟩ : ∃ t, Ten.map2 (fun x y => 2 * x * y) (rn.map fun x => x ^ (1 - p / q))
            (((E.map fun z => ‖z‖ + 1e-5).map fun x => x ^ q + 1e-5).map fun x => |x| ^ (2 - q)) = .ok t ∧
            Rep3 b F C N t fun β f c n => 2 * (∑ f, ((‖A β f c n‖ + 1e-5) ^ q + 1e-5)) ^ (1 - p / q)
              * |(‖A β f c n‖ + 1e-5) ^ q + 1e-5| ^ (2 - q) := by
          simp [hrn.shape, h.shape]
          refine ⟨rfl, fun β hβ i hi j hj k hk => ?_⟩
          simp [hβ, hi, hj, hk, hrn.val, h.val]
        rw [e, ok_bind']; clear e
        exact Or.inl ⟨_, _, rfl, rfl, hrq.shape, fun β hβ i hi j hj k hk => by simp [hrq.val β hβ i hi j hj k hk]⟩
      · exact Or.inr ⟨_, rfl, rfl⟩

/-- The new scale factor of one frequency and channel. -/
noncomputable def mdNew (Y ref : Fin N → ℂ) (w : Fin N → ℝ) : ℂ :=
  (∑ n, ref n * star (Y n) * (w n : ℂ)) / ((clampMin (∑ n, ‖Y n‖ ^ 2 * w n) 1e-5 : ℝ) : ℂ)

/-- The weights are read with broadcasting. -/
structure WRead (b : Shape) (F C N : ℕ) (w : Ten ℝ) (W : List ℕ → Fin F → Fin C → Fin N → ℝ) : Prop where
  shape : bcast (N :: C :: F :: b) w.shape = .ok (N :: C :: F :: b)
  val : ∀ β, Inside β b → ∀ f (hf : f < F) c (hc : c < C) n (hn : n < N),
    w.read (n :: c :: f :: β) = W β ⟨f, hf⟩ ⟨c, hc⟩ ⟨n, hn⟩

theorem mdStepT_rep (p q : Option ℝ) (model : Option (Ten ℂ → Except Err (Ten ℝ))) {Yt ref c : Ten ℂ}
    {AY : List ℕ → Sig C F N} {AR : List ℕ → Fin F → Fin N → ℂ} {K : List ℕ → Fin F → Fin C → ℂ}
    (hY : Rep3 b F C N Yt fun β f c n => AY β c f n) (hR : Rep2 b F N ref AR) (hK : Rep2 b F C c K) :
    ∃ E, Rep3 b F C N E (fun β f c n => AR β f n - K β f c * AY β c f n) ∧
      (∀ e, mdWeightsT p q model E = .error e → mdStepT p q model Yt ref c = .error e) ∧
      ∀ w W, mdWeightsT p q model E = .ok w → WRead b F C N w W → ∃ c', mdStepT p q model Yt ref c = .ok c' ∧
        Rep2 b F C c' fun β f c => mdNew (AY β c f) (AR β f) (W β f c) := by
  obtain ⟨r, e1, hr⟩ : ∃ t, ref.unsq 1 = .ok t ∧ Rep3 b F 1 N t fun β f _ n => AR β f n := by
    simp [Ten.unsq, hR.shape]
    refine ⟨rfl, fun β hβ i hi j hj k hk => ?_⟩
    simp [hβ, hi, hk, hR.val]
  obtain ⟨c1, e2, hc1⟩ : ∃ t, c.unsq 0 = .ok t ∧ Rep3 b F C 1 t fun β f c _ => K β f c := by
    simp [Ten.unsq, hK.shape]
    refine ⟨rfl, fun β hβ i hi j hj k hk => ?_⟩
    simp [hβ, hi, hj, hK.val]
  obtain ⟨cY, e3, hcY⟩ : ∃ t, Ten.map2 (fun x y => x * y) c1 Yt = .ok t ∧
      Rep3 b F C N t fun β f c n => K β f c * AY β c f n := by
    simp [hc1.shape, hY.shape]
    refine ⟨rfl, fun β hβ i hi j hj k hk => ?_⟩
    simp [hβ, hi, hj, hk, hc1.val, hY.val]
  obtain ⟨E, e4, hE⟩ : ∃ t, Ten.map2 (fun x y => x - y) r cY = .ok t ∧
      Rep3 b F C N t fun β f c n => AR β f n - K β f c * AY β c f n := by
    simp [hr.shape, hcY.shape]
    refine ⟨rfl, fun β hβ i hi j hj k hk => ?_⟩
    simp [hβ, hi, hj, hk, hr.val, hcY.val]
  obtain ⟨n1, e5, hn1⟩ : ∃ t, Ten.map2 (fun x y => x * star y) r Yt = .ok t ∧
      Rep3 b F C N t fun β f c n => AR β f n * star (AY β c f n) := by
    simp [hr.shape, hY.shape]
    refine ⟨rfl, fun β hβ i hi j hj k hk => ?_⟩
    simp [hβ, hi, hj, hk, hr.val, hY.val]
  refine ⟨E, hE, fun e he => ?_, fun w W ew hw => ?_⟩
  · unfold mdStepT
    rw [e1, ok_bind', e2, ok_bind', e3, ok_bind', e4, ok_bind', he, err_bind']
  · obtain ⟨n2, e6, hn2⟩ : ∃ t, Ten.map2 (fun (x : ℂ) (u : ℝ) => x * u) n1 w = .ok t ∧
        Rep3 b F C N t fun β f c n => AR β f n * star (AY β c f n) * (W β f c n : ℂ) := by
      refine ⟨⟨N :: C :: F :: b, fun idx => n1.read idx * (w.read idx : ℂ)⟩, ?_, rfl, fun β hβ i hi j hj k hk => ?_⟩
      · unfold Ten.map2
        rw [hn1.shape, hw.shape]
        rfl
      · dsimp only
        rw [hw.val β hβ i hi j hj k hk, ← hn1.val β hβ i hi j hj k hk]
        simp [hn1.shape, hβ, hi, hj, hk]
    obtain ⟨num, e7, hnum⟩ : ∃ t, n2.sum 0 = .ok t ∧
        Rep2 b F C t fun β f c => ∑ n, AR β f n * star (AY β c f n) * (W β f c n : ℂ) := by
      simp [Ten.sum, hn2.shape]
      refine ⟨rfl, fun β hβ i hi j hj => ?_⟩
      simp [Finset.sum_range, hβ, hi, hj, hn2.val]
    obtain ⟨d1, e8, hd1⟩ : ∃ t, Ten.map2 (fun y (u : ℝ) => ‖y‖ ^ 2 * u) Yt w = .ok t ∧
        Rep3 b F C N t fun β f c n => ‖AY β c f n‖ ^ 2 * W β f c n := by
      refine ⟨⟨N :: C :: F :: b, fun idx => ‖Yt.read idx‖ ^ 2 * w.read idx⟩, ?_, rfl, fun β hβ i hi j hj k hk => ?_⟩
      · unfold Ten.map2
        rw [hY.shape, hw.shape]
        rfl
      · dsimp only
        rw [hw.val β hβ i hi j hj k hk]
        have := hY.val β hβ i hi j hj k hk
        rw [← this]
        simp [hY.shape, hβ, hi, hj, hk]
    obtain ⟨den, e9, hden⟩ : ∃ t, d1.sum 0 = .ok t ∧ Rep2 b F C t fun β f c => ∑ n, ‖AY β c f n‖ ^ 2 * W β f c n := by
      simp [Ten.sum, hd1.shape]
      refine ⟨rfl, fun β hβ i hi j hj => ?_⟩
      simp [Finset.sum_range, hβ, hi, hj, hd1.val]
    obtain ⟨c', e10, hc'⟩ : ∃ t, Ten.map2 (fun x d => x / ((clampMin d 1e-5 : ℝ) : ℂ)) num den = .ok t ∧
        Rep2 b F C t fun β f c => mdNew (AY β c f) (AR β f) (W β f c) := by
      simp [hnum.shape, hden.shape]
      refine ⟨rfl, fun β hβ i hi j hj => ?_⟩
      simp [hβ, hi, hj, hnum.val, hden.val, mdNew]
    refine ⟨c', ?_, hc'⟩
    unfold mdStepT
    rw [e1, ok_bind', e2, ok_bind', e3, ok_bind', e4, ok_bind', ew, ok_bind', e5, ok_bind', e6, ok_bind', e7, ok_bind', e8,
      ok_bind', e9, ok_bind', e10]

/-- The whole of `minimum_distortion`, given what its weights are. -/
theorem minDistT_run (p q : Option ℝ) (rtol : ℝ) (maxIter : ℕ) (model : Option (Ten ℂ → Except Err (Ten ℝ)))
    (m : Option (MdErr (numel b) F C N → MdWeights (numel b) F C N)) (hm : model.isNone ↔ m.isNone)
    (hw : ∀ E A, Rep3 b F C N E A → Alike (fun t w => WRead b F C N t fun β f c n =>
        if h : flatIdx b β < numel b then w ⟨flatIdx b β, h⟩ f c n else 0)
      (mdWeightsT p q model E) (mdWeights p q m fun i => A (unflatIdx b i)))
    {Y ref : Ten ℂ} {AY : List ℕ → Sig C F N} {AR : List ℕ → Fin F → Fin N → ℂ} (hY : Rep3 b C F N Y AY) (hR : Rep2 b F N ref AR) :
    Alike (fun t o => Rep3 b C F N t fun β => if h : flatIdx b β < numel b then o ⟨flatIdx b β, h⟩ else 0)
      (minDistT p q rtol maxIter model Y ref)
      (minDist p q rtol maxIter m (fun i => AY (unflatIdx b i)) fun i => AR (unflatIdx b i)) := by
  have hm' : (model.isNone = true ∧ (p = none ∨ p = some 2 ∧ (q = none ∨ p = q))) ↔
      (m.isNone = true ∧ (p = none ∨ p = some 2 ∧ (q = none ∨ p = q))) := by rw [hm]
  unfold minDistT minDist
  by_cases hd : m.isNone = true ∧ (p = none ∨ p = some 2 ∧ (q = none ∨ p = q))
  · rw [if_pos (hm'.2 hd), if_pos hd]
    obtain ⟨t, e, ht⟩ := minDistL2T_rep hY hR
    refine Or.inl ⟨t, _, e, rfl, ht.shape, fun β hβ i hi j hj k hk => ?_⟩
    rw [ht.val β hβ i hi j hj k hk, dif_pos (flatIdx_lt hβ)]
    simp [unflat_flat hβ]
  · rw [if_neg (fun h => hd (hm'.1 h)), if_neg hd, hY.shape]
    dsimp only
    obtain ⟨Yt, e, hYt⟩ : ∃ t, Y.swap12 = .ok t ∧ Rep3 b F C N t fun β f c n => AY β c f n := by
      simp [Ten.swap12, hY.shape]
      refine ⟨rfl, fun β hβ i hi j hj k hk => ?_⟩
      simp [hβ, hi, hj, hk, hY.val]
    rw [e, ok_bind']; clear e
    rw [show reduce 0 (N :: C :: F :: b) = .ok (C :: F :: b) from rfl, ok_bind']
    have hloop := mdLoopT_rep (T := mdStepT p q model Yt ref)
      (I := mdStep p q m (fun i => AY (unflatIdx b i)) fun i => AR (unflatIdx b i)) (fun c k hc => by
        obtain ⟨E, hE, h1, h2⟩ := mdStepT_rep p q model hYt hR hc
        have hi : (fun (i : Fin (numel b)) f c n => AR (unflatIdx b i) f n -
            (if h : flatIdx b (unflatIdx b i) < numel b then k ⟨flatIdx b (unflatIdx b i), h⟩ f c else 0) * AY (unflatIdx b i) c f n) =
            fun (i : Fin (numel b)) f c n => AR (unflatIdx b i) f n - k i f c * AY (unflatIdx b i) c f n := by
          funext i f c n
          simp [flat_unflat i.2]
        have := hw E _ hE
        rw [hi] at this
        unfold mdStep
        rcases this with ⟨w, W, ew, eW, hr⟩ | ⟨e, ew, eW⟩
        · obtain ⟨c', e', hc'⟩ := h2 w _ ew hr
          rw [eW, e', ok_bind']
          refine Or.inl ⟨c', _, rfl, rfl, RepScale.of hc' fun i => ?_⟩
          funext f c
          simp [flat_unflat i.2, mdNew]
        · rw [h1 e ew, eW, err_bind']
          exact Or.inr ⟨e, rfl, rfl⟩) rtol maxIter none none ⟨C :: F :: b, fun _ => 1⟩ (fun _ _ _ => 1) .none
      ⟨rfl, fun β hβ i hi j hj => by simp [flatIdx_lt hβ]⟩
    rcases hloop with ⟨c, k, ec, ek, hc⟩ | ⟨e, ec, ek⟩
    · rw [ec, ek, ok_bind', ok_bind']
      obtain ⟨c1, e, hc1⟩ : ∃ t, c.unsq 0 = .ok t ∧ Rep3 b F C 1 t fun β f j _ =>
          if h : flatIdx b β < numel b then k ⟨flatIdx b β, h⟩ f j else 0 := by
        simp [Ten.unsq, Rep2.shape hc]
        refine ⟨rfl, fun β hβ i hi j hj k hk => ?_⟩
        simp [hβ, hi, hj, Rep2.val hc]
      rw [e, ok_bind']; clear e
      obtain ⟨c2, e, hc2⟩ : ∃ t, c1.swap12 = .ok t ∧ Rep3 b C F 1 t fun β j f _ =>
          if h : flatIdx b β < numel b then k ⟨flatIdx b β, h⟩ f j else 0 := by
        simp [Ten.swap12, hc1.shape]
        refine ⟨rfl, fun β hβ i hi j hj k hk => ?_⟩
        simp [hβ, hi, hj, hk, hc1.val]
      rw [e, ok_bind']; clear e
      refine Or.inl ⟨⟨N :: F :: C :: b, fun idx => Y.read idx * c2.read idx⟩, _, ?_, rfl, rfl, fun β hβ i hi j hj l hl => ?_⟩
      · simp [hY.shape, hc2.shape]
      · simp [hY.shape, hc2.shape, hβ, hi, hj, hl, hY.val, hc2.val, flatIdx_lt hβ, unflat_flat hβ]
    · rw [ec, ek, err_bind', err_bind']
      exact Or.inr ⟨e, rfl, rfl⟩

end Torchiva
