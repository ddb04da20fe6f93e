import Verif.Model.TensorScaling
import Verif.Proofs.TensorLinalg

/-! Scaling on tensors. -/

namespace Torchiva

set_option linter.unusedSimpArgs false

attribute [local simp] ok_bind' err_bind' pure_ok' comb_self comb_one_left comb_one_right bcast_self
  bcast_nil_left bcast_nil_right bcast_cons bcastTo sel pick onDim unsq swap01 swap12 move13
  reduceKeep maxKeep reduce bindLabel bindOp bindOps einsum matmul eighS List.lookup catS
  Ten.map Ten.map2 Ten.read bIdx sumOver opIdx einsumT bnat bIdx_inside Ten.swapIdx01 Ten.swapIdx12

variable {b : Shape} {C F N : ℕ}

theorem minDistL2T_rep {Y ref : Ten ℂ} {AY : List ℕ → Sig C F N} {AR : List ℕ → Fin F → Fin N → ℂ}
    (hY : Rep3 b C F N Y AY) (hR : Rep2 b F N ref AR) :
    ∃ t, minDistL2T Y ref = .ok t ∧ Rep3 b C F N t fun β => minDistL2 (AY β) (AR β) := by
  unfold minDistL2T
  rw [show Y.shape.headD 0 = N by simp [hY.shape]]
  dsimp only
  obtain ⟨r, e, hr⟩ : ∃ t, ref.unsq 2 = .ok t ∧ Rep3 b 1 F N t fun β _ f n => AR β f n := by
    simp [Ten.unsq, hR.shape]
    refine ⟨rfl, fun β hβ i hi j hj k hk => ?_⟩
    simp [hβ, hj, hk, hR.val]
  rw [e, ok_bind']; clear e
  obtain ⟨p, e, hp⟩ : ∃ t, Ten.map2 (fun x y => star x * y) r Y = .ok t ∧
      Rep3 b C F N t fun β c f n => star (AR β f n) * AY β c f n := by
    simp [hr.shape, hY.shape]
    refine ⟨rfl, fun β hβ i hi j hj k hk => ?_⟩
    simp [hβ, hi, hj, hk, hr.val, hY.val]
  rw [e, ok_bind']; clear e
  obtain ⟨num, e, hn⟩ : ∃ t, p.sum 0 = .ok t ∧
      Rep2 b C F t fun β c f => ∑ n, star (AR β f n) * AY β c f n := by
    simp [Ten.sum, hp.shape]
    refine ⟨rfl, fun β hβ i hi j hj => ?_⟩
    simp [Finset.sum_range, hβ, hi, hj, hp.val]
  rw [e, ok_bind']; clear e
  obtain ⟨den, e, hd⟩ : ∃ t, (magSqT Y).sum 0 = .ok t ∧
      Rep2 b C F t fun β c f => ∑ n, magSq (AY β c f n) := by
    simp [Ten.sum, magSqT, hY.shape]
    refine ⟨rfl, fun β hβ i hi j hj => ?_⟩
    simp [Finset.sum_range, hβ, hi, hj, hY.val, magSq, magSqE]
  rw [e, ok_bind']; clear e
  obtain ⟨c, e, hc⟩ : ∃ t, Ten.map2 (fun z d => z / ((clampMin d 1e-7 : ℝ) : ℂ)) (num.map fun z => z / (N : ℂ))
      (den.map fun x => x / (N : ℝ)) = .ok t ∧
      Rep2 b C F t fun β c f => ((∑ n, star (AR β f n) * AY β c f n) / (N : ℂ)) /
        ((clampMin ((∑ n, magSq (AY β c f n)) / (N : ℝ)) 1e-7 : ℝ) : ℂ) := by
    simp [hn.shape, hd.shape]
    refine ⟨rfl, fun β hβ i hi j hj => ?_⟩
    simp [hβ, hi, hj, hn.val, hd.val]
  rw [e, ok_bind']; clear e
  simp [Ten.unsq, hc.shape, hY.shape]
  refine ⟨rfl, fun β hβ i hi j hj k hk => ?_⟩
  simp [hβ, hi, hj, hk, hY.val, hc.val, minDistL2]

theorem minDistL2PhaseT_rep {Y ref : Ten ℂ} {AY : List ℕ → Sig C F N} {AR : List ℕ → Fin F → Fin N → ℂ}
    (hY : Rep3 b C F N Y AY) (hR : Rep2 b F N ref AR) :
    ∃ t, minDistL2PhaseT Y ref = .ok t ∧ Rep3 b C F N t fun β => minDistL2Phase (AY β) (AR β) := by
  unfold minDistL2PhaseT
  obtain ⟨Yt, e, hYt⟩ : ∃ t, Y.swap12 = .ok t ∧ Rep3 b F C N t fun β f c n => AY β c f n := by
    simp [Ten.swap12, hY.shape]
    refine ⟨rfl, fun β hβ i hi j hj k hk => ?_⟩
    simp [hβ, hi, hj, hk, hY.val]
  rw [e, ok_bind']; clear e
  rw [show Yt.shape.headD 0 = N by simp [hYt.shape]]
  dsimp only
  obtain ⟨r, e, hr⟩ : ∃ t, ref.unsq 1 = .ok t ∧ Rep3 b F 1 N t fun β f _ n => AR β f n := by
    simp [Ten.unsq, hR.shape]
    refine ⟨rfl, fun β hβ i hi j hj k hk => ?_⟩
    simp [hβ, hi, hj, hk, hR.val]
  rw [e, ok_bind']; clear e
  obtain ⟨p, e, hp⟩ : ∃ t, Ten.map2 (fun x y => star x * y) r Yt = .ok t ∧
      Rep3 b F C N t fun β f c n => star (AR β f n) * AY β c f n := by
    simp [hr.shape, hYt.shape]
    refine ⟨rfl, fun β hβ i hi j hj k hk => ?_⟩
    simp [hβ, hi, hj, hk, hr.val, hYt.val]
  rw [e, ok_bind']; clear e
  obtain ⟨num, e, hn⟩ : ∃ t, p.sum 0 = .ok t ∧
      Rep2 b F C t fun β f c => ∑ n, star (AR β f n) * AY β c f n := by
    simp [Ten.sum, hp.shape]
    refine ⟨rfl, fun β hβ i hi j hj => ?_⟩
    simp [Finset.sum_range, hβ, hi, hj, hp.val]
  rw [e, ok_bind']; clear e
  simp [Ten.unsq, Ten.swap12, hn.shape, hYt.shape]
  refine ⟨rfl, fun β hβ i hi j hj k hk => ?_⟩
  simp [hβ, hi, hj, hk, hYt.val, hn.val, minDistL2Phase]

/-! ## Flattening the leading dimensions -/

theorem flatIdx_lt {β : List ℕ} {s : Shape} (h : Inside β s) : flatIdx s β < numel s := by
  induction s generalizing β with
  | nil => rw [inside_nil h]; simp [flatIdx, numel]
  | cons n s ih => cases β with
    | nil => simp_all [Inside]
    | cons i β =>
      have h1 := ih h.2
      simp only [numel, List.prod_cons, flatIdx] at h1 ⊢
      calc i + n * flatIdx s β < n + n * flatIdx s β := by have := h.1; omega
        _ = n * (flatIdx s β + 1) := by ring
        _ ≤ n * s.prod := Nat.mul_le_mul_left _ h1

theorem unflat_inside {s : Shape} {k : ℕ} (h : k < numel s) : Inside (unflatIdx s k) s := by
  induction s generalizing k with
  | nil => trivial
  | cons n s ih =>
    simp only [numel, List.prod_cons] at h
    have hn : 0 < n := Nat.pos_of_ne_zero fun h0 => by simp [h0] at h
    exact ⟨Nat.mod_lt _ hn, ih (Nat.div_lt_of_lt_mul h)⟩

/-- A computation on the flattened batch, seen on the batch. -/
theorem Batched.unflat {ρ A : Type} {R R' : ρ → (List ℕ → A) → Prop} {x : Except Err ρ} {y : List ℕ → Except Err A}
    (h : Batched [numel b] R x fun γ => y (unflatIdx b (γ.headD 0)))
    (hR : ∀ t a, R t a → R' t fun β => a [flatIdx b β]) : Batched b R' x y := by
  cases x with
  | ok t =>
    obtain ⟨a, ha, hr⟩ := h
    refine ⟨_, fun β hβ => ?_, hR t a hr⟩
    have := ha [flatIdx b β] ⟨flatIdx_lt hβ, trivial⟩
    simpa [unflat_flat hβ] using this
  | error e =>
    obtain ⟨γ, hγ, hr⟩ := h
    match γ, hγ with
    | [k], hγ => exact ⟨unflatIdx b k, unflat_inside hγ.1, hr⟩

theorem flatT_rep {α : Type} {p q : ℕ} {t : Ten α} {A : List ℕ → Fin p → Fin q → α} (h : Rep2 b p q t A) (hp : p ≠ 0)
    (hq : q ≠ 0) :
    ∃ r, flatT t [q, p] = .ok r ∧ Rep2 [numel b] p q r fun γ => A (unflatIdx b (γ.headD 0)) := by
  have hq' : 0 < q := Nat.pos_of_ne_zero hq
  have hp' : 0 < p := Nat.pos_of_ne_zero hp
  have hs : reshapeFlat t.shape [q, p] = .ok [q, p, numel b] := by
    have h1 : numel t.shape = q * p * numel b := by simp [h.shape, numel, mul_assoc]
    have h2 : numel [q, p] = q * p := by simp [numel]
    rw [reshapeFlat, h1, h2, if_neg (by positivity), if_pos (Nat.mul_mod_right _ _),
      Nat.mul_div_cancel_left _ (by positivity)]
    rfl
  unfold flatT
  rw [hs, ok_bind']
  refine ⟨_, rfl, rfl, fun γ hγ i hi j hj => ?_⟩
  match γ, hγ with
  | [k], hγ =>
    have e : unflatIdx t.shape (flatIdx [q, p, numel b] [j, i, k]) = j :: i :: unflatIdx b k := by
      rw [h.shape]
      simp only [flatIdx]
      rw [unflat_cons _ hj, unflat_cons _ hi]
      simp
    dsimp only
    rw [e, h.val _ (unflat_inside hγ.1) i hi j hj]
    rfl

theorem unflatT_rep {α : Type} {p q : ℕ} {t : Ten α} {A : List ℕ → Fin p → Fin q → α} (h : Rep2 [numel b] p q t A) :
    ∃ r, t.reshape (q :: p :: b) = .ok r ∧ Rep2 b p q r fun β => A [flatIdx b β] := by
  have hs : reshapeS t.shape (q :: p :: b) = .ok (q :: p :: b) := by
    rw [reshapeS, if_pos]
    simp [h.shape, numel]
  unfold Ten.reshape
  rw [hs, ok_bind']
  refine ⟨_, rfl, rfl, fun β hβ i hi j hj => ?_⟩
  have e : unflatIdx t.shape (flatIdx (q :: p :: b) (j :: i :: β)) = [j, i, flatIdx b β] := by
    rw [h.shape]
    simp only [flatIdx]
    rw [unflat_cons _ hj, unflat_cons _ hi]
    simp [unflatIdx, Nat.mod_eq_of_lt (flatIdx_lt hβ)]
  dsimp only
  rw [e, h.val [flatIdx b β] ⟨flatIdx_lt hβ, trivial⟩ i hi j hj]

/-! ## Projection back -/

/-- The selected frames of an item. -/
noncomputable def pbFrame (sorter : Sorter) (h : C ≤ N) (Y : Sig C F N) (k : Fin C) : Fin N :=
  sorter N (fun n => ∑ f, ∑ c, ‖Y c f n‖) ⟨N - C + k, by omega⟩

open Classical in
theorem pb_solve (M : Fin F → Matrix (Fin C) (Fin C) ℂ) (v : Fin F → Fin C → ℂ) (Y : Sig C F N) :
    ((seqAll fun f => solve (Matrix.of fun i j => M f i j + (1e-5 : ℂ) * (1 : Matrix (Fin C) (Fin C) ℂ) i j)
      (Matrix.of fun k (_ : Fin 1) => v f k)) >>= fun a => .ok fun c f n => Y c f n * a f c 0) =
    ((seqAll fun f => solve (M f + (1e-5 : ℂ) • (1 : Matrix (Fin C) (Fin C) ℂ)) (Matrix.of fun k (_ : Unit) => v f k)) >>=
      fun a => (.ok fun c f n => Y c f n * a f c () : Except Err (Sig C F N))) := by
  have e : ∀ f, (Matrix.of fun i j => M f i j + (1e-5 : ℂ) * (1 : Matrix (Fin C) (Fin C) ℂ) i j) =
      M f + (1e-5 : ℂ) • (1 : Matrix (Fin C) (Fin C) ℂ) := fun f => by ext i j; simp
  simp only [e]
  have h1 : ∀ {κ : Type} [Fintype κ] (f : Fin F), (IsUnit (M f + (1e-5 : ℂ) • (1 : Matrix (Fin C) (Fin C) ℂ)).det →
        solve (M f + (1e-5 : ℂ) • (1 : Matrix (Fin C) (Fin C) ℂ)) (Matrix.of fun k (_ : κ) => v f k) =
          .ok ((M f + (1e-5 : ℂ) • (1 : Matrix (Fin C) (Fin C) ℂ))⁻¹ * (Matrix.of fun k (_ : κ) => v f k))) ∧
      (¬ IsUnit (M f + (1e-5 : ℂ) • (1 : Matrix (Fin C) (Fin C) ℂ)).det →
        solve (M f + (1e-5 : ℂ) • (1 : Matrix (Fin C) (Fin C) ℂ)) (Matrix.of fun k (_ : κ) => v f k) =
          .error .singular) := fun f => ⟨fun h => if_pos h, fun h => if_neg h⟩
  by_cases h : ∀ f, IsUnit (M f + (1e-5 : ℂ) • (1 : Matrix (Fin C) (Fin C) ℂ)).det
  · have e1 := seqAll_ok_iff.2 fun f => (h1 (κ := Fin 1) f).1 (h f)
    have e2 := seqAll_ok_iff.2 fun f => (h1 (κ := Unit) f).1 (h f)
    rw [e1, e2]
    simp [Matrix.mul_apply]
  · push Not at h
    obtain ⟨f, hf⟩ := h
    have e1 := seqAll_error' (g := fun f => solve (M f + (1e-5 : ℂ) • (1 : Matrix (Fin C) (Fin C) ℂ)) (Matrix.of fun k (_ : Fin 1) => v f k)) (fun f => (_root_.em _).imp (fun h => ⟨_, (h1 (κ := Fin 1) f).1 h⟩) (h1 (κ := Fin 1) f).2) f
      ((h1 (κ := Fin 1) f).2 hf)
    have e2 := seqAll_error' (g := fun f => solve (M f + (1e-5 : ℂ) • (1 : Matrix (Fin C) (Fin C) ℂ)) (Matrix.of fun k (_ : Unit) => v f k)) (fun f => (_root_.em _).imp (fun h => ⟨_, (h1 (κ := Unit) f).1 h⟩) (h1 (κ := Unit) f).2) f
      ((h1 (κ := Unit) f).2 hf)
    rw [e1, e2]
    rfl

theorem projectionBackT_rep (sorter : Sorter) (hC : C ≠ 0) (hCN : C ≤ N) {Y ref : Ten ℂ} {AY : List ℕ → Sig C F N}
    {AR : List ℕ → Fin F → Fin N → ℂ} (hY : Rep3 b C F N Y AY) (hR : Rep2 b F N ref AR) :
    Batched b (fun t (a : List ℕ → Sig C F N) => Rep3 b C F N t a) (projectionBackT sorter Y ref) fun β =>
      projectionBack (sorter N) (AY β) (AR β) := by
  unfold projectionBackT
  rw [hY.shape]
  dsimp only
  obtain ⟨Yt, e, hYt⟩ : ∃ t, Y.swap12 = .ok t ∧ Rep3 b F C N t fun β f c n => AY β c f n := by
    simp [Ten.swap12, hY.shape]
    refine ⟨rfl, fun β hβ i hi j hj k hk => ?_⟩
    simp [hβ, hi, hj, hk, hY.val]
  rw [e, ok_bind']; clear e
  obtain ⟨e1, e, he1⟩ : ∃ t, Ten.sum 2 (Yt.map fun z => ‖z‖) = .ok t ∧
      Rep2 b C N t fun β c n => ∑ f, ‖AY β c f n‖ := by
    simp [Ten.sum, hYt.shape]
    refine ⟨rfl, fun β hβ i hi j hj => ?_⟩
    simp [Finset.sum_range, hβ, hi, hj, hYt.val]
  rw [e, ok_bind']; clear e
  obtain ⟨e2, e, he2⟩ : ∃ t, e1.sum 1 = .ok t ∧ Rep1 b N t fun β n => ∑ f, ∑ c, ‖AY β c f n‖ := by
    simp [Ten.sum, he1.shape]
    refine ⟨rfl, fun β hβ i hi => ?_⟩
    simp [Finset.sum_range, hβ, hi, he1.val]
    exact Finset.sum_comm
  rw [e, ok_bind']; clear e
  obtain ⟨I0, e, hI0⟩ : ∃ t, argsortT sorter e2 = .ok t ∧
      Rep1 b N t fun β n => (sorter N (fun n => ∑ f, ∑ c, ‖AY β c f n‖) n : ℕ) := by
    simp only [argsortT, he2.shape]
    refine ⟨_, rfl, rfl, fun β hβ i hi => ?_⟩
    simp [hi, he2.val β hβ]
  rw [e, ok_bind']; clear e
  obtain ⟨I, e, hI⟩ : ∃ t, lastT C I0 = .ok t ∧ Rep1 b C t fun β k => (pbFrame sorter hCN (AY β) k : ℕ) := by
    simp [lastT, Ten.drop, hI0.shape, hC]
    refine ⟨by simp; omega, fun β hβ i hi => ?_⟩
    simp only [List.modify_zero_cons]
    rw [hI0.val β hβ _ (by omega)]
    simp [pbFrame, Nat.add_comm]
  rw [e, ok_bind']; clear e
  obtain ⟨I1, e, hI1⟩ : ∃ t, I.unsq 1 = .ok t ∧ Rep2 b 1 C t fun β _ k => (pbFrame sorter hCN (AY β) k : ℕ) := by
    simp [Ten.unsq, hI.shape]
    refine ⟨rfl, fun β hβ i hi j hj => ?_⟩
    simp [hβ, hj, hI.val]
  rw [e, ok_bind']; clear e
  obtain ⟨I2, e, hI2⟩ : ∃ t, I1.unsq 2 = .ok t ∧ Rep3 b 1 1 C t fun β _ _ k => (pbFrame sorter hCN (AY β) k : ℕ) := by
    simp [Ten.unsq, hI1.shape]
    refine ⟨rfl, fun β hβ i hi j hj k hk => ?_⟩
    simp [hβ, hj, hk, hI1.val]
  rw [e, ok_bind']; clear e
  obtain ⟨Yc, e, hYc⟩ : ∃ t, Yt.take 0 C = .ok t ∧ t.shape = C :: C :: F :: b := by
    simp [Ten.take, hYt.shape, hCN]
  rw [e, ok_bind']; clear e
  obtain ⟨IY, e, hIY⟩ : ∃ t, bcastWith I2 Yc = .ok t ∧
      Rep3 b F C C t fun β _ _ k => (pbFrame sorter hCN (AY β) k : ℕ) := by
    simp [bcastWith, hI2.shape, hYc]
    refine ⟨rfl, fun β hβ i hi j hj k hk => ?_⟩
    simp [hβ, hk, hI2.val]
  rw [e, ok_bind']; clear e
  obtain ⟨rc, e, hrc⟩ : ∃ t, ref.take 0 C = .ok t ∧ t.shape = C :: F :: b := by
    simp [Ten.take, hR.shape, hCN]
  rw [e, ok_bind']; clear e
  obtain ⟨Ir, e, hIr⟩ : ∃ t, bcastWith I1 rc = .ok t ∧
      Rep2 b F C t fun β _ k => (pbFrame sorter hCN (AY β) k : ℕ) := by
    simp [bcastWith, hI1.shape, hrc]
    refine ⟨rfl, fun β hβ i hi j hj => ?_⟩
    simp [hβ, hj, hI1.val]
  rw [e, ok_bind']; clear e
  have hz : ∀ s : Shape, ∀ p ∈ s.zip s, p.1 ≤ p.2 := by
    intro s
    induction s with
    | nil => simp
    | cons n s ih =>
      intro p hp
      rcases List.mem_cons.1 hp with rfl | hp
      · exact le_rfl
      · exact ih p hp
  obtain ⟨A1, e, hA1⟩ : ∃ t, gather0 Yt IY = .ok t ∧
      Rep3 b F C C t fun β f c k => AY β c f (pbFrame sorter hCN (AY β) k) := by
    rw [gather0, if_pos (by rw [hYt.shape, hIY.shape]; exact ⟨rfl, hz _⟩)]
    refine ⟨_, rfl, hIY.shape, fun β hβ i hi j hj k hk => ?_⟩
    simp only [List.tail_cons]
    rw [hIY.val β hβ i hi j hj k hk, hYt.val β hβ i hi j hj _ (Fin.is_lt _)]
  rw [e, ok_bind']; clear e
  obtain ⟨A, e, hA⟩ : ∃ t, A1.swap01 = .ok t ∧
      Rep3 b F C C t fun β f k c => AY β c f (pbFrame sorter hCN (AY β) k) := by
    simp [Ten.swap01, hA1.shape]
    refine ⟨rfl, fun β hβ i hi j hj k hk => ?_⟩
    simp [hβ, hi, hj, hk, hA1.val]
  rw [e, ok_bind']; clear e
  obtain ⟨b1, e, hb1⟩ : ∃ t, gather0 ref Ir = .ok t ∧
      Rep2 b F C t fun β f k => AR β f (pbFrame sorter hCN (AY β) k) := by
    rw [gather0, if_pos (by rw [hR.shape, hIr.shape]; exact ⟨rfl, hz _⟩)]
    refine ⟨_, rfl, hIr.shape, fun β hβ i hi j hj => ?_⟩
    simp only [List.tail_cons]
    rw [hIr.val β hβ i hi j hj, hR.val β hβ i hi _ (Fin.is_lt _)]
  rw [e, ok_bind']; clear e
  obtain ⟨bb, e, hbb⟩ : ∃ t, b1.unsq 0 = .ok t ∧
      Rep3 b F C 1 t fun β f k _ => AR β f (pbFrame sorter hCN (AY β) k) := by
    simp [Ten.unsq, hb1.shape]
    refine ⟨rfl, fun β hβ i hi j hj k hk => ?_⟩
    simp [hβ, hi, hj, hb1.val]
  rw [e, ok_bind']; clear e
  obtain ⟨Af, e, hAf⟩ := flatT_rep hA.join hC hC
  rw [e, ok_bind']; clear e
  obtain ⟨bf, e, hbf⟩ := flatT_rep hbb.join hC one_ne_zero
  rw [e, ok_bind']; clear e
  obtain ⟨Al, e, hAl⟩ : ∃ t, Ten.map2 (fun x y => x + y) Af ((Ten.eye C C).map fun x => (1e-5 : ℂ) * x) = .ok t ∧
      Rep2 [numel (F :: b)] C C t fun γ i j => joinF (fun _ _ => 0)
        (fun β f k c => AY β c f (pbFrame sorter hCN (AY β) k)) (unflatIdx (F :: b) (γ.headD 0)) i j +
        (1e-5 : ℂ) * (1 : Matrix (Fin C) (Fin C) ℂ) i j := by
    simp [hAf.shape, Ten.eye]
    refine ⟨rfl, fun γ hγ i hi j hj => ?_⟩
    match γ, hγ with
    | [k], hγ =>
      have := hAf.val [k] hγ i hi j hj
      simp [bnat hγ.1, hi, hj, this, Matrix.one_apply, Ten.eye]
  rw [e, ok_bind']; clear e
  have h1 := (solveT_mat hAl hbf).unflat (b := F :: b)
    (y := fun γ => solve (Matrix.of fun i j => joinF (fun _ _ => 0)
        (fun β f k c => AY β c f (pbFrame sorter hCN (AY β) k)) γ i j + (1e-5 : ℂ) * (1 : Matrix (Fin C) (Fin C) ℂ) i j)
      (Matrix.of (joinF (fun _ _ => 0) (fun β f k (_ : Fin 1) => AR β f (pbFrame sorter hCN (AY β) k)) γ)))
    (R' := fun t (a : List ℕ → Matrix (Fin C) (Fin 1) ℂ) => ∃ r, t.reshape (1 :: C :: F :: b) = .ok r ∧
      Rep2 (F :: b) C 1 r fun β i j => a β i j) fun t a h => unflatT_rep h
  have h2 := h1.seq1 (b := b) (F := F) (e0 := .singular)
    (R' := fun t (a : List ℕ → Fin F → Matrix (Fin C) (Fin 1) ℂ) => ∃ r, t.reshape (1 :: C :: F :: b) = .ok r ∧
      Rep3 b F C 1 r fun β f i j => a β f i j) (fun γ => onlySingular_solve _ _)
    fun t a ⟨r, e, h⟩ => ⟨r, e, h.split⟩
  simp only [joinF_cons] at h2
  refine Batched.congr (Batched.bind h2 (k' := fun β (a : Fin F → Matrix (Fin C) (Fin 1) ℂ) =>
    .ok fun c f n => AY β c f n * a f c 0) fun t a ⟨r, e, hr⟩ => ?_) fun β hβ => ?_
  · rw [e, ok_bind']
    simp [hYt.shape, hr.shape, Ten.swap12]
    refine .pure (R := fun t (a : List ℕ → Sig C F N) => Rep3 b C F N t a)
      (a := fun β c f n => AY β c f n * a β f c 0) ⟨rfl, fun β hβ i hi j hj k hk => ?_⟩
    simp [hβ, hi, hj, hk, hYt.val, hr.val]
  · unfold projectionBack
    rw [dif_pos hCN]
    exact pb_solve (fun f => Matrix.of fun i j => AY β j f (pbFrame sorter hCN (AY β) i))
      (fun f k => AR β f (pbFrame sorter hCN (AY β) k)) (AY β)

theorem solveT_shape {A B c : Ten ℂ} (h : solveT A B = .ok c) : solveS A.shape B.shape = .ok c.shape := by
  unfold solveT at h
  cases hs : solveS A.shape B.shape with
  | error e => rw [hs] at h; cases h
  | ok s =>
    rw [hs, ok_bind'] at h
    dsimp only at h
    split_ifs at h
    all_goals
      cases h
      rfl

theorem projectionBackT_few (sorter : Sorter) (hNC : N < C) (hF : F ≠ 0) (hb : ∃ β, Inside β b) {Y ref : Ten ℂ}
    (hY : Y.shape = N :: F :: C :: b) (hR : ref.shape = N :: F :: b) : ∃ e, projectionBackT sorter Y ref = .error e := by
  have hC : C ≠ 0 := by omega
  obtain ⟨β, hβ⟩ := hb
  have hnb : 0 < numel b := lt_of_le_of_lt (Nat.zero_le _) (flatIdx_lt hβ)
  unfold projectionBackT
  rw [hY]
  dsimp only
  obtain ⟨Yt, e, hYt⟩ : ∃ t, Y.swap12 = .ok t ∧ t.shape = N :: C :: F :: b := by simp [Ten.swap12, hY]
  rw [e, ok_bind']; clear e
  obtain ⟨e1, e, he1⟩ : ∃ t, Ten.sum 2 (Yt.map fun z => ‖z‖) = .ok t ∧ t.shape = N :: C :: b := by
    simp [Ten.sum, hYt]
  rw [e, ok_bind']; clear e
  obtain ⟨e2, e, he2⟩ : ∃ t, e1.sum 1 = .ok t ∧ t.shape = N :: b := by simp [Ten.sum, he1]
  rw [e, ok_bind']; clear e
  obtain ⟨I0, e, hI0⟩ : ∃ t, argsortT sorter e2 = .ok t ∧ t.shape = N :: b := by simp [argsortT, he2]
  rw [e, ok_bind']; clear e
  obtain ⟨I, e, hI⟩ : ∃ t, lastT C I0 = .ok t ∧ t.shape = N :: b := by
    simp [lastT, Ten.drop, hI0, hC]
    omega
  rw [e, ok_bind']; clear e
  obtain ⟨I1, e, hI1⟩ : ∃ t, I.unsq 1 = .ok t ∧ t.shape = N :: 1 :: b := by simp [Ten.unsq, hI]
  rw [e, ok_bind']; clear e
  obtain ⟨I2, e, hI2⟩ : ∃ t, I1.unsq 2 = .ok t ∧ t.shape = N :: 1 :: 1 :: b := by simp [Ten.unsq, hI1]
  rw [e, ok_bind']; clear e
  obtain ⟨Yc, e, hYc⟩ : ∃ t, Yt.take 0 C = .ok t ∧ t.shape = N :: C :: F :: b := by
    simp [Ten.take, hYt]
    omega
  rw [e, ok_bind']; clear e
  obtain ⟨IY, e, hIY⟩ : ∃ t, bcastWith I2 Yc = .ok t ∧ t.shape = N :: C :: F :: b := by simp [bcastWith, hI2, hYc]
  rw [e, ok_bind']; clear e
  obtain ⟨rc, e, hrc⟩ : ∃ t, ref.take 0 C = .ok t ∧ t.shape = N :: F :: b := by
    simp [Ten.take, hR]
    omega
  rw [e, ok_bind']; clear e
  obtain ⟨Ir, e, hIr⟩ : ∃ t, bcastWith I1 rc = .ok t ∧ t.shape = N :: F :: b := by simp [bcastWith, hI1, hrc]
  rw [e, ok_bind']; clear e
  have hz : ∀ s : Shape, ∀ p ∈ s.zip s, p.1 ≤ p.2 := by
    intro s
    induction s with
    | nil => simp
    | cons n s ih =>
      intro p hp
      rcases List.mem_cons.1 hp with rfl | hp
      · exact le_rfl
      · exact ih p hp
  obtain ⟨A1, e, hA1⟩ : ∃ t, gather0 Yt IY = .ok t ∧ t.shape = N :: C :: F :: b := by
    rw [gather0, if_pos (by rw [hYt, hIY]; exact ⟨rfl, hz _⟩)]
    exact ⟨_, rfl, hIY⟩
  rw [e, ok_bind']; clear e
  obtain ⟨A, e, hA⟩ : ∃ t, A1.swap01 = .ok t ∧ t.shape = C :: N :: F :: b := by simp [Ten.swap01, hA1]
  rw [e, ok_bind']; clear e
  obtain ⟨b1, e, hb1⟩ : ∃ t, gather0 ref Ir = .ok t ∧ t.shape = N :: F :: b := by
    rw [gather0, if_pos (by rw [hR, hIr]; exact ⟨rfl, hz _⟩)]
    exact ⟨_, rfl, hIr⟩
  rw [e, ok_bind']; clear e
  obtain ⟨bb, e, hbb⟩ : ∃ t, b1.unsq 0 = .ok t ∧ t.shape = 1 :: N :: F :: b := by simp [Ten.unsq, hb1]
  rw [e, ok_bind']; clear e
  by_cases hd : (N * (F * numel b)) % C = 0
  · obtain ⟨m, hm⟩ := Nat.dvd_of_mod_eq_zero hd
    have hC' : 0 < C := by omega
    obtain ⟨Af, e, hAf⟩ : ∃ t, flatT A [C, C] = .ok t ∧ t.shape = [C, C, m] := by
      have h1 : numel A.shape = C * C * m := by
        simp only [hA, numel, List.prod_cons] at hm ⊢
        rw [hm, mul_assoc]
      have h2 : numel [C, C] = C * C := by simp [numel]
      simp [flatT, reshapeFlat, h1, h2, hC, Nat.mul_div_cancel_left m (Nat.mul_pos hC' hC')]
    rw [e, ok_bind']; clear e
    obtain ⟨bf, e, hbf⟩ : ∃ t, flatT bb [1, C] = .ok t ∧ t.shape = [1, C, m] := by
      have h1 : numel bb.shape = C * m := by
        simp only [hbb, numel, List.prod_cons] at hm ⊢
        rw [hm, one_mul]
      have h2 : numel [1, C] = C := by simp [numel]
      simp [flatT, reshapeFlat, h1, h2, hC, Nat.mul_div_cancel_left m hC']
    rw [e, ok_bind']; clear e
    obtain ⟨Al, e, hAl⟩ : ∃ t, Ten.map2 (fun x y => x + y) Af ((Ten.eye C C).map fun x => (1e-5 : ℂ) * x) = .ok t ∧
        t.shape = [C, C, m] := by simp [hAf, Ten.eye]
    rw [e, ok_bind']; clear e
    cases hs : solveT Al bf with
    | error e => exact ⟨e, rfl⟩
    | ok c =>
      have h1 := solveT_shape hs
      simp [hAl, hbf, solveS] at h1
      rw [ok_bind']
      have : c.reshape (1 :: C :: F :: b) = .error .runtimeError := by
        have hne : numel c.shape ≠ numel (1 :: C :: F :: b) := by
          rw [← h1]
          simp only [numel, List.prod_cons, List.prod_nil] at hm hnb ⊢
          intro h
          have h2 : N * (F * b.prod) = C * (F * b.prod) := by
            rw [hm]; linarith
          have := Nat.eq_of_mul_eq_mul_right (Nat.mul_pos (Nat.pos_of_ne_zero hF) hnb) h2
          omega
        simp only [Ten.reshape, reshapeS, if_neg hne, err_bind']
      rw [this]
      exact ⟨_, rfl⟩
  · have : flatT A [C, C] = .error .runtimeError := by
      have h1 : numel A.shape = C * (N * (F * numel b)) := by simp [hA, numel]
      have h2 : numel [C, C] = C * C := by simp [numel]
      have h3 : ¬ (C * (N * (F * numel b)) % (C * C) = 0) := by
        rw [Nat.mul_mod_mul_left]
        intro h
        rcases Nat.mul_eq_zero.1 h with h | h
        · omega
        · exact hd h
      simp only [flatT, reshapeFlat, h1, h2]
      rw [if_neg (by simp [hC]), if_neg h3]
      rfl
    rw [this]
    exact ⟨_, rfl⟩

end Torchiva
