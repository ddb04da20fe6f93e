import Verif.Proofs.CheckpointNmf
import Verif.Props.TIss

/-!
# C103: demixing-matrix checkpointing does not change the gradient
-/

namespace Torchiva.Props

open Torchiva

variable {s C F N : ℕ} {Θ σ : Type}

/-- The functions that are differentiated are the ones that run: with nothing frozen elsewhere, `tissPlainLive` is the state of the
main loop of `T_ISS.forward` after `n` iterations. -/
theorem live_is_forward (hs : s ≤ C) (T D : ℕ) (net : SourceNet Θ σ s F N) (θ : Θ) (model : SourceModel σ F N)
    (hmodel : ∀ ms Y, model s ms Y = net ms (θ, Y) (θ, Y)) (eps : ℝ) (he : 0 < eps) (ms : σ) (X : Sig C F N) (n : ℕ) :
    ∃ st0 st : TissState σ s C F N T, tissInit hs X T D eps ms = .ok st0 ∧ tissLoop hs X T D model eps false n st0 = .ok st ∧
      ((st.Y, st.W, st.H), st.ms) = (((tissPlainLive hs T D net eps ms (X, θ) (X, θ) n).1.1,
        (tissPlainLive hs T D net eps ms (X, θ) (X, θ) n).1.2.1, (tissPlainLive hs T D net eps ms (X, θ) (X, θ) n).1.2.2.1),
        (tissPlainLive hs T D net eps ms (X, θ) (X, θ) n).2) ∧
      (s < C → st.J = some (tissPlainLive hs T D net eps ms (X, θ) (X, θ) n).1.2.2.2) := by
  have h := plain_values hs T D net θ model hmodel he ms X n
  cases h0 : tissInit hs X T D eps ms with
  | error e => rw [h0] at h; cases h
  | ok st0 =>
    rw [h0] at h
    exact ⟨st0, _, rfl, h, rfl, fun hc => if_pos hc⟩

/-- Two sources of three channels, a source network with one parameter (a scale factor), two taps, four iterations. -/
example (X : Sig 3 5 7) : ∃ st0 st : TissState Unit 2 3 5 7 2, tissInit (by norm_num) X 2 1 1e-5 () = .ok st0 ∧
    tissLoop (by norm_num) X 2 1 (fun _ _ Y => (fun k f n => 3 * ‖Y k f n‖ ^ 2, ())) 1e-5 false 4 st0 = .ok st ∧
    st.Y = (tissPlainLive (by norm_num) 2 1 (fun _ _ p => (fun k f n => p.1 * ‖p.2 k f n‖ ^ 2, ())) 1e-5 () (X, (3 : ℝ))
      (X, 3) 4).1.1 := by
  obtain ⟨st0, st, h0, h1, e, -⟩ := live_is_forward (s := 2) (C := 3) (by norm_num) 2 1
    (fun _ _ (p : ℝ × Sig 2 5 7) => (fun k f n => p.1 * ‖p.2 k f n‖ ^ 2, ())) 3
    (fun _ _ Y => (fun k f n => 3 * ‖Y k f n‖ ^ 2, ())) (fun _ _ => rfl) 1e-5 (by norm_num) () X 4
  exact ⟨st0, st, h0, h1, congrArg (fun p => p.1.1) e⟩

variable [NormedAddCommGroup Θ] [NormedSpace ℝ Θ]

/-- **C103.** With a source model whose weights depend on its input and parameters only, `backward()` gives the same gradient with
respect to the mixture and the parameters with and without checkpointing, for every number of iterations, of sources and of taps, and
for every gradient `out` of the loss with respect to the separated signals and the filters.  The iterations have to be
differentiable where they are evaluated. -/
theorem dmc_gradient_partial (hs : s ≤ C) (T D : ℕ) (net : SourceNet Θ σ s F N) (hstate : ∀ ms ms' a b, (net ms a b).1 = (net ms' a b).1)
    (eps : ℝ) (he : 0 < eps) (ms : σ) (n : ℕ) (p : Sig C F N × Θ) (out : (Sig s F N × Filters s C F T) →L[ℝ] ℝ)
    (hstep : ∀ k < n, DifferentiableAt ℝ
      (fun q => (tissDmcLive hs D net eps ms (p, (tissPlainLive hs T D net eps ms p p k).1.2) q).1)
      (p, (tissPlainLive hs T D net eps ms p p k).1.2)) :
    tissDmcGrad hs T D net eps ms n p out = tissPlainGrad hs T D net eps ms n p out := by
  set x : ℕ → Sig C F N × Θ → Filters s C F T := fun k q => (tissPlainLive hs T D net eps ms p q k).1.2 with hxd
  have hx : ∀ k q, x (k + 1) q = (tissDmcLive hs D net eps ms (p, x k p) (q, x k q)).1 := fun k q => plain_succ hs D net hstate eps ms p q k
  have hst := fun ms ms' a b => dmc_state (T := T) hs D net hstate eps ms ms' a b
  obtain ⟨hn, hb⟩ := ckptBackward_eq (tissDmcLive hs D net eps) hst p ms x hx (differentiable_init hs D he p) n hstep
  obtain ⟨hf1, hf2⟩ := ckptForward_eq (tissDmcLive hs D net eps) hst p ms (fun k => x k p) (fun k => hx k p) n 0 ms
  unfold tissDmcGrad tissPlainGrad
  have h0 : tissInitLive (s := s) hs T D eps p p = x 0 p := rfl
  rw [h0]
  simp only
  rw [hf1, hf2, zero_add, ← List.range_eq_range']
  have h00 : (fun q => tissInitLive (s := s) hs T D eps p q) = x 0 := rfl
  rw [h00, hb]
  have hd : DifferentiableAt ℝ (fun q : (Sig C F N × Θ) × Filters s C F T => (tissDemix D q.1.1 q.2, q.2)) (p, x n p) :=
    ((differentiable_demix D).prodMk differentiable_snd) _
  have hc : HasFDerivAt (fun q => (tissPlainLive hs T D net eps ms p q n).1)
      ((fderiv ℝ (fun q : (Sig C F N × Θ) × Filters s C F T => (tissDemix D q.1.1 q.2, q.2)) (p, x n p)).comp
        ((ContinuousLinearMap.id ℝ _).prod (fderiv ℝ (x n) p))) p := by
    have e : (fun q => (tissPlainLive hs T D net eps ms p q n).1) =
        (fun q : (Sig C F N × Θ) × Filters s C F T => (tissDemix D q.1.1 q.2, q.2)) ∘ fun q => (q, x n q) :=
      funext fun q => Prod.ext (plain_inv hs D net eps ms p q n) rfl
    rw [e]
    exact HasFDerivAt.comp p hd.hasFDerivAt ((hasFDerivAt_id p).prodMk hn.hasFDerivAt)
  rw [hc.fderiv]
  ext v <;>
  · simp only [ContinuousLinearMap.add_apply, ContinuousLinearMap.comp_apply, ContinuousLinearMap.inl_apply,
      ContinuousLinearMap.inr_apply, ContinuousLinearMap.prod_apply, ContinuousLinearMap.id_apply]
    rw [← map_add, ← map_add, Prod.mk_add_mk, add_zero, zero_add]

open Demo in
/-- Non-vacuity: a trainable scale as source model, any number of iterations. -/
example (n : ℕ) (out : (Sig 1 1 1 × Filters 1 1 1 0) →L[ℝ] ℝ) :
    tissDmcGrad le_rfl 0 0 scaleNet 1e-3 () n (fun _ _ _ => 1, 1) out = tissPlainGrad le_rfl 0 0 scaleNet 1e-3 () n (fun _ _ _ => 1, 1) out :=
  dmc_gradient_partial le_rfl 0 0 scaleNet (fun _ _ _ _ => rfl) 1e-3 (by norm_num) () n _ out
    fun k _ => demo_step _ _ rfl rfl (demo_fixed k)

open Demo Filter in
/-- **C103, violated.** `NMFModel` keeps its factors between calls, and the backward pass of a checkpoint calls the model again: the
iteration is differentiated at other weights than those of the forward pass.  Already with one iteration on one coefficient the
gradient with checkpointing is another one (`8 ^ (1/8)` times the correct one). -/
theorem dmc_gradient_violated : ∃ (p : Sig 1 1 1 × (Fin 0 → ℝ)) (out : (Sig 1 1 1 × Filters 1 1 1 0) →L[ℝ] ℝ),
    tissDmcGrad le_rfl 0 0 (nmfNet (K := 1) 1e-5 (fun _ _ _ => 1) fun _ _ _ => 1) 1e-3 none 1 p out ≠
      tissPlainGrad le_rfl 0 0 (nmfNet (K := 1) 1e-5 (fun _ _ _ => 1) fun _ _ _ => 1) 1e-3 none 1 p out := by
  set p : Sig 1 1 1 × (Fin 0 → ℝ) := (fun _ _ _ => 4, 0) with hp
  refine ⟨p, outW.comp (.snd ℝ _ _), fun h => ?_⟩
  set x : Filters 1 1 1 0 := (fun _ _ _ => 1, 0) with hx
  have hi : ∀ q : Sig 1 1 1 × (Fin 0 → ℝ), tissInitLive (s := 1) le_rfl 0 0 1e-3 p q = x := by
    intro q
    refine Prod.ext ?_ (Prod.ext (funext fun a => funext fun b => funext fun c => funext fun t => t.elim0) (funext fun a => ?_))
    · funext a b c
      obtain rfl := Subsingleton.elim a c
      simp [tissInitLive, hx]
    · exact (Nat.not_lt_zero _ a.2).elim
  have hi' : (fun q : Sig 1 1 1 × (Fin 0 → ℝ) => tissInitLive (s := 1) le_rfl 0 0 1e-3 p q) = fun _ => x := funext hi
  -- the state of the model before and after the forward pass
  have s0 : (none : Option (NmfState 1 1 1 1)).getD (nmfInit 1e-5 (fun _ _ _ => 1) fun _ _ _ => 1) =
      ⟨fun _ _ _ => 1, fun _ _ _ => 1, fun _ _ _ => (1 * 1)⁻¹⟩ := by
    simp only [Option.getD_none, nmfInit, nmfRecompute, NmfState.mk.injEq]
    refine ⟨?_, ?_, ?_⟩ <;> funext a b c <;> norm_num [clampMin]
  have s0' : ∀ y : Sig 1 1 1, nmfForward (K := 1) 1e-5 (fun _ _ _ => 1) (fun _ _ _ => 1) none y =
      nmfForward (K := 1) 1e-5 (fun _ _ _ => 1) (fun _ _ _ => 1) (some ⟨fun _ _ _ => 1, fun _ _ _ => 1, fun _ _ _ => (1 * 1)⁻¹⟩) y := by
    intro y
    simp only [nmfForward, s0, Option.getD_some]
  have hstep0 : nmfStep none p x = nmfStep (some ⟨fun _ _ _ => 1, fun _ _ _ => 1, fun _ _ _ => (1 * 1)⁻¹⟩) p x := by
    have hw : ∀ a b : (Fin 0 → ℝ) × Sig 1 1 1, (nmfNet (K := 1) 1e-5 (fun _ _ _ => 1) (fun _ _ _ => 1) none a b).1 = (nmfNet (K := 1) 1e-5 (fun _ _ _ => 1)
        (fun _ _ _ => 1) (some ⟨fun _ _ _ => 1, fun _ _ _ => 1, fun _ _ _ => (1 * 1)⁻¹⟩) a b).1 := by
      intro a b
      unfold nmfNet
      rw [s0']
      split <;> rfl
    funext q
    simp only [nmfStep, tissDmcLive, tissIterLive, hw]
  have q4 : √(16 * (1 * 1) : ℝ) = 4 := by rw [show (16 * (1 * 1) : ℝ) = 4 ^ 2 by norm_num]; exact Real.sqrt_sq (by norm_num)
  have q4' : √(16 / (1 * 1) : ℝ) = 4 := by rw [show (16 / (1 * 1) : ℝ) = 4 ^ 2 by norm_num]; exact Real.sqrt_sq (by norm_num)
  have q2 : √(16 / 4 : ℝ) = 2 := by rw [show (16 / 4 : ℝ) = 2 ^ 2 by norm_num]; exact Real.sqrt_sq (by norm_num)
  have q8 : √(16 * 4 : ℝ) = 8 := by rw [show (16 * 4 : ℝ) = 8 ^ 2 by norm_num]; exact Real.sqrt_sq (by norm_num)
  have hfwd := nmf_one (eps := 1e-5) (T := 1) (V := 1) (P := 16) one_pos one_pos (by norm_num) (by rw [q4']; norm_num) (by rw [q4]; norm_num)
    (by rw [q4, q2]; norm_num) (by rw [q4, q8]; norm_num) (fun _ _ _ => 1) (fun _ _ _ => 1) (fun _ _ _ => x.1 0 0 0 * p.1 0 0 0)
    (by norm_num [hx, hp, magSq, magSqE])
  have hY : tissDemix 0 p.1 x = fun _ _ _ => x.1 0 0 0 * p.1 0 0 0 := by
    funext a b c
    obtain rfl := Subsingleton.elim a 0
    obtain rfl := Subsingleton.elim b 0
    obtain rfl := Subsingleton.elim c 0
    simp [tissDemix, demixDerev]
  have hstate : (tissDmcLive le_rfl 0 (nmfNet (K := 1) 1e-5 (fun _ _ _ => 1) fun _ _ _ => 1) 1e-3 none (p, x) (p, x)).2 =
      some ⟨fun _ _ _ => 4, fun _ _ _ => 2, fun _ _ _ => (4 * 2)⁻¹⟩ := by
    simp only [tissDmcLive, tissIterLive, nmfNet, hY, s0', hfwd, q4, q4', q2, q8]
    norm_num
  obtain ⟨hd1, hv1⟩ := nmf_deriv (T := 1) (V := 1) le_rfl le_rfl (by norm_num) p x (by rw [hp]) (by rw [hx])
  obtain ⟨hd2, hv2⟩ := nmf_deriv (T := 4) (V := 2) (by norm_num) (by norm_num) (by norm_num) p x (by rw [hp]) (by rw [hx])
  rw [← hstep0] at hd1 hv1
  have h1 : tissPlainGrad le_rfl 0 0 (nmfNet (K := 1) 1e-5 (fun _ _ _ => 1) fun _ _ _ => 1) 1e-3 none 1 p (outW.comp (.snd ℝ _ _))
      (fun _ _ _ => 1, 0) = outW (fderiv ℝ (nmfStep none p x) (p, x) ((fun _ _ _ => 1, 0), 0)) := by
    have hG : HasFDerivAt (fun q => nmfStep none p x (q, x)) ((fderiv ℝ (nmfStep none p x) (p, x)).comp
        (ContinuousLinearMap.inl ℝ (Sig 1 1 1 × (Fin 0 → ℝ)) (Filters 1 1 1 0))) p :=
      HasFDerivAt.comp (f := fun q => (q, x)) p hd1.hasFDerivAt (hasFDerivAt_prodMk_left p x)
    have e : (fun q => (tissPlainLive le_rfl 0 0 (nmfNet (K := 1) 1e-5 (fun _ _ _ => 1) fun _ _ _ => 1) 1e-3 none p q 1).1) =
        fun q => (tissDemix 0 q.1 (nmfStep none p x (q, x)), nmfStep none p x (q, x)) := by
      funext q
      have e2 : (tissPlainLive le_rfl 0 0 (nmfNet (K := 1) 1e-5 (fun _ _ _ => 1) fun _ _ _ => 1) 1e-3 none p q 1).1.2 =
          nmfStep none p x (q, x) := by
        have : (tissPlainLive le_rfl 0 0 (nmfNet (K := 1) 1e-5 (fun _ _ _ => 1) fun _ _ _ => 1) 1e-3 none p q 1).1.2 =
            (tissDmcLive le_rfl 0 (nmfNet (K := 1) 1e-5 (fun _ _ _ => 1) fun _ _ _ => 1) 1e-3 none
              (p, tissInitLive (s := 1) le_rfl 0 0 1e-3 p p) (q, tissInitLive (s := 1) le_rfl 0 0 1e-3 p q)).1 := rfl
        rw [this, hi, hi]
        rfl
      refine Prod.ext ?_ e2
      rw [plain_inv le_rfl 0 _ _ _ p q 1, e2]
    have hdm := (differentiable_demix (Θ := Fin 0 → ℝ) (s := 1) (C := 1) (F := 1) (N := 1) (T := 0) 0 (p, nmfStep none p x (p, x))).hasFDerivAt
    have hY' := HasFDerivAt.comp (f := fun q => (q, nmfStep none p x (q, x))) p hdm ((hasFDerivAt_id p).prodMk hG)
    unfold tissPlainGrad
    have hh : HasFDerivAt (fun q => (tissDemix 0 q.1 (nmfStep none p x (q, x)), nmfStep none p x (q, x))) _ p := hY'.prodMk hG
    rw [e, hh.fderiv]
    rfl
  have h2 : tissDmcGrad le_rfl 0 0 (nmfNet (K := 1) 1e-5 (fun _ _ _ => 1) fun _ _ _ => 1) 1e-3 none 1 p (outW.comp (.snd ℝ _ _))
      (fun _ _ _ => 1, 0) = outW (fderiv ℝ (nmfStep (some ⟨fun _ _ _ => 4, fun _ _ _ => 2, fun _ _ _ => (4 * 2)⁻¹⟩) p x) (p, x)
        ((fun _ _ _ => 1, 0), 0)) := by
    have hlast : ∀ y : Filters 1 1 1 0, (outW.comp (.snd ℝ (Sig 1 1 1) (Filters 1 1 1 0))).comp
        (fderiv ℝ (fun q : (Sig 1 1 1 × (Fin 0 → ℝ)) × Filters 1 1 1 0 => (tissDemix 0 q.1.1 q.2, q.2)) (p, y)) =
        outW.comp (.snd ℝ _ _) := by
      intro y
      have hdm := (differentiable_demix (Θ := Fin 0 → ℝ) (s := 1) (C := 1) (F := 1) (N := 1) (T := 0) 0 (p, y)).hasFDerivAt
      rw [(hdm.prodMk hasFDerivAt_snd).fderiv]
      rfl
    simp only [tissDmcGrad, ckptForward, hi, hlast, List.reverse_cons, List.reverse_nil, List.nil_append, ckptBackward, hstate,
      fderiv_fun_const, Pi.zero_apply, ContinuousLinearMap.comp_zero, add_zero]
    have : nmfStep (some ⟨fun _ _ _ => 4, fun _ _ _ => 2, fun _ _ _ => (4 * 2)⁻¹⟩) p x = fun q => (tissDmcLive le_rfl 0
        (nmfNet (K := 1) 1e-5 (fun _ _ _ => 1) fun _ _ _ => 1) 1e-3
        (some ⟨fun _ _ _ => 4, fun _ _ _ => 2, fun _ _ _ => (4 * 2)⁻¹⟩) (p, x) q).1 := rfl
    rw [← this]
    exact zero_add _
  rw [h] at h2
  rw [h2, hv2] at h1
  rw [hv1] at h1
  have hne : (-(5 / 8) : ℝ) * 16 ^ (-(5 / 8) - 1 : ℝ) * 8 ≠ 0 := by
    have : (0 : ℝ) < 16 ^ (-(5 / 8) - 1 : ℝ) := by positivity
    nlinarith
  have h3 := mul_right_cancel₀ hne h1
  have h4 : ((4 * 2 : ℝ) ^ (1 / 8 : ℝ)) ^ (8 : ℝ) = 8 := by
    rw [← Real.rpow_mul (by norm_num)]
    norm_num
  rw [h3] at h4
  norm_num at h4

end Torchiva.Props
