import Verif.Model.TIss
import Verif.Model.Models
import Mathlib.Analysis.Calculus.FDeriv.Comp
import Mathlib.Analysis.Calculus.FDeriv.Prod
import Mathlib.Analysis.Calculus.FDeriv.Add

/-!
# Model of the backward pass of T-ISS (torchiva/t_iss.py:494-526) with and without checkpointing

Automatic differentiation is modelled by its contract: it applies to the gradient of the result (a linear form) the derivative of the
computation in which every value computed under `torch.no_grad()` or `detach()` is a constant.  A computation is therefore a function
of two arguments: `frozen`, read by the detached parts, and `live`, through which the derivative flows.  Its value is obtained with
both equal.  In T-ISS the detached values are the row weights of `background_update` (lines 210-214) and whatever the source model
detaches.

The parameters `P` are the input and the parameters of the source model, `(X, θ)`; complex tensors are real vector spaces.
-/

namespace Torchiva

section generic
variable {σ P E : Type}

/-- torch.utils.checkpoint (t_iss.py:498-511), forward pass: the inputs `x` of every call are saved, the calls run without
recording.  `σ` is the mutable state of the source model. -/
def ckptForward (step : σ → P × E → P × E → E × σ) (p : P) : ℕ → σ → E → List E × E × σ
  | 0, ms, x => ([], x, ms)
  | n + 1, ms, x =>
    let r := step ms (p, x) (p, x)
    let t := ckptForward step p n r.2 r.1
    (x :: t.1, t.2)

variable [NormedAddCommGroup P] [NormedSpace ℝ P] [NormedAddCommGroup E] [NormedSpace ℝ E]

/-- torch.utils.checkpoint (t_iss.py:498-511), backward pass over the saved inputs, last call first: every call is run again on its
saved input, now recording, with the model in whatever state it is, and the gradient `c` of its result is propagated to the parameters
(accumulated in `g`) and to its input.  Returns the gradients of the parameters and of the first input, and the state of the model. -/
noncomputable def ckptBackward (step : σ → P × E → P × E → E × σ) (p : P) : List E → σ → (P →L[ℝ] ℝ) → (E →L[ℝ] ℝ) →
    (P →L[ℝ] ℝ) × (E →L[ℝ] ℝ) × σ
  | [], ms, g, c => (g, c, ms)
  | x :: saved, ms, g, c =>
    let d := c.comp (fderiv ℝ (fun q => (step ms (p, x) q).1) (p, x))
    ckptBackward step p saved (step ms (p, x) (p, x)).2 (g + d.comp (.inl ℝ P E)) (d.comp (.inr ℝ P E))

end generic

section tiss
variable {s C F N T : ℕ} {Θ σ : Type}

/-- torchiva/t_iss.py:477-490: The demixing filters: `W`, `H` and the background filter `J`, which is empty when `n_src = n_chan`. -/
abbrev Filters (s C F T : ℕ) := DemixW s F C × DemixH s F C T × BackJ (C - s) F s

/-- torchiva/t_iss.py:234, 497-511: A source model with parameters and a mutable state: detached input, live input, weights and new state. -/
abbrev SourceNet (Θ σ : Type) (s F N : ℕ) := σ → Θ × Sig s F N → Θ × Sig s F N → Weights s F N × σ

/-- torchiva/t_iss.py:203-214: the detached row weights of `background_update`. -/
noncomputable def bgRowWeights (hs : s ≤ C) (W : DemixW s F C) (H : DemixH s F C T) (cXX : Fin C → Fin F → Fin C → ℂ)
    (cXbarX : Fin C → Fin T → Fin F → Fin C → ℂ) (eps : ℝ) : Fin F → Fin s → ℝ := fun f =>
  rowWeight (Matrix.of fun (k d : Fin s) => bgA W H cXX cXbarX f k (Fin.castLE hs d)) eps

/-- torchiva/t_iss.py:203-227 `background_update` with row weights `ρ`.  The matrix that is inverted is positive definite. -/
noncomputable def bgSolve (hs : s ≤ C) (ρ : Fin F → Fin s → ℝ) (W : DemixW s F C) (H : DemixH s F C T)
    (cXX : Fin C → Fin F → Fin C → ℂ) (cXbarX : Fin C → Fin T → Fin F → Fin C → ℂ) (eps : ℝ) : BackJ (C - s) F s := fun c f k =>
  let A := bgA W H cXX cXbarX f
  let mat2 : Matrix (Fin s) (Fin s) ℂ := fun k d => A k (Fin.castLE hs d) * (ρ f k : ℂ)
  let rhs2 : Matrix (Fin s) (Fin (C - s)) ℂ := fun k d => A k ⟨s + d, by omega⟩ * (ρ f k : ℂ)
  let mat : Matrix (Fin s) (Fin s) ℂ := fun m n => ∑ k, star (mat2 k m) * mat2 k n
  let rhs : Matrix (Fin s) (Fin (C - s)) ℂ := fun m n => ∑ k, star (mat2 k m) * rhs2 k n
  star (((mat + (eps : ℂ) • (1 : Matrix (Fin s) (Fin s) ℂ))⁻¹ * rhs) k c)

/-- torchiva/t_iss.py:237-243: the normalised signals, filters and weights. -/
noncomputable def tissNormalize (eps : ℝ) (weights : Weights s F N) (Y : Sig s F N) (W : DemixW s F C) (H : DemixH s F C T) :
    IssState s C F N T × Weights s F N :=
  let g := sourceGain Y eps
  (⟨fun k f n => divide (Y k f n) (√(g k)) eps, fun k f c => divide (W k f c) (√(g k)) eps,
    fun k f c t => divide (H k f c t) (√(g k)) eps⟩, fun k f n => weights k f n * g k)

/-- torchiva/t_iss.py:230-256 `over_iss_t_one_iter`, given the signals `Y` and the filters, as the function that is differentiated. -/
noncomputable def tissIterLive (hs : s ≤ C) (D : ℕ) (net : SourceNet Θ σ s F N) (eps : ℝ) (ms : σ)
    (frozen live : (Sig C F N × Θ) × Sig s F N × Filters s C F T) : (Sig s F N × Filters s C F T) × σ :=
  let w := net ms (frozen.1.2, frozen.2.1) (live.1.2, live.2.1)
  let w0 := net ms (frozen.1.2, frozen.2.1) (frozen.1.2, frozen.2.1)
  let X := live.1.1
  let Xbar := delayedTaps X T D
  let st := tissNormalize eps w.1 live.2.1 live.2.2.1 live.2.2.2.1
  let X0 := frozen.1.1
  let st0 := tissNormalize eps w0.1 frozen.2.1 frozen.2.2.1 frozen.2.2.2.1
  let ρ := bgRowWeights hs st0.1.W st0.1.H (covXX X0) (covXbarX X0 (delayedTaps X0 T D)) 1e-3
  let J := bgSolve hs ρ st.1.W st.1.H (covXX X) (covXbarX X Xbar) 1e-3
  let r := issUpdates Xbar st.2 eps (if s < C then some (demixBackground hs X J, J) else none) st.1
  ((r.Y, r.W, r.H, J), w.2)

/-- torchiva/t_iss.py:523 and 264 `demix_derev` of the input. -/
noncomputable def tissDemix (D : ℕ) (X : Sig C F N) (x : Filters s C F T) : Sig s F N :=
  demixDerev X (delayedTaps X T D) x.1 x.2.1

/-- torchiva/t_iss.py:259-269 `over_iss_t_one_iter_dmc`. -/
noncomputable def tissDmcLive (hs : s ≤ C) (D : ℕ) (net : SourceNet Θ σ s F N) (eps : ℝ) (ms : σ)
    (frozen live : (Sig C F N × Θ) × Filters s C F T) : Filters s C F T × σ :=
  let r := tissIterLive hs D net eps ms (frozen.1, tissDemix D frozen.1.1 frozen.2, frozen.2)
    (live.1, tissDemix D live.1.1 live.2, live.2)
  (r.1.2, r.2)

/-- torchiva/t_iss.py:476-488: the initial filters. -/
noncomputable def tissInitLive (hs : s ≤ C) (T D : ℕ) (eps : ℝ) (frozen live : Sig C F N × Θ) : Filters s C F T :=
  let W : DemixW s F C := fun k _ c => if k.1 = c.1 then 1 else 0
  let H : DemixH s F C T := fun _ _ _ _ => 0
  let ρ := bgRowWeights hs W H (covXX frozen.1) (covXbarX frozen.1 (delayedTaps frozen.1 T D)) eps
  (W, H, bgSolve hs ρ W H (covXX live.1) (covXbarX live.1 (delayedTaps live.1 T D)) eps)

/-- torchiva/t_iss.py:490-524 without checkpointing: signals, filters and model state after `n` iterations. -/
noncomputable def tissPlainLive (hs : s ≤ C) (T D : ℕ) (net : SourceNet Θ σ s F N) (eps : ℝ) (ms : σ)
    (frozen live : Sig C F N × Θ) : ℕ → (Sig s F N × Filters s C F T) × σ
  | 0 => ((tissDemix D live.1 (tissInitLive hs T D eps frozen live), tissInitLive hs T D eps frozen live), ms)
  | n + 1 =>
    let a := tissPlainLive hs T D net eps ms frozen frozen n
    let b := tissPlainLive hs T D net eps ms frozen live n
    tissIterLive hs D net eps a.2 (frozen, a.1) (live, b.1)

variable [NormedAddCommGroup Θ] [NormedSpace ℝ Θ]

/-- What `backward()` computes without checkpointing (t_iss.py:513-524): `out` is the gradient of the loss with respect to the signals
and filters at the end of the loop. -/
noncomputable def tissPlainGrad (hs : s ≤ C) (T D : ℕ) (net : SourceNet Θ σ s F N) (eps : ℝ) (ms : σ) (n : ℕ)
    (p : Sig C F N × Θ) (out : (Sig s F N × Filters s C F T) →L[ℝ] ℝ) : (Sig C F N × Θ) →L[ℝ] ℝ :=
  out.comp (fderiv ℝ (fun q => (tissPlainLive hs T D net eps ms p q n).1) p)

/-- What `backward()` computes with `use_dmc=True` (t_iss.py:496-511 and 526): through the final `demix_derev`, through the
checkpointed iterations, and through the initial filters. -/
noncomputable def tissDmcGrad (hs : s ≤ C) (T D : ℕ) (net : SourceNet Θ σ s F N) (eps : ℝ) (ms : σ) (n : ℕ)
    (p : Sig C F N × Θ) (out : (Sig s F N × Filters s C F T) →L[ℝ] ℝ) : (Sig C F N × Θ) →L[ℝ] ℝ :=
  let fwd := ckptForward (tissDmcLive hs D net eps) p n ms (tissInitLive hs T D eps p p)
  let last := out.comp (fderiv ℝ (fun q : (Sig C F N × Θ) × Filters s C F T => (tissDemix D q.1.1 q.2, q.2)) (p, fwd.2.1))
  let back := ckptBackward (tissDmcLive hs D net eps) p fwd.1.reverse fwd.2.2 (last.comp (.inl ℝ _ _)) (last.comp (.inr ℝ _ _))
  back.1 + back.2.1.comp (fderiv ℝ (fun q => tissInitLive hs T D eps p q) p)

/-- torchiva/models/classic.py:112-155 `NMFModel` (no parameters) as the source model of T-ISS.  The tensors `T`, `V` that one call leaves
for the next one are values here, so gradients through more than one call are outside this definition: it is used with one
iteration only.  A division by zero, which no reachable state has (`nmfForward_ok`), leaves the state as it is. -/
noncomputable def nmfNet {s F N K : ℕ} (eps : ℝ) (uT : Fin s → Fin F → Fin K → ℝ) (uV : Fin s → Fin N → Fin K → ℝ) :
    SourceNet (Fin 0 → ℝ) (Option (NmfState s F N K)) s F N := fun ms _ live =>
  match nmfForward eps uT uV ms live.2 with
  | .ok r => r
  | .error _ => (0, ms)

end tiss

end Torchiva
