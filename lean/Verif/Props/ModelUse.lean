import Verif.Spec.ModelUse
import Verif.Model.AuxIva
import Verif.Model.Five
import Verif.Model.Models

/-! # C127: a source model matters only through the weights it returns -/

namespace Torchiva.Props
open Torchiva Torchiva.Spec
variable {σ τ α β α' β' : Type} {s C F N T : ℕ}

private lemma Alike.bind {P : α → β → Prop} {Q : α' → β' → Prop} {x : Except Err α} {y : Except Err β} {f : α → Except Err α'} {g : β → Except Err β'}
    (h : Alike P x y) (hf : ∀ a b, P a b → Alike Q (f a) (g b)) : Alike Q (x >>= f) (y >>= g) := by
  rcases h with ⟨a, b, rfl, rfl, hp⟩ | ⟨e, rfl, rfl⟩
  · exact hf a b hp
  · exact Or.inr ⟨e, rfl, rfl⟩

private lemma Alike.pure {P : α → β → Prop} {a : α} {b : β} (h : P a b) : Alike P (.ok a) (.ok b) := Or.inl ⟨a, b, rfl, rfl, h⟩

private lemma Alike.same (x : Except Err α) : Alike (· = ·) x x := by
  rcases x with e | a
  · exact Or.inr ⟨e, rfl, rfl⟩
  · exact Or.inl ⟨a, a, rfl, rfl, rfl⟩

private lemma Alike.iter {P : α → β → Prop} {f : α → Except Err α} {g : β → Except Err β} (h : ∀ a b, P a b → Alike P (f a) (g b)) (n : ℕ) {a : α}
    {b : β} (hab : P a b) : Alike P (iterM f n a) (iterM g n b) := by
  induction n generalizing a b with
  | zero => exact Alike.pure hab
  | succ n ih => exact Alike.bind (h a b hab) fun a' b' h' => ih h'

private def TissAlike (R : σ → τ → Prop) (a : TissState σ s C F N T) (b : TissState τ s C F N T) : Prop :=
  a.Y = b.Y ∧ a.W = b.W ∧ a.H = b.H ∧ a.J = b.J ∧ R a.ms b.ms

private lemma oneIter_alike {R : σ → τ → Prop} {m : SourceModel σ F N} {m' : SourceModel τ F N} (hR : Indistinguishable R m m') (hs : s ≤ C)
    (X : Sig C F N) (Xbar : Taps C F T N) (cXX cXbarX) (eps : ℝ) (a : TissState σ s C F N T) (b : TissState τ s C F N T) (h : TissAlike R a b) :
    Alike (TissAlike R) (tissOneIter hs X Xbar cXX cXbarX m eps a) (tissOneIter hs X Xbar cXX cXbarX m' eps b) := by
  obtain ⟨Y, W, H, J, ms⟩ := a
  obtain ⟨Y', W', H', J', ms'⟩ := b
  obtain ⟨rfl, rfl, rfl, rfl, h⟩ : Y = Y' ∧ W = W' ∧ H = H' ∧ J = J' ∧ R ms ms' := h
  obtain ⟨h1, h2⟩ := hR s ms ms' Y h
  unfold tissOneIter
  dsimp only
  rw [← h1]
  rcases J with _ | J
  · exact Alike.pure ⟨rfl, rfl, rfl, rfl, h2⟩
  · refine Alike.bind (Alike.same _) fun J1 J2 e => ?_
    subst e
    exact Alike.pure ⟨rfl, rfl, rfl, rfl, h2⟩

private lemma oneIterDmc_alike {R : σ → τ → Prop} {m : SourceModel σ F N} {m' : SourceModel τ F N} (hR : Indistinguishable R m m') (hs : s ≤ C)
    (X : Sig C F N) (Xbar : Taps C F T N) (cXX cXbarX) (eps : ℝ) (a : TissState σ s C F N T) (b : TissState τ s C F N T) (h : TissAlike R a b) :
    Alike (TissAlike R) (tissOneIterDmc hs X Xbar cXX cXbarX m eps a) (tissOneIterDmc hs X Xbar cXX cXbarX m' eps b) := by
  obtain ⟨Y, W, H, J, ms⟩ := a
  obtain ⟨Y', W', H', J', ms'⟩ := b
  obtain ⟨rfl, rfl, rfl, rfl, h⟩ : Y = Y' ∧ W = W' ∧ H = H' ∧ J = J' ∧ R ms ms' := h
  unfold tissOneIterDmc
  refine Alike.bind (oneIter_alike hR hs X Xbar cXX cXbarX eps _ _ ⟨rfl, rfl, rfl, rfl, h⟩) fun a b h => ?_
  exact Alike.pure ⟨rfl, h.2.1, h.2.2.1, h.2.2.2.1, h.2.2.2.2⟩

/-- **C127 (T-ISS).** Two models that cannot be told apart by the weights they return give the same separation: the same exception, or the same signals,
demixing filters and background filters; the states of the models stay related, so this holds for any number of calls in a row. -/
theorem tiss_model_use {R : σ → τ → Prop} {m : SourceModel σ F N} {m' : SourceModel τ F N} (hR : Indistinguishable R m m') (p : TissParams)
    (nSrc : Option ℕ) (X : Sig C F N) (reset : σ → σ) (reset' : τ → τ) (st : σ) (st' : τ) (h : R (reset st) (reset' st')) :
    Alike (fun o o' => ∃ (s : ℕ) (Y : Sig s F N) (W : DemixW s F C) (J : Option (BackJ (C - s) F s)) (t : σ) (t' : τ),
        o = ⟨s, Y, W, J, t⟩ ∧ o' = ⟨s, Y, W, J, t'⟩ ∧ R t t')
      (tissForward p nSrc X m reset st) (tissForward p nSrc X m' reset' st') := by
  unfold tissForward
  dsimp only
  split
  · next hs =>
    have : Alike (fun o o' => o.Y = o'.Y ∧ o.W = o'.W ∧ o.J = o'.J ∧ R o.ms o'.ms) (tissCore hs p X m (reset st)) (tissCore hs p X m' (reset' st')) := by
      unfold tissCore
      have h0 : Alike (TissAlike R) (tissInit hs X p.nTaps p.nDelay p.eps (reset st)) (tissInit hs X p.nTaps p.nDelay p.eps (reset' st')) := by
        unfold tissInit
        dsimp only
        split
        · refine Alike.bind (Alike.same _) fun J1 J2 e => ?_
          subst e
          exact Alike.pure ⟨rfl, rfl, rfl, rfl, h⟩
        · exact Alike.pure ⟨rfl, rfl, rfl, rfl, h⟩
      refine Alike.bind h0 fun a b hab => ?_
      have hl : Alike (TissAlike R) (tissLoop hs X p.nTaps p.nDelay m p.eps p.useDmc p.nIter a)
          (tissLoop hs X p.nTaps p.nDelay m' p.eps p.useDmc p.nIter b) := by
        unfold tissLoop
        dsimp only
        refine Alike.iter (fun a b hab => ?_) _ hab
        cases p.useDmc
        · exact oneIter_alike hR hs X _ _ _ _ a b hab
        · exact oneIterDmc_alike hR hs X _ _ _ _ a b hab
      refine Alike.bind hl fun a b hab => ?_
      obtain ⟨Y, W, H, J, ms⟩ := a
      obtain ⟨Y', W', H', J', ms'⟩ := b
      obtain ⟨rfl, rfl, rfl, rfl, h⟩ : Y = Y' ∧ W = W' ∧ H = H' ∧ J = J' ∧ R ms ms' := hab
      dsimp only
      rcases p.projBackMic with _ | r
      · exact Alike.pure ⟨rfl, rfl, rfl, h⟩
      · dsimp only
        split
        · refine Alike.bind (Alike.same _) fun J1 J2 e => ?_
          subst e
          exact Alike.pure ⟨rfl, rfl, rfl, h⟩
        · exact Alike.pure ⟨rfl, rfl, rfl, h⟩
    rcases this with ⟨⟨Y, W, J, t⟩, ⟨Y', W', J', t'⟩, h1, h2, rfl, rfl, rfl, h3⟩ | ⟨e, h1, h2⟩
    · rw [h1, h2]
      exact Alike.pure ⟨_, Y, W, J, t, t', rfl, rfl, h3⟩
    · rw [h1, h2]
      exact Or.inr ⟨e, rfl, rfl⟩
  · exact Or.inr ⟨_, rfl, rfl⟩

/-- Non-vacuity: the Laplace model without a state, and one that counts its calls from any number on; the states are 0, 1, 2, … and none. -/
example : Indistinguishable (fun (_ : Unit) (_ : ℕ) => True) (fun _ st (Y : Sig _ F N) => (laplaceForward 1e-5 Y, st))
    (fun _ k Y => (laplaceForward 1e-5 Y, k + 1)) := fun _ _ _ _ _ => ⟨rfl, trivial⟩

/-- The relation is not always true: a model whose weights are the number of the call, and one whose weights are one. -/
example : ¬Indistinguishable (F := 1) (N := 1) (fun (_ : Unit) (_ : ℕ) => True) (fun _ st _ => (fun _ _ _ => 1, st))
    (fun _ k _ => (fun _ _ _ => (k : ℝ), k + 1)) := fun h => by
  have := congrFun (congrFun (congrFun (h 1 () 0 (fun _ _ _ => 0) trivial).1 0) 0) 0
  norm_num at this

/-- **C127 (AuxIVA-IP).** The same for AuxIVA-IP. -/
theorem auxiva_model_use {R : σ → τ → Prop} {m : SourceModel σ F N} {m' : SourceModel τ F N} (hR : Indistinguishable R m m') (p : IpParams)
    (nSrc : Option ℕ) (X : Sig C F N) (reset : σ → σ) (reset' : τ → τ) (st : σ) (st' : τ) (h : R (reset st) (reset' st')) :
    Alike (fun o o' => ∃ (s : ℕ) (Y : Sig s F N) (t : σ) (t' : τ), o = ⟨s, Y, t⟩ ∧ o' = ⟨s, Y, t'⟩ ∧ R t t')
      (auxivaForward p nSrc X m reset st) (auxivaForward p nSrc X m' reset' st') := by
  unfold auxivaForward
  rcases nSrc with _ | s
  · exact Or.inr ⟨_, rfl, rfl⟩
  dsimp only
  split
  · next hs =>
    refine Alike.bind (Alike.same _) fun J1 J2 e => ?_
    subst e
    have hl : ∀ (a : IpState σ s C F N) (b : IpState τ s C F N), (a.Y = b.Y ∧ a.W = b.W ∧ a.J = b.J ∧ R a.ms b.ms) →
        Alike (fun (a : IpState σ s C F N) (b : IpState τ s C F N) => a.Y = b.Y ∧ a.W = b.W ∧ a.J = b.J ∧ R a.ms b.ms)
          (ipEpoch hs X m p.eps a) (ipEpoch hs X m' p.eps b) := by
      rintro ⟨Y, W, J, ms⟩ ⟨Y', W', J', ms'⟩ ⟨h1, h2, h3, h⟩
      dsimp only at h1 h2 h3 h
      subst h1 h2 h3
      obtain ⟨h1, h2⟩ := hR s ms ms' Y h
      unfold ipEpoch
      dsimp only
      rw [← h1]
      refine Alike.bind (Alike.same _) fun J1 J2 e => ?_
      subst e
      exact Alike.pure ⟨rfl, rfl, rfl, h2⟩
    refine Alike.bind (Alike.iter hl _ ⟨rfl, rfl, rfl, h⟩) ?_
    rintro ⟨Y, W, J, ms⟩ ⟨Y', W', J', ms'⟩ ⟨h1, h2, h3, h⟩
    dsimp only at h1 h2 h3 h
    subst h1 h2 h3
    dsimp only
    rcases p.projBackMic with _ | r
    · exact Alike.pure ⟨s, Y, ms, ms', rfl, rfl, h⟩
    · refine Alike.bind (Alike.same _) fun J1 J2 e => ?_
      subst e
      exact Alike.pure ⟨s, _, ms, ms', rfl, rfl, h⟩
  · exact Or.inr ⟨_, rfl, rfl⟩

/-- The Laplace model and one that counts its calls. -/
example (X : Sig 3 129 50) (k : ℕ) :
    Alike (fun o o' => ∃ (s : ℕ) (Y : Sig s 129 50) (t : Unit) (t' : ℕ), o = ⟨s, Y, t⟩ ∧ o' = ⟨s, Y, t'⟩ ∧ True)
      (auxivaForward ⟨10, some 0, 1e-3⟩ (some 2) X (fun _ st Y => (laplaceForward 1e-5 Y, st)) id ())
      (auxivaForward ⟨10, some 0, 1e-3⟩ (some 2) X (fun _ k Y => (laplaceForward 1e-5 Y, k + 1)) id k) :=
  auxiva_model_use (R := fun (_ : Unit) (_ : ℕ) => True) (fun _ _ _ _ _ => ⟨rfl, trivial⟩) _ _ X id id () k trivial

/-- **C127 (AuxIVA-IP2).** The same for AuxIVA-IP2. -/
theorem ip2_model_use {R : σ → τ → Prop} {m : SourceModel σ F N} {m' : SourceModel τ F N} (hR : Indistinguishable R m m') (nIter : ℕ)
    (projBackMic : Option ℤ) (eps : ℝ) (X : Sig C F N) (reset : σ → σ) (reset' : τ → τ) (st : σ) (st' : τ) (h : R (reset st) (reset' st')) :
    auxiva2Forward nIter projBackMic eps X m reset st = auxiva2Forward nIter projBackMic eps X m' reset' st' := by
  unfold auxiva2Forward
  split
  · next hC =>
    split
    · have hl : ∀ (Xo : Sig 2 F N) (a : Ip2State σ F N) (b : Ip2State τ F N), (a.X = b.X ∧ a.W = b.W ∧ a.A = b.A ∧ R a.ms b.ms) →
          Alike (fun (a : Ip2State σ F N) (b : Ip2State τ F N) => a.X = b.X ∧ a.W = b.W ∧ a.A = b.A ∧ R a.ms b.ms)
            (ip2Epoch Xo m eps a) (ip2Epoch Xo m' eps b) := by
        rintro Xo ⟨Y, W, J, ms⟩ ⟨Y', W', J', ms'⟩ ⟨h1, h2, h3, h⟩
        dsimp only at h1 h2 h3 h
        subst h1 h2 h3
        obtain ⟨h1, h2⟩ := hR 2 ms ms' Y h
        unfold ip2Epoch
        dsimp only
        rw [← h1]
        refine Alike.bind (Alike.same _) fun J1 J2 e => ?_
        subst e
        exact Alike.pure ⟨rfl, rfl, rfl, h2⟩
      have := Alike.iter (hl fun c => X (Fin.cast hC.symm c)) nIter (a := ⟨_, fun _ => 1, fun _ => 1, reset st⟩)
        (b := ⟨fun c => X (Fin.cast hC.symm c), fun _ => 1, fun _ => 1, reset' st'⟩) ⟨rfl, rfl, rfl, h⟩
      rcases this with ⟨⟨Y, W, J, ms⟩, ⟨Y', W', J', ms'⟩, h1, h2, e1, e2, e3, -⟩ | ⟨e, h1, h2⟩
      · dsimp only at e1 e2 e3
        subst e1 e2 e3
        dsimp only
        rw [h1, h2]
        rfl
      · dsimp only
        rw [h1, h2]
        rfl
    · rfl
  · rfl

example (X : Sig 2 129 50) (k : ℕ) :
    auxiva2Forward 10 (some 0) 1e-3 X (fun _ st Y => (laplaceForward 1e-5 Y, st)) id () =
      auxiva2Forward 10 (some 0) 1e-3 X (fun _ k Y => (laplaceForward 1e-5 Y, k + 1)) id k :=
  ip2_model_use (R := fun (_ : Unit) (_ : ℕ) => True) (fun _ _ _ _ _ => ⟨rfl, trivial⟩) _ _ _ X id id () k trivial

/-- **C127 (FIVE).** The same for FIVE. -/
theorem five_model_use [NeZero C] {R : σ → τ → Prop} {m : SourceModel σ F N} {m' : SourceModel τ F N} (hR : Indistinguishable R m m')
    (solver : Matrix (Fin C) (Fin C) ℂ → EigRes (Fin C)) (nIter : ℕ) (ref : Fin C) (nPower : Option ℕ) (X : Sig C (F + 1) N) (reset : σ → σ)
    (reset' : τ → τ) (st : σ) (st' : τ) (h : R (reset st) (reset' st')) :
    fiveForward solver nIter ref nPower X m reset st = fiveForward solver nIter ref nPower X m' reset' st' := by
  have hl : ∀ (Xw : Sig C F N) qref (a : FiveState σ F N) (b : FiveState τ F N), (a.Y = b.Y ∧ R a.ms b.ms) →
      Alike (fun (a : FiveState σ F N) (b : FiveState τ F N) => a.Y = b.Y ∧ R a.ms b.ms)
        (fiveEpoch solver nPower Xw qref m a) (fiveEpoch solver nPower Xw qref m' b) := by
    rintro Xw qref ⟨Y, ms⟩ ⟨Y', ms'⟩ ⟨h1, h⟩
    dsimp only at h1 h
    subst h1
    obtain ⟨h1, h2⟩ := hR 1 ms ms' (fun _ => Y) h
    unfold fiveEpoch
    dsimp only
    rw [← h1]
    refine Alike.bind (Alike.same _) fun J1 J2 e => ?_
    subst e
    exact Alike.pure ⟨rfl, h2⟩
  have eq_of : ∀ {γ : Type} {x y : Except Err γ}, Alike (· = ·) x y → x = y := by
    rintro γ x y (⟨a, b, rfl, rfl, rfl⟩ | ⟨e, rfl, rfl⟩) <;> rfl
  unfold fiveForward
  refine eq_of (Alike.bind (Alike.same _) fun J1 J2 e => ?_)
  subst e
  dsimp only
  refine Alike.bind (Alike.iter (hl _ _) nIter ⟨rfl, h⟩) ?_
  rintro ⟨Y, ms⟩ ⟨Y', ms'⟩ ⟨h1, h⟩
  dsimp only at h1
  subst h1
  exact Alike.pure rfl

example (solver) (X : Sig 3 (128 + 1) 50) (k : ℕ) :
    fiveForward solver 10 1 none X (fun _ st Y => (laplaceForward 1e-5 Y, st)) id () =
      fiveForward solver 10 1 none X (fun _ k Y => (laplaceForward 1e-5 Y, k + 1)) id k :=
  five_model_use (R := fun (_ : Unit) (_ : ℕ) => True) (fun _ _ _ _ _ => ⟨rfl, trivial⟩) solver 10 1 none X id id () k trivial

/-- **C127 (WPE).** The same for WPE, whose model is not reset. -/
theorem wpe_model_use {R : σ → τ → Prop} {m : WpeModel σ C F N} {m' : WpeModel τ C F N} (hR : WpeIndistinguishable R m m') (nIter T D : ℕ) (eps : ℝ)
    (X : Sig C F N) (st : σ) (st' : τ) (h : R st st') :
    wpeForward nIter T D eps X (some m) st = wpeForward nIter T D eps X (some m') st' := by
  have hl : ∀ (a : WpeState σ C F N) (b : WpeState τ C F N), (a.Y = b.Y ∧ R a.ms b.ms) →
      Alike (fun (a : WpeState σ C F N) (b : WpeState τ C F N) => a.Y = b.Y ∧ R a.ms b.ms)
        (wpeStep X (delayedTaps X T D) (some m) eps a) (wpeStep X (delayedTaps X T D) (some m') eps b) := by
    rintro ⟨Y, ms⟩ ⟨Y', ms'⟩ ⟨h1, h⟩
    dsimp only at h1 h
    subst h1
    obtain ⟨h1, h2⟩ := hR ms ms' Y h
    unfold wpeStep
    change Alike _ (wpeFilter (m ms Y).1 X (delayedTaps X T D) eps >>= _) (wpeFilter (m' ms' Y).1 X (delayedTaps X T D) eps >>= _)
    rw [← h1]
    refine Alike.bind (Alike.same _) fun J1 J2 e => ?_
    subst e
    exact Alike.pure ⟨rfl, h2⟩
  unfold wpeForward wpeRun
  rcases Alike.iter hl nIter (a := ⟨X, st⟩) (b := ⟨X, st'⟩) ⟨rfl, h⟩ with ⟨a, b, h1, h2, e, -⟩ | ⟨e, h1, h2⟩
  · rw [h1, h2]
    change Except.ok a.Y = Except.ok b.Y
    rw [e]
  · rw [h1, h2]
    rfl

/-- Non-vacuity: weights that do not look at the state. -/
example : WpeIndistinguishable (fun (_ : Unit) (_ : ℕ) => True) (fun st (_ : Sig C F N) => (fun _ _ => 1, st)) (fun k _ => (fun _ _ => 1, k + 1)) :=
  fun _ _ _ _ => ⟨rfl, trivial⟩

end Torchiva.Props
