import Verif.Spec.DType

/-!
# Dtypes: operations keep dtype and precision
-/

namespace Torchiva.DT

open Spec

/-- The program returns a value with the property. -/
def Ok {α : Type} (P : α → Prop) (e : Except Err α) : Prop := ∃ v, e = .ok v ∧ P v

theorem Ok.bind {α β : Type} {P : α → Prop} {Q : β → Prop} {e : Except Err α} {f : α → Except Err β}
    (he : Ok P e) (hf : ∀ v, P v → Ok Q (f v)) : Ok Q (e >>= f) := by
  obtain ⟨v, rfl, hv⟩ := he
  exact hf v hv

theorem Ok.pure {α : Type} {P : α → Prop} {v : α} (h : P v) : Ok P (Except.ok v : Except Err α) := ⟨v, rfl, h⟩

theorem Ok.pure' {α : Type} {P : α → Prop} {v : α} (h : P v) : Ok P (Pure.pure v : Except Err α) := ⟨v, rfl, h⟩

theorem Ok.mono {α : Type} {P Q : α → Prop} {e : Except Err α} (he : Ok P e) (h : ∀ v, P v → Q v) : Ok Q e := by
  obtain ⟨v, e, hv⟩ := he
  exact ⟨v, e, h v hv⟩

theorem Ok.loop {α : Type} {P : α → Prop} {f : α → Except Err α} (hf : ∀ s, P s → Ok P (f s)) :
    ∀ (n : ℕ) (s : α), P s → Ok P (loop f n s)
  | 0, s, hs => ⟨s, rfl, hs⟩
  | n + 1, s, hs => Ok.bind (hf s hs) fun t ht => Ok.loop hf n t ht

/-- Dtype `(c, p)`, and unrounded unless `r`. -/
structure Is (c : Bool) (p : Prec) (r : Bool) (t : TD) : Prop where
  cpx : t.cpx = c
  prec : t.prec = p
  rd : t.rounded = true → r = true
  sing : p = .single → r = true

/-- Real, of precision at most `p`, and unrounded unless `r`. -/
structure Re (p : Prec) (r : Bool) (t : TD) : Prop where
  cpx : t.cpx = false
  prec : t.prec = p ∨ t.prec = .single
  rd : t.rounded = true → r = true
  sing : p = .single → r = true

variable {c : Bool} {p : Prec} {r : Bool} {a b : TD}

theorem Is.re (h : Is false p r a) : Re p r a := ⟨h.cpx, .inl h.prec, h.rd, h.sing⟩

theorem Is.input (c : Bool) (p : Prec) : Is c p (p == .single) (input c p) :=
  ⟨rfl, rfl, fun h => h, fun h => by subst h; rfl⟩

@[simp] theorem max_self (p : Prec) : p.max p = p := by cases p <;> rfl

theorem Is.mulc (ha : Is c p r a) (hb : Is c p r b) : Is c p r (mul a b) := by
  obtain ⟨c1, p1, r1⟩ := a
  obtain ⟨c2, p2, r2⟩ := b
  obtain ⟨h1, h2, h3, h4⟩ := ha
  obtain ⟨g1, g2, g3, g4⟩ := hb
  simp only at h1 h2 h3 g1 g2 g3
  subst h1 h2 g1
  subst g2
  refine ⟨by simp [mul, arith], by simp [mul, arith], ?_, h4⟩
  simp only [mul, arith, max_self, Bool.or_eq_true, beq_iff_eq]
  rintro ((h | h) | h)
  exacts [h3 h, g3 h, h4 h]

theorem Is.mulr (ha : Is c p r a) (hb : Re p r b) : Is c p r (mul a b) := by
  obtain ⟨c1, p1, r1⟩ := a
  obtain ⟨c2, p2, r2⟩ := b
  obtain ⟨h1, h2, h3, h4⟩ := ha
  obtain ⟨g1, g2, g3, g4⟩ := hb
  simp only at h1 h2 h3 g1 g2 g3
  subst h1 h2 g1
  have hm : p1.max p2 = p1 := by
    rcases g2 with rfl | rfl
    · simp
    · cases p1 <;> rfl
  refine ⟨by simp [mul, arith], by simp [mul, arith, hm], ?_, h4⟩
  simp only [mul, arith, hm, Bool.or_eq_true, beq_iff_eq]
  rintro ((h | h) | h)
  exacts [h3 h, g3 h, h4 h]

theorem mul_comm (a b : TD) : mul a b = mul b a := by
  obtain ⟨c1, p1, r1⟩ := a
  obtain ⟨c2, p2, r2⟩ := b
  cases p1 <;> cases p2 <;> simp [mul, arith, Prec.max, Bool.or_comm]

theorem Re.mull (ha : Re p r a) (hb : Is c p r b) : Is c p r (mul a b) := mul_comm b a ▸ hb.mulr ha

theorem Is.scal (ha : Is c p r a) : Is c p r (scal a) := by
  refine ⟨ha.cpx, ha.prec, ?_, ha.sing⟩
  simp only [DT.scal, arith, Bool.or_eq_true, beq_iff_eq, ha.prec]
  rintro (h | h)
  exacts [ha.rd h, ha.sing h]

theorem Is.abs (ha : Is c p r a) : Is false p r (absD a) := by
  refine ⟨rfl, ha.prec, ?_, ha.sing⟩
  simp only [absD, arith, Bool.or_eq_true, beq_iff_eq, ha.prec]
  rintro (h | h)
  exacts [ha.rd h, ha.sing h]

theorem Is.magSq (ha : Is c p r a) : Is false p r (magSqD a) := ha.abs

theorem Is.real (ha : Is c p r a) : Is false p r (realPart a) := ⟨rfl, ha.prec, ha.rd, ha.sing⟩

theorem Is.imag (ha : Is true p r a) : Ok (Is false p r) (imagPart a) :=
  ⟨{ a with cpx := false }, by rw [imagPart, if_pos ha.cpx], rfl, ha.prec, ha.rd, ha.sing⟩

theorem Is.viewReal (ha : Is true p r a) : Ok (Is false p r) (viewAsReal a) :=
  ⟨{ a with cpx := false }, by rw [viewAsReal, if_pos ha.cpx], rfl, ha.prec, ha.rd, ha.sing⟩

theorem Is.viewCpx (ha : Is false p r a) : Ok (Is true p r) (viewAsComplex a) :=
  ⟨{ a with cpx := true }, by rw [viewAsComplex, if_neg (by simp [ha.cpx])], rfl, ha.prec, ha.rd, ha.sing⟩

theorem Is.clamp (ha : Is false p r a) : Ok (Is false p r) (clampD a) :=
  ⟨a, by rw [clampD, if_neg (by simp [ha.cpx])], ha⟩

theorem Is.mm (ha : Is c p r a) (hb : Is c p r b) : Ok (Is c p r) (mm a b) := by
  refine ⟨arith a.cpx a.prec (a.rounded || b.rounded), by rw [DT.mm, if_pos ⟨ha.cpx.trans hb.cpx.symm, ha.prec.trans hb.prec.symm⟩],
    ha.cpx, ha.prec, ?_, ha.sing⟩
  simp only [arith, Bool.or_eq_true, beq_iff_eq, ha.prec]
  rintro ((h | h) | h)
  exacts [ha.rd h, hb.rd h, ha.sing h]

theorem Is.solve (ha : Is c p r a) (hb : Is c p r b) : Ok (Is c p r) (solveD a b) := ha.mm hb

theorem Is.cat (ha : Is c p r a) (hb : Is c p r b) : Is c p r (cat a b) := by
  refine ⟨by simp [DT.cat, ha.cpx, hb.cpx], by simp [DT.cat, ha.prec, hb.prec], ?_, ha.sing⟩
  simp only [DT.cat, Bool.or_eq_true]
  rintro (h | h)
  exacts [ha.rd h, hb.rd h]

theorem Is.assign (ha : Is c p r a) (hb : b.rounded = true → r = true) : Is c p r (assign a b) := by
  refine ⟨ha.cpx, ha.prec, ?_, ha.sing⟩
  simp only [DT.assign, Bool.or_eq_true, Bool.and_eq_true, beq_iff_eq, ha.prec]
  rintro ((h | h) | h)
  exacts [ha.rd h, hb h, ha.sing h.1]

theorem Is.eye (ha : Is c p r a) (dflt : Prec) : Is c p r (typeAs (alloc dflt) a) := by
  refine ⟨ha.cpx, ha.prec, ?_, ha.sing⟩
  simp only [typeAs, alloc, Bool.or_eq_true, Bool.and_eq_true, beq_iff_eq, ha.prec]
  rintro (h | h)
  exacts [absurd h (by simp), ha.sing h.1]

theorem Is.new (ha : Is c p r a) : Is c p r (newLike a) :=
  ⟨ha.cpx, ha.prec, fun h => absurd h (by simp [newLike]), ha.sing⟩

theorem Is.eigh (ha : Is c p r a) : Is false p r (eighD a).1 ∧ Is c p r (eighD a).2 := ⟨ha.abs, ha.scal⟩

theorem Is.divide (ha : Is c p r a) (hb : Is false p r b) : Ok (Is c p r) (divideD a b) :=
  Ok.bind hb.clamp fun _ hd => Ok.pure' (ha.mulr hd.re)

/-- `multiply` of a real and another tensor. -/
theorem Is.multiply (ha : Is false p r a) (hb : Is c p r b) : Ok (Is c p r) (multiplyD a b) := by
  cases c
  · rw [multiplyD, if_neg (by simp [ha.cpx]), if_pos (by simp [ha.cpx, hb.cpx])]
    exact Ok.pure (ha.mulc hb)
  · rw [multiplyD, if_neg (by simp [ha.cpx]), if_neg (by simp [hb.cpx])]
    simp only [ha.cpx, Bool.false_eq_true, if_false]
    exact Ok.bind hb.viewReal fun v hv => (hv.mulr ha.re).viewCpx

theorem Is.bmm (ha : Is true p r a) (hb : Is true p r b) : Ok (Is true p r) (bmmD a b) :=
  Ok.bind ha.viewReal fun _ h1 => Ok.bind hb.viewReal fun _ h2 => Ok.bind (h1.mm h2) fun _ h3 =>
    Ok.bind (h1.mm h2) fun _ h4 => ((h3.mulc h4).cat (h3.mulc h4)).viewCpx

theorem Is.solveLoaded (dflt : Prec) (ha : Is c p r a) (hb : Is c p r b) : Ok (Is c p r) (solveLoadedD dflt a b) :=
  Ok.bind ha.abs.scal.clamp fun _ hl => (ha.mulc (hl.re.mull (ha.eye dflt))).solve hb

theorem Is.solveLoadedGeneral (dflt : Prec) (ha : Is c p r a) (hb : Is c p r b) :
    Ok (Is c p r) (solveLoadedGeneralD dflt a b) :=
  Ok.bind ha.abs.clamp fun _ hn =>
    Ok.bind ((ha.mulr hn.scal.re).mm (ha.mulr hn.scal.re)) fun _ hA =>
      Ok.bind ((ha.mulr hn.scal.re).mm (hb.mulr hn.scal.re)) fun _ hb =>
        (hA.mulc (ha.eye dflt).scal).solve hb

theorem Is.invLoaded (dflt : Prec) (ha : Is c p r a) : Ok (Is c p r) (invLoadedD dflt a) :=
  Ok.bind ha.abs.scal.clamp fun _ hl => Ok.pure' (ha.mulc (hl.re.mull (ha.eye dflt))).scal

theorem Is.inv2x2 (ha : Is c p r a) : Is c p r (inv2x2D a) :=
  have hd := (ha.mulc ha).mulc (ha.mulc ha)
  (ha.cat ha.scal).mulc (hd.new.scal.cat hd)

/-! ## Eigenvalues -/

theorem mul_rd {q : Prec} (ha : Is c q r a) {c' : Bool} (hb : Is c' p r b) :
    (mul a b).rounded = true → r = true := by
  simp only [mul, arith, Bool.or_eq_true, beq_iff_eq, ha.prec, hb.prec]
  rintro ((h | h) | h)
  · exact ha.rd h
  · exact hb.rd h
  · refine hb.sing ?_
    cases p
    · rfl
    · cases q <;> simp [Prec.max] at h

theorem Is.mulMax {q : Prec} (ha : Is c q r a) {c' : Bool} (hb : Is c' p r b) :
    Is (c || c') (q.max p) r (mul a b) := by
  refine ⟨by simp [mul, arith, ha.cpx, hb.cpx], by simp [mul, arith, ha.prec, hb.prec], mul_rd ha hb, fun h => ?_⟩
  refine hb.sing ?_
  cases p
  · rfl
  · cases q <;> simp [Prec.max] at h

theorem Is.multiplyMax {q : Prec} (ha : Is false q r a) (hb : Is c p r b) :
    Ok (Is c (q.max p) r) (multiplyD a b) := by
  cases c
  · rw [multiplyD, if_neg (by simp [ha.cpx]), if_pos (by simp [ha.cpx, hb.cpx])]
    exact Ok.pure (ha.mulMax hb)
  · rw [multiplyD, if_neg (by simp [ha.cpx]), if_neg (by simp [hb.cpx])]
    simp only [ha.cpx, Bool.false_eq_true, if_false]
    exact Ok.bind hb.viewReal fun v hv => (mul_comm v a ▸ ha.mulMax hv : Is false (q.max p) r (mul v a)).viewCpx

/-- The generalised 2x2 routine: eigenvectors of the dtype of the matrices; nothing is rounded when the default precision
is double. -/
theorem Is.eigh2x2Gen (dflt : Prec) (hd : dflt = .double ∨ r = true) (ha : Is c p r a) (hb : Is c p r b) :
    Ok (fun e => Is false (dflt.max p) r e.1 ∧ Is c p r e.2) (eigh2x2GenD dflt a b) := by
  have hre : Ok (Is false p r) (if a.cpx && b.cpx then do
      let ia ← imagPart a
      let ib ← imagPart b
      pure (mul (mul (realPart a) (realPart b)) (mul ia ib))
    else pure (mul (realPart a) (realPart b)) : Except Err TD) := by
    cases c
    · rw [if_neg (by simp [ha.cpx])]
      exact Ok.pure' (ha.real.mulc hb.real)
    · rw [if_pos (by simp [ha.cpx, hb.cpx])]
      exact Ok.bind ha.imag fun _ h1 => Ok.bind hb.imag fun _ h2 =>
        Ok.pure' ((ha.real.mulc hb.real).mulc (h1.mulc h2))
  have hab := ha.real.mulc hb.real
  have hdA := (ha.real.mulc ha.real).mulc ha.magSq
  have hdB := (hb.real.mulc hb.real).mulc hb.magSq
  refine Ok.bind hre fun re hre => ?_
  have hbb := (hab.mulc hab).mulc hre.scal
  refine Ok.bind (hbb.scal.mulc (hdA.mulc hdB).scal).clamp fun delta hdelta => ?_
  have hs := (hbb.mulc hdelta.scal).scal
  have h0 : ∀ t : TD, t.cpx = false → t.prec = dflt → (t.rounded = true → r = true) →
      Is false dflt r (DT.assign t (DT.scal (mul (mul (mul (mul (realPart a) (realPart b)) (mul (realPart a) (realPart b)))
        (DT.scal re)) (DT.scal delta)))) := by
    intro t h1 h2 h3
    refine ⟨h1, h2, ?_, fun h => hd.resolve_left (by simp [h])⟩
    simp only [DT.assign, Bool.or_eq_true, Bool.and_eq_true, beq_iff_eq, h2]
    rintro ((h | h) | h)
    exacts [h3 h, hs.rd h, hd.resolve_left (by simp [h.1])]
  have hev1 := h0 (alloc dflt) rfl rfl (fun h => absurd h (by simp [alloc]))
  have hev2 := h0 _ hev1.cpx hev1.prec hev1.rd
  refine Ok.bind hdB.clamp fun detB hdetB => ?_
  have hev := hev2.mulMax hdetB
  refine Ok.bind (hev.multiplyMax hb) fun m hm => ?_
  have hv1 := ha.new.assign (b := mul m a) (mul_rd hm ha)
  have hv2 := hv1.assign (b := mul a _) (mul_rd ha (hev.mulMax hb))
  have hv3 := hv2.assign (b := mul m a) (mul_rd hm ha)
  have hv4 := hv3.assign (b := mul a _) (mul_rd ha (hev.mulMax hb))
  refine Ok.bind (hv4.divide hv4.magSq.scal.scal) fun vec hvec => ?_
  exact Ok.pure' ⟨hev, hvec⟩

/-- The plain 2x2 routine. -/
theorem Is.eigh2x2Plain (ha : Is c p r a) :
    Ok (fun e => Is false p r e.1 ∧ Is c p r e.2) (eigh2x2PlainD a) := by
  have ht := ha.real.mulc ha.real
  refine Ok.bind (ht.scal.mulc (ht.mulc ha.magSq).scal).clamp fun delta hdelta => ?_
  have hs := (ht.mulc hdelta.scal).scal
  have hev := (hdelta.new.assign hs.rd).assign hs.rd
  have hv := (((ha.new.assign ha.rd).assign (hev.re.mull ha).rd).assign (hev.re.mull ha).rd).assign ha.rd
  refine Ok.bind (hv.divide hv.magSq.scal.scal) fun vec hvec => ?_
  exact Ok.pure' ⟨hev, hvec⟩

/-- `eigh` with one matrix. -/
theorem Is.eighOne (dflt : Prec) (two : Bool) (ha : Is c p r a) :
    Ok (fun e => Is false p r e.1 ∧ Is c p r e.2) (eighTD dflt two a none) := by
  cases two
  · exact Ok.pure ha.eigh
  · exact ha.eigh2x2Plain

/-- `eigh` with two matrices: eigenvectors. -/
theorem Is.eighTwo (dflt : Prec) (two : Bool) (hd : two = true → dflt = .double ∨ r = true) (ha : Is c p r a)
    (hb : Is c p r b) : Ok (fun e => Is c p r e.2) (eighTD dflt two a (some b)) := by
  cases two
  · refine Ok.bind hb.eigh.1.clamp fun bval hbval => ?_
    refine Ok.bind (hb.eigh.2.mm (hbval.scal.scal.re.mull hb.eigh.2)) fun bsi hbsi => ?_
    refine Ok.bind (hbsi.mm ha) fun l hl => ?_
    refine Ok.bind (hl.mm hbsi) fun l hl => ?_
    refine Ok.bind (hbsi.mm hl.eigh.2) fun vec hvec => ?_
    exact Ok.bind hvec.abs.clamp fun n hn => Ok.pure' (hvec.mulr hn.re)
  · exact (Is.eigh2x2Gen dflt (hd rfl) ha hb).mono fun e h => h.2

/-! ## Source models -/

/-- What the proofs use of a source model. -/
structure Good (M : SrcModel) (c : Bool) (p : Prec) (r : Bool) where
  Inv : M.σ → Prop
  reset : Inv M.reset
  step : ∀ s X, Inv s → Is c p r X → Ok (fun o => Re p r o.1 ∧ Inv o.2) (M.step s X)

/-- From the specification of models. -/
def Good.of {M : SrcModel} {p : Prec} {exact : Bool} (h : WeightModel M p exact) (c : Bool) (hs : p = .single → exact = false) :
    Good M c p (!exact) where
  Inv := Reachable M p exact
  reset := .reset
  step s X hI hX := by
    have hr : exact = true → X.rounded = false := fun he => by
      rcases hr : X.rounded with _ | _
      · rfl
      · exact absurd (hX.rd hr) (by simp [he])
    obtain ⟨w, s', e, h1, h2, h3⟩ := h s X hI hX.prec hr
    refine ⟨_, e, ⟨h1, h2, fun hw => ?_, fun hp => by simp [hs hp]⟩, .step hI hX.prec hr e⟩
    cases exact
    · rfl
    · exact absurd (h3 rfl) (by rw [show w.rounded = true from hw]; simp)

theorem laplace_step (hX : Is c p r a) : Ok (fun o => Is false p r o.1) (laplaceD.step () a) := by
  refine Ok.bind (P := Is false p r) ?_ fun q hq => Ok.bind hq.scal.scal.scal.clamp fun d h => Ok.pure' (v := (DT.scal d, ())) h.scal
  cases c
  · rw [if_neg (by simp [hX.cpx])]
    exact Ok.pure' hX.scal
  · rw [if_pos hX.cpx]
    exact Ok.bind hX.imag fun _ h => Ok.pure' (hX.real.scal.mulc h.scal)

theorem gauss_step (hX : Is c p r a) : Ok (fun o => Is false p r o.1) (gaussD.step () a) := by
  refine Ok.bind (P := Is false p r) ?_ fun q hq => Ok.bind hq.scal.clamp fun d h => Ok.pure' (v := (DT.scal d, ())) h.scal
  cases c
  · rw [if_neg (by simp [hX.cpx])]
    exact Ok.pure' hX.scal
  · rw [if_pos hX.cpx]
    exact Ok.bind hX.imag fun _ h => Ok.pure' (hX.real.scal.mulc h.scal)

/-- The states of an NMF model between calls with precision `p`. -/
def NmfInv (p : Prec) (r : Bool) (s : Option (TD × TD × TD)) : Prop :=
  ∀ t ∈ s, Is false p r t.1 ∧ Is false p r t.2.1 ∧ Is false p r t.2.2

theorem nmf_estimate (ha : Is false p r a) (hb : Is false p r b) : Ok (Is false p r) (nmfEstimateD a b) :=
  Ok.bind (ha.mm hb) fun _ h => Ok.bind h.clamp fun _ h => Ok.pure' h.scal

theorem nmf_step_some {s : Option (TD × TD × TD)} (hs : NmfInv p r s) (hX : Is c p r a) :
    Ok (fun o : TD × Option (TD × TD × TD) => (Is false p r o.1 ∧ NmfInv p r o.2) ∧ ∃ t, o.2 = some t)
      (nmfD.step s a) := by
  have hP := hX.magSq
  have hinit : Ok (fun t => Is false p r t.1 ∧ Is false p r t.2.1 ∧ Is false p r t.2.2) (nmfInitD s (magSqD a)) := by
    cases s with
    | some t => exact Ok.pure (hs t rfl)
    | none =>
      exact Ok.bind (nmf_estimate hP.new.scal hP.new.scal) fun _ h => Ok.pure' ⟨hP.new.scal, hP.new.scal, h⟩
  refine Ok.bind hinit fun t ht => ?_
  obtain ⟨hT, hV, hR⟩ := ht
  refine Ok.bind ((hP.mulc hR.scal).mm hV) fun num hnum => ?_
  refine Ok.bind (hR.mm hV) fun den hden => ?_
  refine Ok.bind (hT.mulc (hnum.mulc hden).scal).clamp fun T hT => ?_
  refine Ok.bind (nmf_estimate hT hV) fun iR hR => ?_
  refine Ok.bind ((hP.mulc hR.scal).mm hT) fun num hnum => ?_
  refine Ok.bind (hR.mm hT) fun den hden => ?_
  refine Ok.bind (hV.mulc (hnum.mulc hden).scal).clamp fun V hV => ?_
  refine Ok.bind (nmf_estimate hT hV) fun iR hR => ?_
  refine Ok.pure' ⟨⟨hR, ?_⟩, _, rfl⟩
  rintro t ht
  rw [Option.mem_def, Option.some.injEq] at ht
  subst ht
  exact ⟨hT, hV, hR⟩

theorem nmf_step {s : Option (TD × TD × TD)} (hs : NmfInv p r s) (hX : Is c p r a) :
    Ok (fun o => Is false p r o.1 ∧ NmfInv p r o.2) (nmfD.step s a) :=
  (nmf_step_some hs hX).mono fun _ h => h.1

/-- An arbitrary tensor of precision `p`, unrounded when `exact`. -/
theorem is_of {exact : Bool} {X : TD} (hp : X.prec = p) (he : exact = true → X.rounded = false)
    (hs : p = .single → exact = false) : Is X.cpx p (!exact) X := by
  refine ⟨rfl, hp, fun hr => ?_, fun h => by simp [hs h]⟩
  cases exact
  · rfl
  · exact absurd (he rfl) (by simp [hr])

theorem weights_of_is {exact : Bool} {w : TD} (h : Is false p (!exact) w) :
    w.cpx = false ∧ (w.prec = p ∨ w.prec = .single) ∧ (exact = true → w.rounded = false) := by
  refine ⟨h.cpx, .inl h.prec, fun he => ?_⟩
  rcases hr : w.rounded with _ | _
  · rfl
  · exact absurd (h.rd hr) (by simp [he])

theorem nmf_reachable {exact : Bool} (hs : p = .single → exact = false) {s : nmfD.σ} (h : Reachable nmfD p exact s) :
    NmfInv p (!exact) s := by
  induction h with
  | reset => exact fun _ h => absurd h (by simp [nmfD])
  | step hr hp he e ih =>
    obtain ⟨o, eo, ho⟩ := nmf_step ih (is_of hp he hs)
    rw [eo, Except.ok.injEq] at e
    subst e
    exact ho.2

/-! ## T-ISS -/

theorem Is.demixDerev {X Xb W H : TD} (hX : Is c p r X) (hXb : Is c p r Xb) (hW : Is c p r W) (hH : Is c p r H) :
    Ok (Is c p r) (demixDerevD X Xb W H) :=
  Ok.bind (hH.mm hXb) fun _ h1 => Ok.bind (hW.mm hX) fun _ h2 => Ok.pure' (h2.mulc h1)

/-- Property of an optional tensor. -/
def IsOpt (c : Bool) (p : Prec) (r : Bool) (o : Option TD) : Prop := ∀ t ∈ o, Is c p r t

theorem IsOpt.some {t : TD} (h : Is c p r t) : IsOpt c p r (some t) := by
  intro u hu
  rw [Option.mem_def, Option.some.injEq] at hu
  exact hu ▸ h

theorem IsOpt.none : IsOpt c p r none := fun _ h => absurd h (by simp)

theorem Is.demixBackground {X : TD} {J : Option TD} (hX : Is c p r X) (hJ : IsOpt c p r J) :
    Ok (IsOpt c p r) (demixBackgroundD X J) := by
  cases J with
  | none => exact Ok.pure IsOpt.none
  | some J => exact Ok.bind ((hJ J rfl).mm hX) fun _ h => Ok.pure' (IsOpt.some (h.mulc hX))

theorem Is.issUpdate1 {X w : TD} (hX : Is c p r X) (hw : Is false p r w) : Ok (Is c p r) (issUpdate1D X w) := by
  refine Ok.bind ((hw.re.mull hX).mm hX) fun num hnum => ?_
  refine Ok.bind (hw.mm hX.magSq) fun den hden => ?_
  refine Ok.bind (hnum.scal.divide hden.scal) fun v hv => ?_
  exact Ok.bind hden.scal.clamp fun e he => Ok.pure' (hv.assign he.scal.scal.scal.rd)

theorem Is.issUpdate23 {X Z w : TD} (hX : Is c p r X) (hZ : Is c p r Z) (hw : Is false p r w) :
    Ok (Is c p r) (issUpdate23D X Z w) :=
  Ok.bind ((hw.re.mull hX).mm hZ) fun _ hnum => Ok.bind (hw.mm hZ.magSq) fun _ hden => hnum.divide hden

/-- Three tensors of one dtype. -/
def Is3 (c : Bool) (p : Prec) (r : Bool) (s : TD × TD × TD) : Prop := Is c p r s.1 ∧ Is c p r s.2.1 ∧ Is c p r s.2.2

theorem Is.issUpdates {nSrc nBak nTaps : ℕ} {X Xb W H w : TD} {J Z : Option TD} (hX : Is c p r X) (hXb : Is c p r Xb)
    (hW : Is c p r W) (hH : Is c p r H) (hw : Is false p r w) (hJ : IsOpt c p r J) (hZ : IsOpt c p r Z) :
    Ok (Is3 c p r) (issUpdatesD nSrc nBak nTaps X Xb W H w J Z) := by
  refine Ok.bind (P := Is3 c p r) (Ok.loop (fun s hs => ?_) nSrc _ ⟨hX, hW, hH⟩) fun s hs => ?_
  · exact Ok.bind (hs.1.issUpdate1 hw) fun v hv =>
      Ok.pure' ⟨hs.1.mulc (hv.mulc hs.1), hs.2.1.mulc (hv.mulc hs.2.1), hs.2.2.mulc (hv.mulc hs.2.2)⟩
  · refine Ok.bind (P := Is3 c p r) ?_ fun s hs => ?_
    · cases Z with
      | none => exact Ok.pure hs
      | some Z =>
        cases J with
        | none => exact Ok.pure hs
        | some J =>
          refine Ok.loop (fun s hs => ?_) nBak _ hs
          refine Ok.bind (hs.1.issUpdate23 (hZ Z rfl) hw) fun v hv => ?_
          have h1 := hs.2.1.assign (hs.2.1.mulc (hv.mulc (hJ J rfl))).rd
          exact Ok.pure' ⟨hs.1.mulc (hv.mulc (hZ Z rfl)), h1.assign (h1.mulc hv).rd, hs.2.2⟩
    · refine Ok.loop (fun s hs => ?_) _ _ hs
      refine Ok.loop (fun s hs => ?_) _ _ hs
      exact Ok.bind (hs.1.issUpdate23 hXb hw) fun v hv =>
        Ok.pure' ⟨hs.1.mulc (hv.mulc hXb), hs.2.1, hs.2.2.assign (hs.2.2.mulc hv).rd⟩

theorem Is.backgroundUpdate (dflt : Prec) {W H C1 C2 : TD} (hW : Is c p r W) (hH : Is c p r H) (h1 : Is c p r C1)
    (h2 : Is c p r C2) : Ok (Is c p r) (backgroundUpdateD dflt W H C1 C2) := by
  refine Ok.bind (hW.mm h1) fun A1 hA1 => Ok.bind (hH.mm h2) fun A2 hA2 => ?_
  have hA := hA1.mulc hA2
  refine Ok.bind hA.abs.clamp fun n hn => ?_
  have hm := hA.mulr hn.scal.re
  exact Ok.bind (hm.mm hm) fun _ h3 => Ok.bind (hm.mm hm) fun _ h4 => (h3.mulc (hA.eye dflt).scal).solve h4

/-- State of T-ISS. -/
def TissInv (c : Bool) (p : Prec) (r : Bool) {M : SrcModel} (hM : Good M c p r)
    (s : (TD × TD × TD × Option TD) × M.σ) : Prop :=
  Is c p r s.1.1 ∧ Is c p r s.1.2.1 ∧ Is c p r s.1.2.2.1 ∧ IsOpt c p r s.1.2.2.2 ∧ hM.Inv s.2

theorem tissIter_ok (dflt : Prec) {M : SrcModel} (hM : Good M c p r) {nSrc nBak nTaps : ℕ} {d : TissData}
    (hX : Is c p r d.X) (hXb : Is c p r d.Xbar) (hc : ∀ t ∈ d.cov, Is c p r t.1 ∧ Is c p r t.2)
    {s : (TD × TD × TD × Option TD) × M.σ} (hs : TissInv c p r hM s) :
    Ok (TissInv c p r hM) (tissIterD dflt M nSrc nBak nTaps d s) := by
  obtain ⟨hY, hW, hH, hJ, hI⟩ := hs
  refine Ok.bind (hM.step _ _ hI hY) fun o ho => ?_
  refine Ok.bind hY.magSq.scal.clamp fun g hg => ?_
  refine Ok.bind (hY.divide hg.scal) fun Y hY => ?_
  refine Ok.bind (hW.divide hg.scal) fun W hW => ?_
  refine Ok.bind (hH.divide hg.scal) fun H hH => ?_
  have hw := ho.1.mull hg
  refine Ok.bind (P := IsOpt c p r) ?_ fun J hJ => ?_
  · rcases hcv : d.cov with _ | t
    · rcases hj : s.1.2.2.2 with _ | j
      · exact Ok.pure' IsOpt.none
      · exact Ok.pure' (IsOpt.some (hJ j hj))
    · rcases hj : s.1.2.2.2 with _ | j
      · exact Ok.pure' IsOpt.none
      · have h := hc t hcv
        exact Ok.bind (Is.backgroundUpdate dflt hW hH h.1 h.2) fun _ h => Ok.pure' (IsOpt.some h)
  · refine Ok.bind (hX.demixBackground hJ) fun Z hZ => ?_
    exact Ok.bind (Is.issUpdates hY hXb hW hH hw hJ hZ) fun u hu => Ok.pure' ⟨hu.1, hu.2.1, hu.2.2, hJ, ho.2⟩

theorem projBackWeights_ok (dflt : Prec) {W : TD} {J : Option TD} (low : Bool) (hW : Is c p r W) (hJ : IsOpt c p r J) :
    Ok (Is c p r) (projBackWeightsD dflt W J low) := by
  cases J with
  | none => exact Is.solveLoadedGeneral dflt hW (hW.eye dflt)
  | some J =>
    refine Ok.bind (hW.mm (hJ J rfl)) fun B hB => ?_
    cases low
    · exact Is.solveLoadedGeneral dflt (hB.mulc hW) (hJ J rfl)
    · exact Is.solveLoadedGeneral dflt (hB.mulc hW) (hW.eye dflt)

theorem tiss_ok (dflt : Prec) {M : SrcModel} (hM : Good M c p r) (nIter nSrc nBak nTaps : ℕ) (useDmc : Bool)
    (projBack : Option Bool) {X : TD} (hX : Is c p r X) :
    Ok (Is c p r) (tissForwardD dflt M nIter nSrc nBak nTaps useDmc projBack X) := by
  refine Ok.bind (P := fun o => ∀ t ∈ o, Is c p r t.1 ∧ Is c p r t.2) ?_ fun cov hcov => ?_
  · split_ifs
    · refine Ok.bind (hX.mm hX) fun _ h1 => Ok.bind (hX.mm hX) fun _ h2 => Ok.pure' fun t ht => ?_
      rw [Option.mem_def, Option.some.injEq] at ht
      subst ht
      exact ⟨h1.scal, h2.scal⟩
    · exact Ok.pure' fun t ht => absurd ht (by simp)
  have hW := hX.new.assign (hX.new.eye dflt).rd
  have hH := hX.new
  refine Ok.bind (P := IsOpt c p r) ?_ fun J hJ => ?_
  · cases cov with
    | none => exact Ok.pure' IsOpt.none
    | some t =>
      have h := hcov t rfl
      exact Ok.bind (Is.backgroundUpdate dflt hW hH h.1 h.2) fun _ h => Ok.pure' (IsOpt.some h)
  refine Ok.bind (Is.demixDerev hX hX hW hH) fun Y hY => ?_
  have hdm : ∀ s : (TD × TD × TD × Option TD) × M.σ, TissInv c p r hM s →
      Ok (Is c p r) (if useDmc then demixDerevD X X s.1.2.1 s.1.2.2.1 else pure s.1.1) := by
    intro s hs
    cases useDmc
    · exact Ok.pure' hs.1
    · exact Is.demixDerev hX hX hs.2.1 hs.2.2.1
  refine Ok.bind (P := TissInv c p r hM) (Ok.loop (fun s hs => ?_) nIter _ ⟨hY, hW, hH, hJ, hM.reset⟩) fun s hs => ?_
  · exact Ok.bind (hdm s hs) fun Y hY => tissIter_ok dflt hM hX hX hcov ⟨hY, hs.2.1, hs.2.2.1, hs.2.2.2.1, hs.2.2.2.2⟩
  refine Ok.bind (hdm s hs) fun Y hY => ?_
  cases projBack with
  | none => exact Ok.pure' hY
  | some low =>
    simp only
    split_ifs
    · exact Ok.bind (projBackWeights_ok dflt low hs.2.1 hs.2.2.2.1) fun a ha => Ok.pure' (ha.mulc hY)
    · exact Ok.pure' hY

/-! ## AuxIVA-IP -/

theorem orthogonalConstraint_ok (dflt : Prec) (over : Bool) {W C : TD} (hW : Is c p r W) (hC : Is c p r C) :
    Ok (IsOpt c p r) (orthogonalConstraintD dflt over W C) := by
  cases over
  · exact Ok.pure IsOpt.none
  · exact Ok.bind (hW.mm hC) fun A hA => Ok.bind (Is.solveLoadedGeneral dflt hA hA) fun _ h => Ok.pure' (IsOpt.some h)

theorem projBackIp_ok (dflt : Prec) {Y W : TD} {J : Option TD} (low : Bool) (hY : Is c p r Y) (hW : Is c p r W)
    (hJ : IsOpt c p r J) : Ok (Is c p r) (projBackIpD dflt Y W J low) := by
  cases J with
  | none => exact Ok.bind (Is.solveLoadedGeneral dflt hW (hW.eye dflt)) fun _ h => Ok.pure' (hY.mulc h)
  | some J =>
    refine Ok.bind (hW.mm (hJ J rfl)) fun B hB => ?_
    refine Ok.bind (P := Is c p r) ?_ fun a ha => Ok.pure' (hY.mulc ha)
    cases low
    · exact Is.solveLoadedGeneral dflt (hW.mulc hB) (hJ J rfl)
    · exact Is.solveLoadedGeneral dflt (hW.mulc hB) (hW.eye dflt)

theorem ipSource_ok (dflt : Prec) (over : Bool) {X C w : TD} (hX : Is c p r X) (hC : Is c p r C) (hw : Is false p r w)
    {s : TD × Option TD} (hs : Is c p r s.1) :
    Ok (fun s => Is c p r s.1 ∧ IsOpt c p r s.2) (ipSourceD dflt over X C w s) := by
  refine Ok.bind (orthogonalConstraint_ok dflt over hs hC) fun J hJ => ?_
  refine Ok.bind ((hX.mulr hw.re).mm hX) fun V hV => ?_
  refine Ok.bind (P := Is c p r) ?_ fun WV hWV => ?_
  · cases J with
    | none => exact hs.mm hV
    | some J =>
      exact Ok.bind (hs.mm hV) fun _ h1 => Ok.bind ((hJ J rfl).mm hV) fun _ h2 => Ok.pure' (h1.cat (h2.mulc hV))
  refine Ok.bind (Is.solveLoadedGeneral dflt hWV (hs.eye dflt)) fun n hn => ?_
  refine Ok.bind ((hn.mulc hn).mm hV) fun sc hsc => ?_
  refine Ok.bind hsc.real.clamp fun sc hsc => ?_
  exact Ok.pure' ⟨(hs.cat (hn.mulr hsc.scal.re)).cat hs, hJ⟩

theorem ip_ok (dflt : Prec) {M : SrcModel} (hM : Good M c p r) (nIter nSrc : ℕ) (over : Bool)
    (projBack : Option Bool) {X : TD} (hX : Is c p r X) :
    Ok (Is c p r) (ipForwardD dflt M nIter nSrc over projBack X) := by
  have hW := hX.new.assign (b := alloc dflt) (fun h => absurd h (by simp [alloc]))
  refine Ok.bind (hX.mm hX) fun C hC => ?_
  refine Ok.bind (orthogonalConstraint_ok dflt over hW hC.scal) fun J hJ => ?_
  refine Ok.bind (P := fun s : (TD × TD × Option TD) × M.σ => Is c p r s.1.1 ∧ Is c p r s.1.2.1 ∧
    IsOpt c p r s.1.2.2 ∧ hM.Inv s.2) (Ok.loop (fun s hs => ?_) nIter _ ⟨hX, hW, hJ, hM.reset⟩) fun s hs => ?_
  · refine Ok.bind (hM.step _ _ hs.2.2.2 hs.1) fun o ho => ?_
    refine Ok.bind hs.1.magSq.scal.clamp fun g hg => Ok.bind hg.scal.clamp fun gs hgs => ?_
    refine Ok.bind (P := fun s : TD × Option TD => Is c p r s.1 ∧ IsOpt c p r s.2)
      (Ok.loop (fun t ht => ipSource_ok dflt over hX hC.scal (ho.1.mull hg) ht.1) nSrc _
        ⟨hs.2.1.mulr hgs.re, hs.2.2.1⟩) fun t ht => ?_
    exact Ok.bind (ht.1.mm hX) fun Y hY => Ok.pure' ⟨hY, ht.1, ht.2, ho.2⟩
  · cases projBack with
    | none => exact Ok.pure' hs.1
    | some low => exact projBackIp_ok dflt low hs.1 hs.2.1 hs.2.2.1

/-! ## AuxIVA-IP2 -/

/-- Two optional tensors. -/
def IsOpt2 (c : Bool) (p : Prec) (r : Bool) (o : Option (TD × TD)) : Prop := ∀ t ∈ o, Is c p r t.1 ∧ Is c p r t.2

theorem ip2Update_ok (dflt : Prec) (hd : dflt = .double ∨ r = true) {X w : TD} (hX : Is c p r X) (hw : Is false p r w)
    (WA : Option (TD × TD)) :
    Ok (fun o => Is c p r o.1 ∧ IsOpt2 c p r o.2) (ip2UpdateD dflt X w WA) := by
  refine Ok.bind ((hw.re.mull hX).mm hX) fun V0 h0 => Ok.bind ((hw.re.mull hX).mm hX) fun V1 h1 => ?_
  have g0 := (h0.scal.mulc h0.scal).scal
  have g1 := (h1.scal.mulc h1.scal).scal
  refine Ok.bind (Is.eigh2x2Gen dflt hd g1 g0) fun e he => ?_
  refine Ok.bind (g0.mm he.2) fun s0 k0 => Ok.bind (he.2.mm k0) fun s0 k0 => ?_
  refine Ok.bind (g1.mm he.2) fun s1 k1 => Ok.bind (he.2.mm k1) fun s1 k1 => ?_
  refine Ok.bind (k0.abs.cat k1.abs).clamp fun sc hsc => Ok.bind hsc.scal.clamp fun sc hsc => ?_
  have hv := he.2.mulr hsc.re
  refine Ok.bind (hv.mm hX) fun Y hY => Ok.pure' ⟨hY, ?_⟩
  intro t ht
  cases WA with
  | none => simp at ht
  | some _ =>
    simp only [Option.map_some, Option.mem_def, Option.some.injEq] at ht
    subst ht
    exact ⟨hv, hv.inv2x2⟩

theorem ip2_ok (dflt : Prec) (hd : dflt = .double ∨ r = true) {M : SrcModel} (hM : Good M c p r) (nIter : ℕ)
    (projBack : Bool) {X : TD} (hX : Is c p r X) : Ok (Is c p r) (ip2ForwardD dflt M nIter projBack X) := by
  refine Ok.bind (P := fun s : (TD × Option (TD × TD)) × M.σ => Is c p r s.1.1 ∧ IsOpt2 c p r s.1.2 ∧ hM.Inv s.2)
    (Ok.loop (fun s hs => ?_) nIter _ ⟨hX, ?_, hM.reset⟩) fun s hs => ?_
  · refine Ok.bind (hM.step _ _ hs.2.2 hs.1) fun o ho => ?_
    refine Ok.bind hs.1.magSq.scal.clamp fun g hg => Ok.bind (hs.1.divide hg.scal) fun _ _ => ?_
    exact Ok.bind (ip2Update_ok dflt hd hX (ho.1.mull hg) _) fun u hu => Ok.pure' ⟨hu.1, hu.2, ho.2⟩
  · intro t ht
    cases projBack
    · simp at ht
    · simp only [if_true, Option.mem_def, Option.some.injEq] at ht
      subst ht
      have h := hX.new.assign (hX.new.eye dflt).rd
      exact ⟨h, h⟩
  · rcases hw : s.1.2 with _ | t
    · exact Ok.pure' hs.1
    · simp only
      split_ifs
      · exact Ok.pure' ((hs.2.1 t hw).2.mulc hs.1)
      · exact Ok.pure' hs.1

/-! ## WPE -/

theorem wpe_ok (dflt : Prec) {M : SrcModel} (hM : Good M c p r) (useModel : Bool) (nIter : ℕ) {s : M.σ} (hs : hM.Inv s)
    {X : TD} (hX : Is c p r X) :
    Ok (fun o => Is c p r o.1 ∧ hM.Inv o.2) (wpeForwardD dflt M useModel nIter s X) := by
  refine Ok.loop (fun t ht => ?_) nIter _ ⟨hX, hs⟩
  refine Ok.bind (P := fun o : TD × M.σ => Re p r o.1 ∧ hM.Inv o.2) ?_ fun o ho => ?_
  · cases useModel
    · refine Ok.bind (P := Is false p r) ?_ fun w hw => Ok.pure' ⟨hw.re, ht.2⟩
      exact Ok.bind ht.1.magSq.scal.clamp fun w hw => Ok.pure' (hw.scal.mulc hw.scal.scal)
    · exact hM.step _ _ ht.2 ht.1
  · refine Ok.bind (P := Is c p r) ?_ fun H hH => ?_
    · exact Ok.bind ((ho.1.mull hX).mm hX) fun _ h1 => Ok.bind ((ho.1.mull hX).mm hX) fun _ h2 =>
        Is.solveLoaded dflt h1 h2
    · refine Ok.bind (P := Is c p r) (Ok.bind (hH.mm hX) fun _ h => Ok.pure' (hX.mulc h)) fun Y hY => ?_
      exact Ok.pure' ⟨hY, ho.2⟩

/-! ## FIVE -/

theorem smallestPower_ok (dflt : Prec) (n : ℕ) {V : TD} (hV : Is c p r V) : Ok (Is c p r) (smallestPowerD dflt n V) := by
  refine Ok.bind (Is.invLoaded dflt hV) fun Vi hVi => ?_
  refine Ok.bind (P := Is c p r) (Ok.loop (fun x hx => ?_) n _ (hVi.mulr hVi.abs.re)) fun x hx => ?_
  · exact Ok.bind (hVi.mm hx) fun y hy => Ok.pure' (hy.mulr hy.abs.re)
  · exact Ok.pure' (hx.mulc hx.scal)

theorem five_ok (dflt : Prec) {M : SrcModel} (hM : Good M c p r) (nIter : ℕ) (two : Bool) (power : Option ℕ)
    (projBack : Bool) {X : TD} (hX : Is c p r X) :
    Ok (Is c p r) (fiveForwardD dflt M nIter two power projBack X) := by
  refine Ok.bind (hX.mm hX) fun C hC => ?_
  have hC' := (hC.scal.mulc hC.scal).scal
  refine Ok.bind (Is.eighOne dflt two hC') fun e he => ?_
  refine Ok.bind he.1.clamp fun es hes => ?_
  have hQ := hes.scal.scal.re.mull he.2
  have hQi := he.2.mulr hes.scal.re
  refine Ok.bind (hQ.mm hX) fun Xw hXw => ?_
  refine Ok.bind (P := Is c p r) ?_ fun Y hY => ?_
  · cases projBack
    · exact Ok.pure' hXw
    · exact Ok.bind (hQ.mm hC') fun z hz => Ok.pure' (hz.mulc hXw)
  refine Ok.bind (P := fun s : TD × M.σ => Is c p r s.1 ∧ hM.Inv s.2)
    (Ok.loop (fun s hs => ?_) nIter _ ⟨hY, hM.reset⟩) fun s hs => Ok.pure' (hs.1.new.cat hs.1)
  refine Ok.bind (hM.step _ _ hs.2 hs.1) fun o ho => ?_
  refine Ok.bind ((ho.1.mull hXw).mm hXw) fun V hV => ?_
  have hV' := (hV.mulc hV).scal
  refine Ok.bind (P := Is c p r) ?_ fun v hv => ?_
  · cases power with
    | none =>
      exact Ok.bind (P := fun e : TD × TD => Is c p r e.2)
        (Ok.bind hV'.eigh.1.clamp fun _ _ => Ok.pure' hV'.eigh.2) fun e he => Ok.pure' he
    | some n => exact smallestPower_ok dflt n hV'
  · refine Ok.bind (hQi.mm hv) fun z hz => ?_
    exact Ok.bind ((hv.mulc hz).mm hXw) fun Y hY => Ok.pure' ⟨hY, ho.2⟩

/-! ## Beamformers -/

/-- What the proofs use of a mask model. -/
def GoodMask (mask : TD → Except Err TD) (c : Bool) (p : Prec) (r : Bool) : Prop :=
  ∀ X, Is c p r X → Ok (Re p r) (mask X)

theorem GoodMask.of {mask : TD → Except Err TD} {p : Prec} {exact : Bool} (h : MaskDtypes mask p exact) (c : Bool)
    (hs : p = .single → exact = false) : GoodMask mask c p (!exact) := by
  intro X hX
  obtain ⟨w, e, h1, h2, h3⟩ := h X hX.prec fun he => by
    rcases hr : X.rounded with _ | _
    · rfl
    · exact absurd (hX.rd hr) (by simp [he])
  refine ⟨w, e, h1, h2, fun hr => ?_, fun hp => by simp [hs hp]⟩
  cases exact
  · rfl
  · exact absurd (h3 rfl) (by simp [hr])

theorem maskCov_ok {m X : TD} (hm : Re p r m) (hX : Is c p r X) : Ok (Is c p r) (maskCovD m X) := (hm.mull hX).mm hX

theorem mvdrRtf_ok (dflt : Prec) (two : Bool) (power : Option ℕ)
    (hd : two = true → power = none → dflt = .double ∨ r = true) {Rt Rn : TD} (ht : Is c p r Rt) (hn : Is c p r Rn) :
    Ok (Is c p r) (mvdrRtfD dflt two power Rt Rn) := by
  refine Ok.bind (P := Is c p r) ?_ fun v hv => Ok.bind (hn.mm hv) fun s hs => Ok.pure' (hs.mulc hs)
  cases power with
  | none => exact Ok.bind (Is.eighTwo dflt two (fun h => hd h rfl) ht hn) fun e he => Ok.pure' he
  | some n =>
    refine Ok.bind (Is.solveLoaded dflt hn ht) fun Phi hP => ?_
    exact Ok.loop (fun v hv => Ok.bind (hP.mm hv) fun y hy => Ok.pure' (hy.mulr hy.abs.re)) n _ hP

theorem mvdrBf_ok (dflt : Prec) {Rn s : TD} (hn : Is c p r Rn) (hs : Is c p r s) : Ok (Is c p r) (mvdrBfD dflt Rn s) := by
  refine Ok.bind (Is.solveLoaded dflt hn hs) fun a ha => Ok.bind (hs.mm ha) fun d hd => ?_
  exact Ok.bind hd.real.clamp fun d hd => Ok.pure' (ha.mulr hd.re)

theorem mvdr_ok (dflt : Prec) {mask : TD → Except Err TD} (hm : GoodMask mask c p r) (three scm two : Bool)
    (power : Option ℕ)
    (hd : (three = true ∨ scm = false) → two = true → power = none → dflt = .double ∨ r = true) {X : TD}
    (hX : Is c p r X) : Ok (Is c p r) (mvdrForwardD dflt mask three scm two power X) := by
  refine Ok.bind (hm X hX) fun m hm => ?_
  refine Ok.bind (maskCov_ok hm hX) fun Rt ht => Ok.bind (maskCov_ok hm hX) fun Rn hn => ?_
  refine Ok.bind (P := Is c p r) ?_ fun bf hbf => hX.mm hbf
  cases three
  · cases scm
    · exact Ok.bind (mvdrRtf_ok dflt two power (hd (.inr rfl)) ht hn) fun rtf hr => mvdrBf_ok dflt hn hr
    · exact Ok.bind (hn.solve ht) fun n hn => Ok.pure' (hn.mulc hn.scal)
  · exact Ok.bind (mvdrRtf_ok dflt two power (hd (.inl rfl)) ht hn) fun rtf hr => mvdrBf_ok dflt hn hr

theorem mwf_ok (dflt : Prec) {mask : TD → Except Err TD} (hm : GoodMask mask c p r) (ti : Bool) {X : TD}
    (hX : Is c p r X) : Ok (Is c p r) (mwfForwardD dflt mask ti X) := by
  refine Ok.bind (hm X hX) fun m hm => ?_
  refine Ok.bind (maskCov_ok hm hX) fun Rt ht => Ok.bind (maskCov_ok hm hX) fun Rn hn => ?_
  cases ti
  · exact Ok.bind (Is.solveLoaded dflt ((ht.mulr hm).mulc (hn.mulr hm)) (ht.mulr hm)) fun _ h => hX.mm h
  · exact Ok.bind (Is.solveLoaded dflt (ht.mulc hn) ht) fun _ h => hX.mm h

theorem gev_ok (dflt : Prec) {mask : TD → Except Err TD} (hm : GoodMask mask true p r) (two : Bool)
    (hd : two = true → dflt = .double ∨ r = true) {X : TD} (hX : Is true p r X) :
    Ok (Is true p r) (gevForwardD dflt mask two X) := by
  refine Ok.bind (hm X hX) fun m hm => ?_
  refine Ok.bind (maskCov_ok hm hX) fun Rt ht => Ok.bind (maskCov_ok hm hX) fun Rn hn => ?_
  refine Ok.bind (P := Is true p r) ?_ fun bf hbf => hbf.bmm hX
  refine Ok.bind (Is.eighTwo dflt two hd ht hn) fun e he => ?_
  exact Ok.bind (he.solve he.new) fun s hs => Ok.pure' (he.mulc hs)

/-! ## Scaling -/

theorem projectionBack_ok {Y ref : TD} (hY : Is c p r Y) (href : Is c p r ref) :
    Ok (Is c p r) (projectionBackD Y ref) :=
  Ok.bind ((hY.mulc hY.new.scal).solve href) fun _ h => Ok.pure' (hY.mulc h)

theorem minDistL2_ok {Y ref : TD} (hY : Is true p r Y) (href : Is true p r ref) :
    Ok (Is true p r) (minDistL2D Y ref) :=
  Ok.bind (href.mulc hY).scal.scal.viewReal fun _ hn => Ok.bind hY.magSq.scal.clamp fun _ hd =>
    Ok.bind (hn.mulc hd).viewCpx fun _ h => Ok.pure' (hY.mulc h)

theorem minDistPhase_ok {Y ref : TD} (hY : Is true p r Y) (href : Is true p r ref) :
    Ok (Is true p r) (minDistPhaseD Y ref) :=
  Ok.bind (href.mulc hY).scal.viewReal fun _ hn => Ok.bind hn.abs.clamp fun _ hd =>
    Ok.bind (hn.mulc hd).viewCpx fun _ h => Ok.pure' (hY.mulc h)

theorem minDist_ok (n : ℕ) {Y ref : TD} (hY : Is c p r Y) (href : Is c p r ref) :
    Ok (Is c p r) (minDistD n Y ref) := by
  refine Ok.bind (P := Is c p r) (Ok.loop (fun t ht => ?_) n _ hY.new) fun t ht => Ok.pure' (hY.mulc ht)
  refine Ok.bind (href.mulc (ht.mulc hY)).abs.scal.clamp fun w hw => ?_
  refine Ok.bind (hY.abs.scal.mulc hw.scal).scal.clamp fun d hd => ?_
  exact Ok.pure' (((href.mulc hY).mulr hw.scal.re).scal.mulr hd.re)

end Torchiva.DT
