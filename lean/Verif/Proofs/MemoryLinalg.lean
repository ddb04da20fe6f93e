import Verif.Proofs.MemoryAlgos
import Verif.Proofs.Tensor
import Verif.Model.MemoryLinalg

namespace Torchiva
namespace Memory

open Torchiva.Spec

variable {φ : Type} [Encodable φ]

theorem IsRecord.ne {h h' : Heap} {ids : List ℕ} (o : IsRecord h ids h') {i : ℕ} (hi : ∀ p ∈ h.saved, p.1 ≠ i)
    (hn : i ∉ ids) : ∀ p ∈ h'.saved, p.1 ≠ i := by
  intro p hp
  rcases o.saved p hp with h1 | h1
  · exact hi p h1
  · rintro rfl; exact hn h1

theorem IsSet.entry {h h' : Heap} {r : Ref (φ × Fin 2 × Fin 2)} {i j : Fin 2} {v : φ → ℂ}
    (o : IsSet h r (fun f => (f, i, j)) v h') (hp : Function.Injective r.pos) (f : φ) (i' j' : Fin 2) :
    h'.read r (f, i', j') = if i' = i ∧ j' = j then v f else h.read r (f, i', j') := by
  by_cases hij : i' = i ∧ j' = j
  · rw [if_pos hij, hij.1, hij.2]
    exact o.inside hp (fun a b e => by simpa using e) f
  · rw [if_neg hij]
    exact o.outside hp _ fun k e => hij (by simp only [Prod.mk.injEq] at e; exact ⟨e.2.1.symm, e.2.2.symm⟩)

theorem IsSet.entry1 {h h' : Heap} {r : Ref (φ × Fin 2)} {i : Fin 2} {v : φ → ℂ}
    (o : IsSet h r (fun f => (f, i)) v h') (hp : Function.Injective r.pos) (f : φ) (i' : Fin 2) :
    h'.read r (f, i') = if i' = i then v f else h.read r (f, i') := by
  by_cases hij : i' = i
  · rw [if_pos hij, hij]
    exact o.inside hp (fun a b e => by simpa using e) f
  · rw [if_neg hij]
    exact o.outside hp _ fun k e => hij (by simp only [Prod.mk.injEq] at e; exact e.2.symm)

theorem seqAll_if {α : Type} {e : Err} (P : φ → Prop) (g : φ → α) [∀ f, Decidable (P f)] [Decidable (∃ f, P f)] :
    (seqAll fun f => if P f then .error e else .ok (g f)) = if ∃ f, P f then .error e else .ok g := by
  by_cases hP : ∃ f, P f
  · rw [if_pos hP]
    obtain ⟨f, hf⟩ := hP
    refine seqAll_error' (fun f => ?_) f (by rw [if_pos hf])
    by_cases h : P f
    · right; rw [if_pos h]
    · left; exact ⟨_, by rw [if_neg h]⟩
  · rw [if_neg hP]
    exact seqAll_ok_iff.2 fun f => by rw [if_neg fun h => hP ⟨f, h⟩]

/-- What `eigh_2x2` hands out. -/
structure EigRel (h0 : Heap) (o : Ref (φ × Fin 2) × Ref (φ × Fin 2 × Fin 2)) (h : Heap) (r : φ → EigRes (Fin 2)) :
    Prop where
  vin : o.1.id < h.next
  win : o.2.id < h.next
  vnew : h0.next ≤ o.1.id
  wnew : h0.next ≤ o.2.id
  ne : o.1.id ≠ o.2.id
  val : ∀ f i, h.read o.1 (f, i) = ((r f).val i : ℂ)
  vec : ∀ f i j, h.read o.2 (f, i, j) = (r f).vec i j

theorem normalizeMem_spec {h0 h : Heap} {ev : Ref (φ × Fin 2)} {vec : Ref (φ × Fin 2 × Fin 2)} (u : Untouched h0 h)
    (hb : BackwardRuns h) (hev : ev.id < h.next) (hvec : vec.id < h.next) (enew : h0.next ≤ ev.id) (eps : ℝ)
    {vals : φ → Fin 2 → ℝ} {V : φ → Matrix (Fin 2) (Fin 2) ℂ} (hvals : ∀ f i, h.read ev (f, i) = (vals f i : ℂ))
    (hV : ∀ f i j, h.read vec (f, i, j) = V f i j) :
    Sim h0 (EigRel h0) (normalizeMem ev vec eps h) (seqAll fun f => normalizeCols (vals f) (V f) eps) := by
  classical
  have e : (seqAll fun f => normalizeCols (vals f) (V f) eps) =
      if ∃ f, clampMin (√(∑ i, magSq (V f i 0))) eps = 0 ∨ clampMin (√(∑ i, magSq (V f i 1))) eps = 0 then
        .error .nonFinite else .ok fun f => ⟨vals f, fun i j => divide (V f i j) (√(∑ i, magSq (V f i j))) eps⟩ := by
    rw [← seqAll_if]
    congr 1
  rw [e]
  unfold normalizeMem
  refine Sim.read (Sim.out fun norm h1 o1 => Sim.record fun h2 r2 => Sim.readR ?_)
  have i1 := o1.id
  have n1 := o1.next
  have n2 := r2.next
  have := u.alive
  have b1 := o1.back hb (by simp; omega)
  have b2 := r2.back b1 (by simp; omega)
  have u2 := u.trans (o1.un.trans r2.un)
  have nv : ∀ i, h2.readR norm i = √(∑ k, magSq (V i.1 k i.2)) := by
    rintro ⟨f, i⟩
    simp only [Heap.readR]
    rw [r2.read, o1.val]
    simp [hV]
  simp only [nv]
  have ec : (∃ i : φ × Fin 2, clampMin (√(∑ k, magSq (V i.1 k i.2))) eps = 0) ↔
      ∃ f, clampMin (√(∑ i, magSq (V f i 0))) eps = 0 ∨ clampMin (√(∑ i, magSq (V f i 1))) eps = 0 := by
    constructor
    · rintro ⟨⟨f, i⟩, hi⟩
      refine ⟨f, ?_⟩
      fin_cases i
      · exact .inl hi
      · exact .inr hi
    · rintro ⟨f, hf | hf⟩
      · exact ⟨(f, 0), hf⟩
      · exact ⟨(f, 1), hf⟩
  by_cases hz : ∃ f, clampMin (√(∑ i, magSq (V f i 0))) eps = 0 ∨ clampMin (√(∑ i, magSq (V f i 1))) eps = 0
  · rw [if_pos hz, if_pos (ec.2 hz)]
    exact ⟨u2, b2, rfl⟩
  · rw [if_neg hz, if_neg (fun h => hz (ec.1 h)), outE_ok]
    refine Sim.out fun w h3 o3 => ?_
    have i3 := o3.id
    have n3 := o3.next
    refine Sim.pure (u2.trans o3.un) (o3.back b2 (by simp; omega)) ⟨by simp only []; omega, by simp only []; omega, enew,
      by simp only []; omega, by simp only []; omega, fun f i => ?_, fun f i j => ?_⟩
    · simp only
      rw [o3.un.read ev (by omega), r2.read, o1.un.read ev hev, hvals]
    · simp only
      rw [o3.val]
      simp only [hV]

theorem eighPlainMem_spec {h : Heap} (hb : BackwardRuns h) {A : Ref (φ × Fin 2 × Fin 2)} (hA : A.id < h.next) (eps : ℝ) :
    Sim h (EigRel h) (eighPlainMem A eps h)
      (seqAll fun f => eigh2x2Plain (fun i j => h.read A (f, i, j)) eps) := by
  unfold eighPlainMem
  refine Sim.read (Sim.out fun trace h1 o1 => Sim.out fun det h2 o2 => Sim.readR (Sim.readR (Sim.out fun delta h3 o3 =>
    Sim.readR (Sim.out fun ev h4 o4 => Sim.record fun h5 r5 => Sim.set fun h6 s6 => Sim.record fun h7 r7 =>
    Sim.set fun h8 s8 => Sim.readR (Sim.out fun vec h9 o9 => Sim.set fun h10 s10 => Sim.set fun h11 s11 =>
    Sim.set fun h12 s12 => Sim.set fun h13 s13 => ?_)))))
  have i1 := o1.id; have n1 := o1.next; have i2 := o2.id; have n2 := o2.next; have i3 := o3.id; have n3 := o3.next
  have i4 := o4.id; have n4 := o4.next; have n5 := r5.next; have n6 := s6.next; have n7 := r7.next; have n8 := s8.next
  have i9 := o9.id; have n9 := o9.next; have n10 := s10.next; have n11 := s11.next; have n12 := s12.next
  have n13 := s13.next
  have u4 : Untouched h h4 := o1.un.trans (o2.un.trans (o3.un.trans o4.un))
  have u6 := s6.un h (u4.trans r5.un) (by omega)
  have u8 := s8.un h (u6.trans r7.un) (by omega)
  have u9 := u8.trans o9.un
  have u13 := s13.un h (s12.un h (s11.un h (s10.un h u9 (by omega)) (by omega)) (by omega)) (by omega)
  have b1 := o1.back hb (by simp)
  have b2 := o2.back b1 (by simp; omega)
  have b3 := o3.back b2 (by simp; omega)
  have b4 := o4.back b3 (by simp)
  have b5 := r5.back b4 (by simp; omega)
  have e4 : ∀ p ∈ h4.saved, p.1 ≠ ev.id := o4.ne (fun p hp => by have := (b3 p hp).1; omega) (by simp)
  have e5 := r5.ne e4 (by simp; omega)
  have b6 := s6.back b5 e5
  have b7 := r7.back b6 (by simp; omega)
  have e7 := r7.ne (i := ev.id) (by rw [s6.saved]; exact e5) (by simp; omega)
  have b8 := s8.back b7 e7
  have b9 := o9.back b8 (by simp)
  have v9 : ∀ p ∈ h9.saved, p.1 ≠ vec.id := o9.ne (fun p hp => by have := (b8 p hp).1; omega) (by simp)
  have b10 := s10.back b9 v9
  have b11 := s11.back b10 (by rw [s10.saved]; exact v9)
  have b12 := s12.back b11 (by rw [s11.saved, s10.saved]; exact v9)
  have b13 := s13.back b12 (by rw [s12.saved, s11.saved, s10.saved]; exact v9)
  have tv : ∀ f, h2.readR trace f = (h.read A (f, 0, 0)).re + (h.read A (f, 1, 1)).re := by
    intro f
    simp only [Heap.readR]
    rw [o2.un.read trace (by omega), o1.val]
    simp
  have dv : ∀ f, h2.readR det f = (h.read A (f, 0, 0)).re * (h.read A (f, 1, 1)).re - magSq (h.read A (f, 0, 1)) := by
    intro f
    simp only [Heap.readR]
    rw [o2.val, Complex.ofReal_re]
  have dl : ∀ f, h3.readR delta f = clampMin (((h.read A (f, 0, 0)).re + (h.read A (f, 1, 1)).re) ^ 2
      - 4 * ((h.read A (f, 0, 0)).re * (h.read A (f, 1, 1)).re - magSq (h.read A (f, 0, 1)))) eps := by
    intro f
    simp only [Heap.readR]
    rw [o3.val, Complex.ofReal_re, tv, dv]
  have ev8 : ∀ f i, h8.read ev (f, i) = ((![0.5 * (h2.readR trace f - √(h3.readR delta f)),
      0.5 * (h2.readR trace f + √(h3.readR delta f))] i : ℝ) : ℂ) := by
    intro f i
    rw [s8.entry1 o4.inj, r7.read, s6.entry1 o4.inj]
    fin_cases i
    · exact (if_neg (by decide)).trans (if_pos rfl)
    · exact if_pos rfl
  unfold eigh2x2Plain
  refine normalizeMem_spec u13 b13 (by omega) (by omega) (by omega) eps ?_ ?_
  · intro f i
    rw [s13.other ev (by omega), s12.other ev (by omega), s11.other ev (by omega), s10.other ev (by omega),
      o9.un.read ev (by omega), ev8, tv, dl]
  · intro f i j
    have e8 : ∀ i, h8.readR ev (f, i) = ![0.5 * (h2.readR trace f - √(h3.readR delta f)),
      0.5 * (h2.readR trace f + √(h3.readR delta f))] i := fun i => by
      simp only [Heap.readR]
      rw [ev8, Complex.ofReal_re]
      rfl
    rw [s13.entry o9.inj, s12.entry o9.inj, s11.entry o9.inj, s10.entry o9.inj]
    simp only [e8, tv, dl]
    fin_cases i <;> fin_cases j <;> simp

theorem eigh2x2Gen_onlyErr (A B : Matrix (Fin 2) (Fin 2) ℂ) (eps : ℝ) : OnlyErr .nonFinite (eigh2x2Gen A B eps) := by
  intro e he
  unfold eigh2x2Gen normalizeCols at he
  dsimp only at he
  split_ifs at he <;> simp_all

theorem eighGenMem_spec {h : Heap} (hb : BackwardRuns h) {A B : Ref (φ × Fin 2 × Fin 2)} (hA : A.id < h.next)
    (hB : B.id < h.next) (eps : ℝ) :
    Sim h (EigRel h) (eighGenMem A B eps h)
      (seqAll fun f => eigh2x2Gen (fun i j => h.read A (f, i, j)) (fun i j => h.read B (f, i, j)) eps) := by
  classical
  unfold eighGenMem
  refine Sim.read (Sim.read (Sim.out fun b h1 o1 => Sim.out fun detA h2 o2 => Sim.out fun detB h3 o3 =>
    Sim.readR (Sim.readR (Sim.readR (Sim.out fun delta h4 o4 =>
    Sim.readR (Sim.out fun ev h5 o5 => Sim.record fun h6 r6 => Sim.set fun h7 s7 => Sim.record fun h8 r8 =>
    Sim.set fun h9 s9 => Sim.readR ?_))))))
  have i1 := o1.id; have n1 := o1.next; have i2 := o2.id; have n2 := o2.next; have i3 := o3.id; have n3 := o3.next
  have i4 := o4.id; have n4 := o4.next; have i5 := o5.id; have n5 := o5.next; have n6 := r6.next; have n7 := s7.next
  have n8 := r8.next; have n9 := s9.next
  have u5 : Untouched h h5 := o1.un.trans (o2.un.trans (o3.un.trans (o4.un.trans o5.un)))
  have u7 := s7.un h (u5.trans r6.un) (by omega)
  have u9 := s9.un h (u7.trans r8.un) (by omega)
  have b1 := o1.back hb (by simp; omega)
  have b2 := o2.back b1 (by simp; omega)
  have b3 := o3.back b2 (by simp; omega)
  have b4 := o4.back b3 (by simp; omega)
  have b5 := o5.back b4 (by simp)
  have b6 := r6.back b5 (by simp; omega)
  have e5 : ∀ p ∈ h5.saved, p.1 ≠ ev.id := o5.ne (fun p hp => by have := (b4 p hp).1; omega) (by simp)
  have e6 := r6.ne e5 (by simp; omega)
  have b7 := s7.back b6 e6
  have b8 := r8.back b7 (by simp; omega)
  have e8 := r8.ne (i := ev.id) (by rw [s7.saved]; exact e6) (by simp; omega)
  have b9 := s9.back b8 e8
  have bv : ∀ f, h3.readR b f = (h.read A (f, 0, 0)).re * (h.read B (f, 1, 1)).re
      + (h.read A (f, 1, 1)).re * (h.read B (f, 0, 0)).re
      - 2 * ((h.read A (f, 0, 1)).re * (h.read B (f, 0, 1)).re + (h.read A (f, 0, 1)).im * (h.read B (f, 0, 1)).im) := by
    intro f
    simp only [Heap.readR]
    rw [o3.un.read b (by omega), o2.un.read b (by omega), o1.val, Complex.ofReal_re]
  have da : ∀ f, h3.readR detA f = (h.read A (f, 0, 0)).re * (h.read A (f, 1, 1)).re - magSq (h.read A (f, 0, 1)) := by
    intro f
    simp only [Heap.readR]
    rw [o3.un.read detA (by omega), o2.val, Complex.ofReal_re]
  have db : ∀ f, h3.readR detB f = (h.read B (f, 0, 0)).re * (h.read B (f, 1, 1)).re - magSq (h.read B (f, 0, 1)) := by
    intro f
    simp only [Heap.readR]
    rw [o3.val, Complex.ofReal_re]
  have dl : ∀ f, h4.readR delta f = clampMin (h3.readR b f ^ 2 - 4 * (h3.readR detA f * h3.readR detB f)) eps := by
    intro f
    simp only [Heap.readR]
    rw [o4.val, Complex.ofReal_re]
    rfl
  have ev9 : ∀ f i, h9.readR ev (f, i) = ![0.5 * (h3.readR b f - √(h4.readR delta f)),
      0.5 * (h3.readR b f + √(h4.readR delta f))] i := by
    intro f i
    simp only [Heap.readR]
    rw [s9.entry1 o5.inj, r8.read, s7.entry1 o5.inj]
    fin_cases i
    · exact (congrArg Complex.re ((if_neg (by decide)).trans (if_pos rfl))).trans (Complex.ofReal_re _)
    · exact (congrArg Complex.re (if_pos rfl)).trans (Complex.ofReal_re _)
  by_cases hz : ∃ f, clampMin (h3.readR detB f) eps = 0
  · rw [if_pos hz]
    have : (seqAll fun f => eigh2x2Gen (fun i j => h.read A (f, i, j)) (fun i j => h.read B (f, i, j)) eps) =
        .error .nonFinite := by
      obtain ⟨f, hf⟩ := hz
      refine seqAll_error' (fun f => (eigh2x2Gen_onlyErr _ _ eps).cases) f ?_
      rw [db] at hf
      unfold eigh2x2Gen
      dsimp only
      rw [if_pos hf]
    rw [this]
    exact ⟨u9, b9, rfl⟩
  · rw [if_neg hz, outE_ok]
    have : (seqAll fun f => eigh2x2Gen (fun i j => h.read A (f, i, j)) (fun i j => h.read B (f, i, j)) eps) =
        seqAll fun f => normalizeCols
          ![0.5 * (h3.readR b f - √(h4.readR delta f)) / clampMin (h3.readR detB f) eps,
            0.5 * (h3.readR b f + √(h4.readR delta f)) / clampMin (h3.readR detB f) eps]
          !![((0.5 * (h3.readR b f - √(h4.readR delta f)) / clampMin (h3.readR detB f) eps : ℝ) : ℂ) * h.read B (f, 0, 1)
              - h.read A (f, 0, 1),
            ((0.5 * (h3.readR b f + √(h4.readR delta f)) / clampMin (h3.readR detB f) eps : ℝ) : ℂ) * h.read B (f, 0, 1)
              - h.read A (f, 0, 1);
            h.read A (f, 0, 0) -
              ((0.5 * (h3.readR b f - √(h4.readR delta f)) / clampMin (h3.readR detB f) eps : ℝ) : ℂ) * h.read B (f, 0, 0),
            h.read A (f, 0, 0) -
              ((0.5 * (h3.readR b f + √(h4.readR delta f)) / clampMin (h3.readR detB f) eps : ℝ) : ℂ) * h.read B (f, 0, 0)]
          eps := by
      congr 1
      funext f
      have hf : ¬ clampMin (h3.readR detB f) eps = 0 := fun e => hz ⟨f, e⟩
      rw [dl, bv, da, db] at *
      unfold eigh2x2Gen
      dsimp only
      rw [if_neg hf]
    rw [this]
    refine Sim.out fun ev2 h10 o10 => Sim.readR (Sim.out fun vec h11 o11 => Sim.record fun h12 r12 =>
      Sim.set fun h13 s13 => Sim.record fun h14 r14 => Sim.set fun h15 s15 => Sim.record fun h16 r16 =>
      Sim.set fun h17 s17 => Sim.record fun h18 r18 => Sim.set fun h19 s19 => ?_)
    have i10 := o10.id; have n10 := o10.next; have i11 := o11.id; have n11 := o11.next; have n12 := r12.next
    have n13 := s13.next; have n14 := r14.next; have n15 := s15.next; have n16 := r16.next; have n17 := s17.next
    have n18 := r18.next; have n19 := s19.next
    have u11 := u9.trans (o10.un.trans o11.un)
    have u13 := s13.un h (u11.trans r12.un) (by omega)
    have u15 := s15.un h (u13.trans r14.un) (by omega)
    have u17 := s17.un h (u15.trans r16.un) (by omega)
    have u19 := s19.un h (u17.trans r18.un) (by omega)
    have b10 := o10.back b9 (by simp; omega)
    have b11 := o11.back b10 (by simp)
    have v11 : ∀ p ∈ h11.saved, p.1 ≠ vec.id := o11.ne (fun p hp => by have := (b10 p hp).1; omega) (by simp)
    have v12 := r12.ne v11 (by simp; omega)
    have b12 := r12.back b11 (by simp; omega)
    have b13 := s13.back b12 v12
    have v14 := r14.ne (i := vec.id) (by rw [s13.saved]; exact v12) (by simp; omega)
    have b14 := r14.back b13 (by simp; omega)
    have b15 := s15.back b14 v14
    have v16 := r16.ne (i := vec.id) (by rw [s15.saved]; exact v14) (by simp; omega)
    have b16 := r16.back b15 (by simp; omega)
    have b17 := s17.back b16 v16
    have v18 := r18.ne (i := vec.id) (by rw [s17.saved]; exact v16) (by simp; omega)
    have b18 := r18.back b17 (by simp; omega)
    have b19 := s19.back b18 v18
    have e10 : ∀ f i, h10.read ev2 (f, i) = ((h9.readR ev (f, i) / clampMin (h3.readR detB f) eps : ℝ) : ℂ) := by
      intro f i; rw [o10.val]
    have e10' : ∀ f i, h10.readR ev2 (f, i) = h9.readR ev (f, i) / clampMin (h3.readR detB f) eps := by
      intro f i
      simp only [Heap.readR, e10]
      rw [Complex.ofReal_re]
    refine normalizeMem_spec u19 b19 (by omega) (by omega) (by omega) eps ?_ ?_
    · intro f i
      rw [s19.other ev2 (by omega), r18.read, s17.other ev2 (by omega), r16.read, s15.other ev2 (by omega), r14.read,
        s13.other ev2 (by omega), r12.read, o11.un.read ev2 (by omega), e10, ev9]
      fin_cases i <;> rfl
    · intro f i j
      rw [s19.entry o11.inj, r18.read, s17.entry o11.inj, r16.read, s15.entry o11.inj, r14.read, s13.entry o11.inj]
      simp only [e10', ev9]
      fin_cases i <;> fin_cases j <;> simp

end Memory
end Torchiva
