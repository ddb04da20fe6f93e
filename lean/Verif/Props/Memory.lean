import Verif.Proofs.MemoryAlgos
import Verif.Props.TIss
import Verif.Props.AuxIva
import Verif.Props.Ip2
import Verif.Props.Wpe
import Verif.Props.Five

/-!
# C140–C142: nobody's tensors are modified, the result is the caller's own, the backward pass runs
-/

namespace Torchiva
namespace Props

open Memory Spec

variable {s C F N T : ℕ} {σ : Type}

/-! ## A heap to try things on -/

/-- Two storages, the numbers 1 and 2 everywhere; nothing recorded yet. -/
def smallHeap : Heap := ⟨fun i _ => i + 1, fun _ => 0, 2, []⟩

/-- The tensor of shape `(C, F, N)` in storage `i`. -/
def smallRef (i C F N : ℕ) : Ref (I3 C F N) := ⟨i, Encodable.encode⟩

theorem smallHeap_backward : BackwardRuns smallHeap := by simp [BackwardRuns, smallHeap]

theorem smallRef_exists {i C F N : ℕ} (hi : i < 2) : Exists smallHeap (smallRef i C F N) := hi

/-- A heap with one tensor that holds the signal. -/
def heapOf (x : Sig C F N) : Heap := (⟨fun _ _ => 0, fun _ => 0, 0, []⟩ : Heap).out [] fun i : I3 C F N => x i.1 i.2.1 i.2.2

theorem heapOf_signal (x : Sig C F N) : signal (heapOf x) (smallRef 0 C F N) = x := by
  funext c f n
  exact congrFun (out_read_new (⟨fun _ _ => 0, fun _ => 0, 0, []⟩ : Heap) [] fun i : I3 C F N => x i.1 i.2.1 i.2.2) (c, f, n)

theorem heapOf_backward (x : Sig C F N) : BackwardRuns (heapOf x) := by simp [BackwardRuns, heapOf]

theorem heapOf_exists (x : Sig C F N) : Exists (heapOf x) (smallRef 0 C F N) := by
  show 0 < 0 + 1
  norm_num

/-! ## The built-in source models are well behaved -/

/-- C140/C142: the Laplace model computes what it should, modifies nothing and can be differentiated. -/
theorem laplace_memory_safe (eps : ℝ) : ActsAs (laplaceMem eps : MemModel Unit F N) (laplaceModel eps) :=
  laplaceMem_actsAs eps

/-- C140/C142: the Gauss model computes what it should, modifies nothing and can be differentiated. -/
theorem gauss_memory_safe (eps : ℝ) : ActsAs (gaussMem eps : MemModel Unit F N) (gaussModel eps) :=
  gaussMem_actsAs eps

/-- The weights of a concrete tensor: one channel, one frequency, one frame, all values 1. -/
example : ∃ r h', laplaceMem (F := 1) (N := 1) 1e-5 1 () (smallRef 0 1 1 1) smallHeap = (.ok (r, ()), h') ∧
    Untouched smallHeap h' ∧ h'.next = 3 := by
  obtain ⟨r, h', e, u, -, -, -⟩ := laplace_memory_safe (F := 1) (N := 1) 1e-5 1 () (smallRef 0 1 1 1) smallHeap
    (smallRef_exists (by norm_num)) smallHeap_backward
  refine ⟨r, h', e, u, ?_⟩
  have := congrArg (fun x => x.2.next) e
  exact this.symm

/-! ## C140: no tensor that existed before a call is modified -/

/-- C140: `T_ISS` modifies no existing tensor, whether it returns or raises. -/
theorem tiss_leaves_tensors_alone (p : TissParams) (nSrc : Option ℕ) {h : Heap} (hb : BackwardRuns h)
    (X : Ref (I3 C F N)) (hX : Exists h X) {m : MemModel σ F N} {model : SourceModel σ F N} (hm : ActsAs m model)
    (reset : σ → σ) (ms : σ) : Untouched h (tissForwardMem p nSrc X m reset ms h).2 :=
  (tissForwardMem_spec p nSrc hb X hX hm reset ms).1

/-- C140: although it updates tensors in place, `T_ISS` computes what the mathematical description says: the returned
signal, the demixing filter it stores and the exceptions are the same. -/
theorem tiss_in_place_computes (p : TissParams) (nSrc : Option ℕ) {h : Heap} (hb : BackwardRuns h)
    (X : Ref (I3 C F N)) (hX : Exists h X) {m : MemModel σ F N} {model : SourceModel σ F N} (hm : ActsAs m model)
    (reset : σ → σ) (ms : σ) :
    EndsAs (tissForwardMem p nSrc X m reset ms h) (tissForward p nSrc (signal h X) model reset ms)
      fun o h' v => ∃ (s : ℕ) (o' : TOut σ s C F N) (v' : TissOut σ s C F N), o = ⟨s, o'⟩ ∧ v = ⟨s, v'⟩ ∧
        Holds h' o'.Y v'.Y ∧ (∀ k f c, h'.read o'.W (k, f, c) = v'.W k f c) ∧ o'.ms = v'.ms := by
  have := (tissForwardMem_spec p nSrc hb X hX hm reset ms).mono
    (Q' := fun o h' v => ∃ (s : ℕ) (o' : TOut σ s C F N) (v' : TissOut σ s C F N), o = ⟨s, o'⟩ ∧ v = ⟨s, v'⟩ ∧
        Holds h' o'.Y v'.Y ∧ (∀ k f c, h'.read o'.W (k, f, c) = v'.W k f c) ∧ o'.ms = v'.ms)
    fun o h' v ⟨s, o', v', e1, e2, q⟩ => ⟨s, o', v', e1, e2, q.yv, q.wv, q.ms⟩
  exact this.2.2

/-- Three channels, two sources, two taps, memory-efficient gradients: the hypotheses hold, and the second tensor, which
is not involved, keeps its value. -/
example : (tissForwardMem ⟨4, 2, 1, some 0, true, 1e-5⟩ (some 2) (smallRef 0 3 2 5) (laplaceMem 1e-5) id () smallHeap).2.read
    (smallRef 1 3 2 5) (0, 0, 0) = 2 := by
  rw [(tiss_leaves_tensors_alone _ _ smallHeap_backward _ (smallRef_exists (by norm_num)) (laplace_memory_safe 1e-5) _ _).read
    _ (smallRef_exists (by norm_num))]
  simp [Heap.read, smallRef, smallHeap]
  norm_num

/-- C140: `iss_updates_with_H`, called directly, clones what it updates in place: whatever its arguments share memory with
(they may even be views of one tensor), nothing that existed is modified and the results are those of the mathematical
description. -/
theorem iss_updates_leaves_tensors_alone (hs : s ≤ C) {h : Heap} (hb : BackwardRuns h) (X : Ref (I3 s F N))
    (Xbar : Ref (I4 C F T N)) (W : Ref (I3 s F C)) (H : Ref (I4 s F C T)) (w : Ref (I3 s F N)) (eps : ℝ)
    (ZJ : Option (Ref (I3 (C - s) F N) × Ref (I3 (C - s) F s)))
    (hX : Exists h X) (hB : Exists h Xbar) (hW : Exists h W) (hH : Exists h H) (hw : Exists h w)
    (hZJ : ∀ z ∈ ZJ, Exists h z.1 ∧ Exists h z.2) :
    ∃ r h', issUpdatesMem hs X Xbar W H w eps ZJ h = (.ok r, h') ∧ Untouched h h' ∧ BackwardRuns h' ∧
      Fresh h r.W ∧ Fresh h r.H ∧
      let v := issUpdates (fun c f t n => h.read Xbar (c, f, t, n)) (fun c f n => h.readR w (c, f, n)) eps
        (ZJ.map fun z => (fun c f n => h.read z.1 (c, f, n), fun c f d => h.read z.2 (c, f, d)))
        ⟨fun c f n => h.read X (c, f, n), fun c f d => h.read W (c, f, d), fun c f d t => h.read H (c, f, d, t)⟩
      Holds h' r.X v.Y ∧ (∀ k f c, h'.read r.W (k, f, c) = v.W k f c) ∧
        ∀ k f c t, h'.read r.H (k, f, c, t) = v.H k f c t := by
  obtain ⟨r, h', e, o⟩ := issUpdatesMem_spec hs hb X Xbar W H w eps ZJ hX hB hW hH hw hZJ
  exact ⟨r, h', e, o.un, o.back, o.wnew, o.hnew, o.xv, o.wv, o.hv⟩

/-- The hypotheses allow every argument to be a view of one tensor. -/
example : ∃ r h', issUpdatesMem (s := 2) (C := 2) (F := 2) (N := 2) (T := 2) le_rfl (smallRef 0 2 2 2)
    ((smallRef 0 2 2 2).view fun i => (i.1, i.2.1, i.2.2.1)) (smallRef 0 2 2 2)
    ((smallRef 0 2 2 2).view fun i => (i.1, i.2.1, i.2.2.1)) (smallRef 0 2 2 2) 1e-5 none smallHeap = (.ok r, h') ∧
    h'.read (smallRef 0 2 2 2) (1, 1, 1) = 1 ∧ Fresh smallHeap r.W := by
  obtain ⟨r, h', e, u, -, fw, -⟩ := iss_updates_leaves_tensors_alone (s := 2) (C := 2) (F := 2) (N := 2) (T := 2) le_rfl
    smallHeap_backward (smallRef 0 2 2 2)
    ((smallRef 0 2 2 2).view fun i => (i.1, i.2.1, i.2.2.1)) (smallRef 0 2 2 2)
    ((smallRef 0 2 2 2).view fun i => (i.1, i.2.1, i.2.2.1)) (smallRef 0 2 2 2) 1e-5 none
    (smallRef_exists (by norm_num)) (smallRef_exists (i := 0) (C := 2) (F := 2) (N := 2) (by norm_num))
    (smallRef_exists (by norm_num)) (smallRef_exists (i := 0) (C := 2) (F := 2) (N := 2) (by norm_num))
    (smallRef_exists (by norm_num)) (by simp)
  refine ⟨r, h', e, ?_, fw⟩
  rw [u.read _ (smallRef_exists (by norm_num))]
  simp [Heap.read, smallRef, smallHeap]

/-- C140: `AuxIVA_IP` modifies no existing tensor, whether it returns or raises. -/
theorem ip_leaves_tensors_alone (hs : s ≤ C) (p : IpParams) {h : Heap} (hb : BackwardRuns h) (X : Ref (I3 C F N))
    (hX : Exists h X) {m : MemModel σ F N} {model : SourceModel σ F N} (hm : ActsAs m model) (reset : σ → σ)
    (ms : σ) : Untouched h (ipMem hs p X m reset ms h).2 := (ipMem_spec hs p hb X hX hm reset ms).1

/-- C140: `AuxIVA_IP` on the heap computes what the mathematical description says. -/
theorem ip_in_place_computes (hs : s ≤ C) (p : IpParams) {h : Heap} (hb : BackwardRuns h) (X : Ref (I3 C F N))
    (hX : Exists h X) {m : MemModel σ F N} {model : SourceModel σ F N} (hm : ActsAs m model) (reset : σ → σ) (ms : σ) :
    EndsAs (ipMem hs p X m reset ms h) (auxivaForward p (some s) (signal h X) model reset ms)
      fun Y h' o => ∃ y ms', o = ⟨s, y, ms'⟩ ∧ Holds h' Y y :=
  ((ipMem_spec hs p hb X hX hm reset ms).mono (Q' := fun Y h' (o : Σ s : ℕ, IpOut σ s F N) =>
    ∃ y ms', o = ⟨s, y, ms'⟩ ∧ Holds h' Y y) fun _ _ _ q => q.2.2).2.2

example : (ipMem (s := 2) (by norm_num) ⟨4, some 0, 1e-5⟩ (smallRef 0 3 2 5) (gaussMem 1e-5) id () smallHeap).2.read
    (smallRef 0 3 2 5) (0, 0, 0) = 1 := by
  rw [(ip_leaves_tensors_alone _ _ smallHeap_backward _ (smallRef_exists (by norm_num)) (gauss_memory_safe 1e-5) _ _).read
    _ (smallRef_exists (by norm_num))]
  simp [Heap.read, smallRef, smallHeap]

/-- C140: `AuxIVA_IP2` modifies no existing tensor, whether it returns or raises. -/
theorem ip2_leaves_tensors_alone (nIter : ℕ) (mic : Option (Fin 2)) (eps : ℝ) {h : Heap} (hb : BackwardRuns h)
    (X : Ref (I3 2 F N)) (hX : Exists h X) {m : MemModel σ F N} {model : SourceModel σ F N} (hm : ActsAs m model)
    (reset : σ → σ) (ms : σ) : Untouched h (ip2Mem nIter mic eps X m reset ms h).2 :=
  (ip2Mem_spec nIter mic eps hb X hX hm reset ms).1

/-- C140: `AuxIVA_IP2` on the heap computes what the mathematical description says. -/
theorem ip2_in_place_computes (nIter : ℕ) (mic : Option (Fin 2)) (eps : ℝ) {h : Heap} (hb : BackwardRuns h)
    (X : Ref (I3 2 F N)) (hX : Exists h X) {m : MemModel σ F N} {model : SourceModel σ F N} (hm : ActsAs m model)
    (reset : σ → σ) (ms : σ) :
    EndsAs (ip2Mem nIter mic eps X m reset ms h)
      (auxiva2Forward nIter (mic.map fun i => (i.1 : ℤ)) eps (signal h X) model reset ms) fun Y h' y => Holds h' Y y :=
  ((ip2Mem_spec nIter mic eps hb X hX hm reset ms).mono (Q' := fun Y h' y => Holds h' Y y)
    fun _ _ _ q => q.2.2.2).2.2

example : (ip2Mem 3 (some 1) 1e-5 (smallRef 0 2 2 5) (laplaceMem 1e-5) id () smallHeap).2.read
    (smallRef 0 2 2 5) (0, 0, 0) = 1 := by
  rw [(ip2_leaves_tensors_alone _ _ _ smallHeap_backward _ (smallRef_exists (by norm_num)) (laplace_memory_safe 1e-5) _ _).read
    _ (smallRef_exists (by norm_num))]
  simp [Heap.read, smallRef, smallHeap]

/-- C140: `WPE` modifies no existing tensor, whether it returns or raises. -/
theorem wpe_leaves_tensors_alone (nIter T D : ℕ) (eps : ℝ) {h : Heap} (hb : BackwardRuns h) (X : Ref (I3 C F N))
    (hX : Exists h X) {m : Option (MemWpeModel σ C F N)} {model : Option (WpeModel σ C F N)}
    (hm : ActsAsWpeOption m model) (ms : σ) : Untouched h (wpeMem nIter T D eps X m ms h).2 :=
  (wpeMem_spec nIter T D eps hb X hX hm ms).1

/-- C140: `WPE` on the heap, whose taps are a strided view of one padded copy, computes what the mathematical description
says. -/
theorem wpe_in_place_computes (nIter T D : ℕ) (eps : ℝ) {h : Heap} (hb : BackwardRuns h) (X : Ref (I3 C F N))
    (hX : Exists h X) {m : Option (MemWpeModel σ C F N)} {model : Option (WpeModel σ C F N)}
    (hm : ActsAsWpeOption m model) (ms : σ) :
    EndsAs (wpeMem nIter T D eps X m ms h) (wpeForward nIter T D eps (signal h X) model ms)
      fun Y h' y => Holds h' Y y :=
  ((wpeMem_spec nIter T D eps hb X hX hm ms).mono (Q' := fun Y h' y => Holds h' Y y) fun _ _ _ q => q.2.2).2.2

example : (wpeMem (σ := Unit) 3 2 1 1e-5 (smallRef 0 2 2 5) none () smallHeap).2.read (smallRef 0 2 2 5) (0, 0, 0) = 1 := by
  rw [(wpe_leaves_tensors_alone (m := none) (model := none) _ _ _ _ smallHeap_backward _ (smallRef_exists (by norm_num)) trivial _).read
    _ (smallRef_exists (by norm_num))]
  simp [Heap.read, smallRef, smallHeap]

/-- C140: `FIVE` modifies no existing tensor, whether it returns or raises (it works on a view of its input). -/
theorem five_leaves_tensors_alone [NeZero C] (solver : Matrix (Fin C) (Fin C) ℂ → EigRes (Fin C)) (nIter : ℕ)
    (ref : Fin C) (nPower : Option ℕ) {h : Heap} (hb : BackwardRuns h) (X : Ref (I3 C (F + 1) N)) (hX : Exists h X)
    {m : MemModel σ F N} {model : SourceModel σ F N} (hm : ActsAs m model) (reset : σ → σ) (ms : σ) :
    Untouched h (fiveMem solver nIter ref nPower X m reset ms h).2 :=
  (fiveMem_spec solver nIter ref nPower hb X hX hm reset ms).1

/-- C140: `FIVE` on the heap computes what the mathematical description says. -/
theorem five_in_place_computes [NeZero C] (solver : Matrix (Fin C) (Fin C) ℂ → EigRes (Fin C)) (nIter : ℕ)
    (ref : Fin C) (nPower : Option ℕ) {h : Heap} (hb : BackwardRuns h) (X : Ref (I3 C (F + 1) N)) (hX : Exists h X)
    {m : MemModel σ F N} {model : SourceModel σ F N} (hm : ActsAs m model) (reset : σ → σ) (ms : σ) :
    EndsAs (fiveMem solver nIter ref nPower X m reset ms h)
      (fiveForward solver nIter ref nPower (signal h X) model reset ms) fun Y h' y => Holds h' Y y :=
  ((fiveMem_spec solver nIter ref nPower hb X hX hm reset ms).mono (Q' := fun Y h' y => Holds h' Y y)
    fun _ _ _ q => q.2.2).2.2

example (solver : Matrix (Fin 3) (Fin 3) ℂ → EigRes (Fin 3)) :
    (fiveMem solver 3 1 (some 5) (smallRef 0 3 3 5) (laplaceMem 1e-5) id () smallHeap).2.read
      (smallRef 0 3 3 5) (0, 0, 0) = 1 := by
  rw [(five_leaves_tensors_alone _ _ _ _ smallHeap_backward _ (smallRef_exists (by norm_num)) (laplace_memory_safe 1e-5)
    _ _).read _ (smallRef_exists (by norm_num))]
  simp [Heap.read, smallRef, smallHeap]

/-! ## C141: the returned tensor is the caller's own -/

/-- C141: what a caller writes into a tensor with its own memory changes no tensor that existed before the call. -/
theorem write_to_fresh_result {ι κ ι' : Type} {before after : Heap} (u : Untouched before after) {Y : Ref ι}
    (hY : Fresh before Y) (g : κ → ι) (v : κ → ℂ) (X : Ref ι') (hX : Exists before X) :
    (after.set Y g v).read X = before.read X := by
  rw [set_read_other _ _ _ _ _ (by have : X.id < before.next := hX; have : before.next ≤ Y.id := hY; omega)]
  exact u.read X hX

/-- Zeroing the dereverberated signal in place leaves the recording as it was. -/
example (Y : Ref (I3 2 2 5)) (hY : (wpeMem (σ := Unit) 0 2 1 1e-5 (smallRef 0 2 2 5) none () smallHeap).1 = .ok Y)
    (hf : Fresh smallHeap Y) :
    ((wpeMem (σ := Unit) 0 2 1 1e-5 (smallRef 0 2 2 5) none () smallHeap).2.set Y (fun i : I3 2 2 5 => i) fun _ => 0).read
      (smallRef 0 2 2 5) (0, 0, 0) = 1 := by
  rw [write_to_fresh_result (wpe_leaves_tensors_alone (m := none) (model := none) _ _ _ _ smallHeap_backward _
    (smallRef_exists (by norm_num)) trivial _) hf _ _ _ (smallRef_exists (by norm_num))]
  simp [Heap.read, smallRef, smallHeap]

/-- C141: the signal that `T_ISS` returns, and the demixing filter it stores, share no memory with any earlier tensor. -/
theorem tiss_result_is_fresh (p : TissParams) (nSrc : Option ℕ) {h : Heap} (hb : BackwardRuns h)
    (X : Ref (I3 C F N)) (hX : Exists h X) {m : MemModel σ F N} {model : SourceModel σ F N} (hm : ActsAs m model)
    (reset : σ → σ) (ms : σ) {s : ℕ} {o : TOut σ s C F N}
    (ho : (tissForwardMem p nSrc X m reset ms h).1 = .ok ⟨s, o⟩) :
    Fresh h o.Y ∧ Fresh h o.W ∧ ∀ J ∈ o.J, Fresh h J := by
  refine (tissForwardMem_spec p nSrc hb X hX hm reset ms).result ho ?_
  rintro v ⟨s', o', v', e, -, q⟩
  cases e
  refine ⟨q.ynew, q.wnew, fun J hJ => ?_⟩
  have j := q.j
  rw [Option.mem_def.mp hJ] at j
  cases hv : v'.J with
  | none => rw [hv] at j; exact j.elim
  | some j' => rw [hv] at j; exact j.2.1

/-- Two sources out of three channels: the call returns, and the result is the caller's own. -/
example : ∃ o : TOut Unit 2 3 2 5, (tissForwardMem ⟨4, 2, 1, some 0, true, 1e-5⟩ (some 2) (smallRef 0 3 2 5) (laplaceMem 1e-5)
    id () (heapOf (Demo.sig 3 2 5))).1 = .ok ⟨2, o⟩ ∧ Fresh (heapOf (Demo.sig 3 2 5)) o.Y := by
  have e := tiss_in_place_computes ⟨4, 2, 1, some 0, true, 1e-5⟩ (some 2) (heapOf_backward (Demo.sig 3 2 5)) _ (heapOf_exists _)
    (laplace_memory_safe 1e-5) id ()
  obtain ⟨v, hv⟩ := tiss_succeeds (σ := Unit) ⟨4, 2, 1, some 0, true, 1e-5⟩ (by norm_num) (some 2) (Demo.sig 3 2 5) (by simp)
    (by simp) (laplaceModel 1e-5) id ()
  rw [heapOf_signal, hv] at e
  obtain ⟨o, ho, s, o', v', rfl, h2, -⟩ := e
  cases h2
  exact ⟨o', ho, (tiss_result_is_fresh _ _ (heapOf_backward _) _ (heapOf_exists _) (laplace_memory_safe 1e-5) id () ho).1⟩

/-- C141: the signal that `AuxIVA_IP` returns shares no memory with any earlier tensor, even without iterations. -/
theorem ip_result_is_fresh (hs : s ≤ C) (p : IpParams) {h : Heap} (hb : BackwardRuns h) (X : Ref (I3 C F N))
    (hX : Exists h X) {m : MemModel σ F N} {model : SourceModel σ F N} (hm : ActsAs m model) (reset : σ → σ)
    (ms : σ) {Y : Ref (I3 s F N)} (hY : (ipMem hs p X m reset ms h).1 = .ok Y) : Fresh h Y :=
  (ipMem_spec hs p hb X hX hm reset ms).result hY fun _ q => q.2.1

example : ∃ Y, (ipMem (s := 2) (by norm_num) ⟨10, some 2, 1e-5⟩ (smallRef 0 3 3 4) (laplaceMem 1e-5) id ()
    (heapOf (Demo.sig 3 3 4))).1 = .ok Y ∧ Fresh (heapOf (Demo.sig 3 3 4)) Y := by
  have e := ip_in_place_computes (s := 2) (by norm_num) ⟨10, some 2, 1e-5⟩ (heapOf_backward (Demo.sig 3 3 4)) _ (heapOf_exists _)
    (laplace_memory_safe 1e-5) id ()
  obtain ⟨v, -, -, hv, -⟩ := auxiva_output ⟨10, some 2, 1e-5⟩ (by norm_num) 2 (by norm_num) (Demo.sig 3 3 4)
    (laplaceModel 1e-5) (fun s ms Y k f n => Demo.laplace_nonneg s ms Y k f n) id () (by simp)
  rw [heapOf_signal, hv] at e
  obtain ⟨Y, hY, -⟩ := e
  exact ⟨Y, hY, ip_result_is_fresh _ _ (heapOf_backward _) _ (heapOf_exists _) (laplace_memory_safe 1e-5) id () hY⟩

/-- C141: the signal that `WPE` returns shares no memory with any earlier tensor, even without iterations. -/
theorem wpe_result_is_fresh (nIter T D : ℕ) (eps : ℝ) {h : Heap} (hb : BackwardRuns h) (X : Ref (I3 C F N))
    (hX : Exists h X) {m : Option (MemWpeModel σ C F N)} {model : Option (WpeModel σ C F N)}
    (hm : ActsAsWpeOption m model) (ms : σ) {Y : Ref (I3 C F N)} (hY : (wpeMem nIter T D eps X m ms h).1 = .ok Y) :
    Fresh h Y :=
  (wpeMem_spec nIter T D eps hb X hX hm ms).result hY fun _ q => q.2.1

example : ∃ Y, (wpeMem (σ := Unit) 3 2 1 1e-5 (smallRef 0 3 3 4) none () (heapOf (Demo.sig 3 3 4))).1 = .ok Y ∧
    Fresh (heapOf (Demo.sig 3 3 4)) Y := by
  have e := wpe_in_place_computes (σ := Unit) (m := none) (model := none) 3 2 1 1e-5 (heapOf_backward (Demo.sig 3 3 4)) _
    (heapOf_exists _) trivial ()
  obtain ⟨v, hv⟩ := wpe_total (σ := Unit) (T := 2) 3 1 1e-5 (by norm_num) (Demo.sig 3 3 4) none (by simp [NonnegWpe]) ()
  rw [heapOf_signal, hv] at e
  obtain ⟨Y, hY, -⟩ := e
  exact ⟨Y, hY, wpe_result_is_fresh (m := none) (model := none) _ _ _ _ (heapOf_backward _) _ (heapOf_exists _) trivial _ hY⟩

/-- C141: the signal that `FIVE` returns shares no memory with any earlier tensor, even without iterations. -/
theorem five_result_is_fresh [NeZero C] (solver : Matrix (Fin C) (Fin C) ℂ → EigRes (Fin C)) (nIter : ℕ)
    (ref : Fin C) (nPower : Option ℕ) {h : Heap} (hb : BackwardRuns h) (X : Ref (I3 C (F + 1) N)) (hX : Exists h X)
    {m : MemModel σ F N} {model : SourceModel σ F N} (hm : ActsAs m model) (reset : σ → σ) (ms : σ)
    {Y : Ref (I3 1 (F + 1) N)} (hY : (fiveMem solver nIter ref nPower X m reset ms h).1 = .ok Y) : Fresh h Y :=
  (fiveMem_spec solver nIter ref nPower hb X hX hm reset ms).result hY fun _ q => q.2.1

private def pulses : Sig 3 (3 + 1) 4 := fun c _ n => if c.1 = n.1 then 1 else 0

private lemma pulses_ok (f : Fin 3) : WellConditioned fun c => pulses c f.succ := fun v => by
  simp only [_root_.Spec.meanPower, _root_.Spec.filt, pulses, Fin.sum_univ_four, Fin.sum_univ_three]
  norm_num [Fin.val_two]
  nlinarith [sq_nonneg ‖v 0‖, sq_nonneg ‖v 1‖, sq_nonneg ‖v 2‖]

example : ∃ (solver : Matrix (Fin 3) (Fin 3) ℂ → EigRes (Fin 3)) (Y : Ref (I3 1 4 4)),
    (fiveMem solver 2 1 none (smallRef 0 3 4 4) (laplaceMem 1e-5) id () (heapOf pulses)).1 = .ok Y ∧
    Fresh (heapOf pulses) Y := by
  obtain ⟨solver, hc⟩ := eighContract_exists 3
  have e := five_in_place_computes solver 2 1 none (heapOf_backward pulses) _ (heapOf_exists _)
    (laplace_memory_safe 1e-5) id ()
  obtain ⟨v, hv, -⟩ := five_run (by norm_num) solver hc 2 1 pulses pulses_ok (laplaceModel 1e-5) id ()
  rw [heapOf_signal, hv] at e
  obtain ⟨Y, hY, -⟩ := e
  exact ⟨solver, Y, hY, five_result_is_fresh solver 2 1 none (heapOf_backward _) _ (heapOf_exists _)
    (laplace_memory_safe 1e-5) id () hY⟩

/-- C141 for `AuxIVA_IP2`, with at least one iteration.  Missing: no iterations, see
`ip2_result_is_fresh_violated`. -/
theorem ip2_result_is_fresh_partial (nIter : ℕ) (hn : 0 < nIter) (mic : Option (Fin 2)) (eps : ℝ) {h : Heap}
    (hb : BackwardRuns h) (X : Ref (I3 2 F N)) (hX : Exists h X) {m : MemModel σ F N} {model : SourceModel σ F N}
    (hm : ActsAs m model) (reset : σ → σ) (ms : σ) {Y : Ref (I3 2 F N)}
    (hY : (ip2Mem nIter mic eps X m reset ms h).1 = .ok Y) : Fresh h Y :=
  (ip2Mem_spec nIter mic eps hb X hX hm reset ms).result hY fun _ q => q.2.1 hn

example : ∃ Y, (ip2Mem 3 (some 1) 1e-5 (smallRef 0 2 3 4) (laplaceMem 1e-5) id () (heapOf (Demo.sig 2 3 4))).1 = .ok Y ∧
    Fresh (heapOf (Demo.sig 2 3 4)) Y := by
  have e := ip2_in_place_computes 3 (some 1) 1e-5 (heapOf_backward (Demo.sig 2 3 4)) _ (heapOf_exists _)
    (laplace_memory_safe 1e-5) id ()
  obtain ⟨v, hv⟩ := ip2_succeeds 3 (some 1) 1e-5 (by norm_num) (Demo.sig 2 3 4) (laplaceModel 1e-5)
    (fun s ms Y k f n => Demo.laplace_nonneg s ms Y k f n) id ()
  rw [heapOf_signal, hv] at e
  obtain ⟨Y, hY, -⟩ := e
  exact ⟨Y, hY, ip2_result_is_fresh_partial 3 (by norm_num) _ _ (heapOf_backward _) _ (heapOf_exists _)
    (laplace_memory_safe 1e-5) id () hY⟩

/-- C141, violated: without iterations `AuxIVA_IP2` returns the caller's own tensor, for every input. -/
theorem ip2_no_iterations_returns_argument (mic : Option (Fin 2)) (eps : ℝ) (h : Heap) (X : Ref (I3 2 F N))
    (m : MemModel σ F N) (reset : σ → σ) (ms : σ) : (ip2Mem 0 mic eps X m reset ms h).1 = .ok X := by
  cases mic <;> rfl

/-- A heap with two tensors. -/
example : (ip2Mem 0 (some 1) 1e-5 (smallRef 0 2 1 1) (laplaceMem 1e-5) id () smallHeap).1 = .ok (smallRef 0 2 1 1) :=
  ip2_no_iterations_returns_argument _ _ _ _ _ _ _

/-- C141, violated: with `n_iter=0`, a caller who overwrites the result of `AuxIVA_IP2` has overwritten the microphone
signal. -/
theorem ip2_result_is_fresh_violated (mic : Option (Fin 2)) (eps : ℝ) :
    ∃ (h : Heap) (X Y : Ref (I3 2 1 1)), Exists h X ∧ BackwardRuns h ∧
      (ip2Mem 0 mic eps X (laplaceMem eps) id () h).1 = .ok Y ∧ ¬ Fresh h Y ∧ h.read X (0, 0, 0) = 1 ∧
      ((ip2Mem 0 mic eps X (laplaceMem eps) id () h).2.set Y (fun i : I3 2 1 1 => i) fun _ => 0).read X (0, 0, 0) = 0 := by
  refine ⟨smallHeap, smallRef 0 2 1 1, smallRef 0 2 1 1, smallRef_exists (by norm_num), smallHeap_backward,
    ip2_no_iterations_returns_argument _ _ _ _ _ _ _, by simp [Fresh, smallHeap, smallRef], ?_, ?_⟩
  · simp [Heap.read, smallRef, smallHeap]
  · exact set_read_in _ _ _ _ Encodable.encode_injective (fun _ _ e => e) (0, 0, 0)

/-! ## C142: in-place updates do not break the backward pass -/

/-- C142: after a call to `T_ISS`, with or without the memory-efficient gradients, every tensor autograd recorded still
has the recorded version. -/
theorem tiss_backward_runs (p : TissParams) (nSrc : Option ℕ) {h : Heap} (hb : BackwardRuns h)
    (X : Ref (I3 C F N)) (hX : Exists h X) {m : MemModel σ F N} {model : SourceModel σ F N} (hm : ActsAs m model)
    (reset : σ → σ) (ms : σ) : BackwardRuns (tissForwardMem p nSrc X m reset ms h).2 :=
  (tissForwardMem_spec p nSrc hb X hX hm reset ms).2.1

example : BackwardRuns (tissForwardMem ⟨4, 2, 1, some 0, true, 1e-5⟩ (some 2) (smallRef 0 3 2 5) (laplaceMem 1e-5) id ()
    smallHeap).2 :=
  tiss_backward_runs _ _ smallHeap_backward _ (smallRef_exists (by norm_num)) (laplace_memory_safe 1e-5) _ _

/-- C142: `AuxIVA_IP`. -/
theorem ip_backward_runs (hs : s ≤ C) (p : IpParams) {h : Heap} (hb : BackwardRuns h) (X : Ref (I3 C F N))
    (hX : Exists h X) {m : MemModel σ F N} {model : SourceModel σ F N} (hm : ActsAs m model) (reset : σ → σ)
    (ms : σ) : BackwardRuns (ipMem hs p X m reset ms h).2 := (ipMem_spec hs p hb X hX hm reset ms).2.1

example : BackwardRuns (ipMem (s := 2) (by norm_num) ⟨4, some 0, 1e-5⟩ (smallRef 0 3 2 5) (gaussMem 1e-5) id () smallHeap).2 :=
  ip_backward_runs _ _ smallHeap_backward _ (smallRef_exists (by norm_num)) (gauss_memory_safe 1e-5) _ _

/-- C142: `AuxIVA_IP2`. -/
theorem ip2_backward_runs (nIter : ℕ) (mic : Option (Fin 2)) (eps : ℝ) {h : Heap} (hb : BackwardRuns h)
    (X : Ref (I3 2 F N)) (hX : Exists h X) {m : MemModel σ F N} {model : SourceModel σ F N} (hm : ActsAs m model)
    (reset : σ → σ) (ms : σ) : BackwardRuns (ip2Mem nIter mic eps X m reset ms h).2 :=
  (ip2Mem_spec nIter mic eps hb X hX hm reset ms).2.1

example : BackwardRuns (ip2Mem 3 (some 1) 1e-5 (smallRef 0 2 2 5) (laplaceMem 1e-5) id () smallHeap).2 :=
  ip2_backward_runs _ _ _ smallHeap_backward _ (smallRef_exists (by norm_num)) (laplace_memory_safe 1e-5) _ _

/-- C142: `WPE`. -/
theorem wpe_backward_runs (nIter T D : ℕ) (eps : ℝ) {h : Heap} (hb : BackwardRuns h) (X : Ref (I3 C F N))
    (hX : Exists h X) {m : Option (MemWpeModel σ C F N)} {model : Option (WpeModel σ C F N)}
    (hm : ActsAsWpeOption m model) (ms : σ) : BackwardRuns (wpeMem nIter T D eps X m ms h).2 :=
  (wpeMem_spec nIter T D eps hb X hX hm ms).2.1

example : BackwardRuns (wpeMem (σ := Unit) 3 2 1 1e-5 (smallRef 0 2 2 5) none () smallHeap).2 :=
  wpe_backward_runs (m := none) (model := none) _ _ _ _ smallHeap_backward _ (smallRef_exists (by norm_num)) trivial _

/-- C142: `FIVE`. -/
theorem five_backward_runs [NeZero C] (solver : Matrix (Fin C) (Fin C) ℂ → EigRes (Fin C)) (nIter : ℕ)
    (ref : Fin C) (nPower : Option ℕ) {h : Heap} (hb : BackwardRuns h) (X : Ref (I3 C (F + 1) N)) (hX : Exists h X)
    {m : MemModel σ F N} {model : SourceModel σ F N} (hm : ActsAs m model) (reset : σ → σ) (ms : σ) :
    BackwardRuns (fiveMem solver nIter ref nPower X m reset ms h).2 :=
  (fiveMem_spec solver nIter ref nPower hb X hX hm reset ms).2.1

example : BackwardRuns (fiveMem (C := 3) (fun _ => ⟨fun _ => 1, 1⟩) 3 1 (some 5) (smallRef 0 3 3 5) (laplaceMem 1e-5) id ()
    smallHeap).2 :=
  five_backward_runs _ _ _ _ smallHeap_backward _ (smallRef_exists (by norm_num)) (laplace_memory_safe 1e-5) _ _

/-- C140, C142 for whole programs: after any sequence of calls to the algorithms (each on an existing tensor, for instance
the result of an earlier call, with exceptions caught) and of the user's own operations, no tensor from before has
changed, and the backward pass runs. -/
theorem program_leaves_tensors_alone {h h' : Heap} (r : Program h h') (hb : BackwardRuns h) :
    Untouched h h' ∧ BackwardRuns h' := by
  induction r with
  | done h => exact ⟨Untouched.refl h, hb⟩
  | @step a b c st _ ih =>
    have : Untouched a b ∧ BackwardRuns b := by
      cases st with
      | operation ids f hi => exact ⟨(isOut _ ids f).un, (isOut _ ids f).back hb hi⟩
      | tiss p nSrc X m model reset ms hX hm =>
        exact ⟨tiss_leaves_tensors_alone p nSrc hb X hX hm reset ms, tiss_backward_runs p nSrc hb X hX hm reset ms⟩
      | ip hs p X m model reset ms hX hm =>
        exact ⟨ip_leaves_tensors_alone hs p hb X hX hm reset ms, ip_backward_runs hs p hb X hX hm reset ms⟩
      | ip2 n mic eps X m model reset ms hX hm =>
        exact ⟨ip2_leaves_tensors_alone n mic eps hb X hX hm reset ms, ip2_backward_runs n mic eps hb X hX hm reset ms⟩
      | wpe n T D eps X m model ms hX hm =>
        exact ⟨wpe_leaves_tensors_alone n T D eps hb X hX hm ms, wpe_backward_runs n T D eps hb X hX hm ms⟩
      | five solver n ref np X m model reset ms hX hm =>
        exact ⟨five_leaves_tensors_alone solver n ref np hb X hX hm reset ms,
          five_backward_runs solver n ref np hb X hX hm reset ms⟩
    exact ⟨this.1.trans (ih this.2).1, (ih this.2).2⟩

/-- Dereverberation, then separation of the same recording, then an operation on the result. -/
example (f : I3 2 2 5 → ℂ) : ∃ h', Program smallHeap h' ∧ Untouched smallHeap h' ∧ BackwardRuns h' := by
  have u1 := wpe_leaves_tensors_alone (σ := Unit) (m := none) (model := none) 3 2 1 1e-5 smallHeap_backward (smallRef 0 2 2 5)
    (smallRef_exists (by norm_num)) trivial ()
  have a := u1.alive
  have prog : Program smallHeap _ := .step (.wpe (σ := Unit) 3 2 1 1e-5 (smallRef 0 2 2 5) none none ()
      (smallRef_exists (by norm_num)) trivial)
    (.step (.tiss ⟨4, 2, 1, some 0, true, 1e-5⟩ none (smallRef 0 2 2 5) (laplaceMem 1e-5) _ id ()
      (lt_of_lt_of_le (smallRef_exists (by norm_num)) a) (laplace_memory_safe 1e-5))
    (.step (.operation [] f (by simp)) (.done _)))
  exact ⟨_, prog, program_leaves_tensors_alone prog smallHeap_backward⟩

end Props
end Torchiva
