import Verif.Proofs.MemoryLinalg
import Verif.Props.Memory
import Verif.Props.Linalg

/-!
# C140–C142 for `eigh_2x2`, which fills its results in place
-/

namespace Torchiva
namespace Props

open Memory Torchiva.Spec _root_.Spec
open scoped ComplexOrder

variable {φ : Type} [Encodable φ]

/-- The matrices in a tensor. -/
def matrices (h : Heap) (A : Ref (φ × Fin 2 × Fin 2)) (f : φ) : Matrix (Fin 2) (Fin 2) ℂ := fun i j => h.read A (f, i, j)

/-- C140: `eigh_2x2` modifies no existing tensor, with one matrix or two, whether it ends with finite numbers or not. -/
theorem eigh_2x2_leaves_tensors_alone {h : Heap} (hb : BackwardRuns h) {A : Ref (φ × Fin 2 × Fin 2)}
    {B : Option (Ref (φ × Fin 2 × Fin 2))} (hA : Exists h A) (hB : ∀ b ∈ B, Exists h b) (eps : ℝ) :
    Untouched h (eigh2x2Mem A B eps h).2 := by
  cases B with
  | none => exact (eighPlainMem_spec hb hA eps).1
  | some B => exact (eighGenMem_spec hb hA (hB B rfl) eps).1

/-- C142: the backward pass runs through `eigh_2x2`: nothing it wrote in place had been recorded before. -/
theorem eigh_2x2_backward_runs {h : Heap} (hb : BackwardRuns h) {A : Ref (φ × Fin 2 × Fin 2)}
    {B : Option (Ref (φ × Fin 2 × Fin 2))} (hA : Exists h A) (hB : ∀ b ∈ B, Exists h b) (eps : ℝ) :
    BackwardRuns (eigh2x2Mem A B eps h).2 := by
  cases B with
  | none => exact (eighPlainMem_spec hb hA eps).2.1
  | some B => exact (eighGenMem_spec hb hA (hB B rfl) eps).2.1

/-- C140: `eigh_2x2` of a whole batch, filled entry by entry, is the decomposition of each of its matrices. -/
theorem eigh_2x2_in_place_computes {h : Heap} (hb : BackwardRuns h) {A : Ref (φ × Fin 2 × Fin 2)}
    {B : Option (Ref (φ × Fin 2 × Fin 2))} (hA : Exists h A) (hB : ∀ b ∈ B, Exists h b) (eps : ℝ) :
    EndsAs (eigh2x2Mem A B eps h)
      (seqAll fun f => eigh2x2 ⟨2, 2, matrices h A f⟩ (B.map fun b => ⟨2, 2, matrices h b f⟩) eps)
      fun o h' r => (∀ f i, h'.read o.1 (f, i) = ((r f).val i : ℂ)) ∧ ∀ f, matrices h' o.2 f = (r f).vec := by
  cases B with
  | none =>
    simp only [Option.map_none, eigh2x2_none]
    exact ((eighPlainMem_spec hb hA eps).mono (Q' := fun (o : Ref (φ × Fin 2) × Ref (φ × Fin 2 × Fin 2)) (h' : Heap) (r : φ → EigRes (Fin 2)) =>
      (∀ f i, h'.read o.1 (f, i) = ((r f).val i : ℂ)) ∧ ∀ f, matrices h' o.2 f = (r f).vec) fun _ _ _ q =>
      ⟨q.val, fun f => funext fun i => funext fun j => q.vec f i j⟩).2.2
  | some B =>
    simp only [Option.map_some, eigh2x2_some]
    exact ((eighGenMem_spec hb hA (hB B rfl) eps).mono (Q' := fun (o : Ref (φ × Fin 2) × Ref (φ × Fin 2 × Fin 2)) (h' : Heap) (r : φ → EigRes (Fin 2)) =>
      (∀ f i, h'.read o.1 (f, i) = ((r f).val i : ℂ)) ∧ ∀ f, matrices h' o.2 f = (r f).vec) fun _ _ _ q =>
      ⟨q.val, fun f => funext fun i => funext fun j => q.vec f i j⟩).2.2

/-- Three pairs of matrices: a tensor of ones and a tensor of twos. -/
example : Untouched smallHeap (eigh2x2Mem (smallRef 0 3 2 2) (some (smallRef 1 3 2 2)) 1e-5 smallHeap).2 ∧
    BackwardRuns (eigh2x2Mem (smallRef 0 3 2 2) (some (smallRef 1 3 2 2)) 1e-5 smallHeap).2 ∧
    EndsAs (eigh2x2Mem (smallRef 0 3 2 2) (some (smallRef 1 3 2 2)) 1e-5 smallHeap)
      (seqAll fun _ : Fin 3 => eigh2x2 ⟨2, 2, fun _ _ => 1⟩ (some ⟨2, 2, fun _ _ => 2⟩) 1e-5)
      fun o h' r => (∀ f i, h'.read o.1 (f, i) = ((r f).val i : ℂ)) ∧ ∀ f, matrices h' o.2 f = (r f).vec := by
  have hA : Exists smallHeap (smallRef 0 3 2 2) := smallRef_exists (by norm_num)
  have hB : ∀ b ∈ some (smallRef 1 3 2 2), Exists smallHeap b := fun b hb => by
    obtain rfl := Option.some.inj hb
    exact smallRef_exists (by norm_num)
  have h := eigh_2x2_in_place_computes smallHeap_backward hA hB 1e-5
  have e0 : ∀ f, matrices smallHeap (smallRef 0 3 2 2) f = fun _ _ => 1 := fun f => by
    funext i j; simp [matrices, Heap.read, smallRef, smallHeap]
  have e1 : ∀ f, matrices smallHeap (smallRef 1 3 2 2) f = fun _ _ => 2 := fun f => by
    funext i j; simp [matrices, Heap.read, smallRef, smallHeap]; norm_num
  simp only [Option.map_some, e0, e1] at h
  exact ⟨eigh_2x2_leaves_tensors_alone smallHeap_backward hA hB 1e-5, eigh_2x2_backward_runs smallHeap_backward hA hB 1e-5, h⟩

/-- C141: the eigenvalues and eigenvectors are the caller's own: they share memory with no tensor that existed, and not
with each other. -/
theorem eigh_2x2_result_is_fresh {h : Heap} (hb : BackwardRuns h) {A : Ref (φ × Fin 2 × Fin 2)}
    {B : Option (Ref (φ × Fin 2 × Fin 2))} (hA : Exists h A) (hB : ∀ b ∈ B, Exists h b) (eps : ℝ)
    {o : Ref (φ × Fin 2) × Ref (φ × Fin 2 × Fin 2)} (ho : (eigh2x2Mem A B eps h).1 = .ok o) :
    Fresh h o.1 ∧ Fresh h o.2 ∧ o.1.id ≠ o.2.id := by
  cases B with
  | none => exact (eighPlainMem_spec hb hA eps).result ho fun _ q => ⟨q.vnew, q.wnew, q.ne⟩
  | some B => exact (eighGenMem_spec hb hA (hB B rfl) eps).result ho fun _ q => ⟨q.vnew, q.wnew, q.ne⟩

/-- C140: in a batch of Hermitian and positive definite matrices whose first rows are not proportional, the tensors that
`eigh_2x2` returns hold, for every element of the batch, ascending eigenvalues and unit eigenvectors. -/
theorem eigh_2x2_batch_eigenpairs {h : Heap} (hb : BackwardRuns h) {A B : Ref (φ × Fin 2 × Fin 2)}
    (hA : Exists h A) (hB : Exists h B) (herm : ∀ f, (matrices h A f).IsHermitian) (hpos : ∀ f, (matrices h B f).PosDef)
    (hp : ∀ f, matrices h A f 0 0 * matrices h B f 0 1 ≠ matrices h A f 0 1 * matrices h B f 0 0) :
    ∃ o h', eigh2x2Mem A (some B) 0 h = (.ok o, h') ∧ Untouched h h' ∧ BackwardRuns h' ∧
      ∀ f, h'.readR o.1 (f, 0) ≤ h'.readR o.1 (f, 1) ∧
        ∀ k, IsEigenpair (matrices h A f) (matrices h B f) (h'.readR o.1 (f, k)) (fun i => matrices h' o.2 f i k) ∧
          l2 (fun i => matrices h' o.2 f i k) = 1 := by
  have hc := eigh_2x2_in_place_computes hb hA (B := some B) (by simpa using hB) 0
  have hu := eigh_2x2_leaves_tensors_alone hb hA (B := some B) (by simpa using hB) 0
  have hw := eigh_2x2_backward_runs hb hA (B := some B) (by simpa using hB) 0
  choose r hr using fun f => eigh_2x2_gen_total (matrices h A f) (matrices h B f) (hpos f) (hp f)
  have hs : (seqAll fun f => eigh2x2 ⟨2, 2, matrices h A f⟩ ((some B).map fun b => ⟨2, 2, matrices h b f⟩) 0) = .ok r :=
    seqAll_ok_iff.2 hr
  rw [hs] at hc
  obtain ⟨o, ho, hv, hV⟩ := hc
  refine ⟨o, _, Prod.ext ho rfl, hu, hw, fun f => ?_⟩
  obtain ⟨a, b, c⟩ := eigh_2x2_gen_default _ _ (herm f) (hpos f) (r f) (hr f)
  have hv' : ∀ k, (eigh2x2Mem A (some B) 0 h).2.readR o.1 (f, k) = (r f).val k := fun k => by
    simp only [Heap.readR]
    rw [hv, Complex.ofReal_re]
  refine ⟨by rw [hv', hv']; exact a, fun k => ?_⟩
  rw [hV f, hv']
  exact ⟨b k, c k⟩

/-- A batch of two complex pairs in the first two storages of a heap. -/
def pairHeap : Heap :=
  ((⟨fun _ _ => 0, fun _ => 0, 0, []⟩ : Heap).out [] fun i : Fin 2 × Fin 2 × Fin 2 =>
    (!![2, Complex.I; -Complex.I, (i.1 : ℕ)] : Matrix (Fin 2) (Fin 2) ℂ) i.2.1 i.2.2).out []
      fun i : Fin 2 × Fin 2 × Fin 2 => (1 : Matrix (Fin 2) (Fin 2) ℂ) i.2.1 i.2.2

/-- The first and the second tensor of `pairHeap`. -/
def pairRef (i : ℕ) : Ref (Fin 2 × Fin 2 × Fin 2) := ⟨i, Encodable.encode⟩

theorem pairHeap_first (f : Fin 2) : matrices pairHeap (pairRef 0) f = !![2, Complex.I; -Complex.I, (f : ℕ)] := by
  have e := (out_untouched ((⟨fun _ _ => 0, fun _ => 0, 0, []⟩ : Heap).out [] fun i : Fin 2 × Fin 2 × Fin 2 =>
    (!![2, Complex.I; -Complex.I, (i.1 : ℕ)] : Matrix (Fin 2) (Fin 2) ℂ) i.2.1 i.2.2) []
      fun i : Fin 2 × Fin 2 × Fin 2 => (1 : Matrix (Fin 2) (Fin 2) ℂ) i.2.1 i.2.2).read (pairRef 0)
      (by show 0 < 0 + 1; norm_num)
  funext i j
  refine (congrFun e (f, i, j)).trans ?_
  exact congrFun (out_read_new (⟨fun _ _ => 0, fun _ => 0, 0, []⟩ : Heap) [] fun i : Fin 2 × Fin 2 × Fin 2 =>
    (!![2, Complex.I; -Complex.I, (i.1 : ℕ)] : Matrix (Fin 2) (Fin 2) ℂ) i.2.1 i.2.2) (f, i, j)

theorem pairHeap_second (f : Fin 2) : matrices pairHeap (pairRef 1) f = 1 := by
  funext i j
  exact congrFun (out_read_new ((⟨fun _ _ => 0, fun _ => 0, 0, []⟩ : Heap).out [] fun i : Fin 2 × Fin 2 × Fin 2 =>
    (!![2, Complex.I; -Complex.I, (i.1 : ℕ)] : Matrix (Fin 2) (Fin 2) ℂ) i.2.1 i.2.2) []
      fun i : Fin 2 × Fin 2 × Fin 2 => (1 : Matrix (Fin 2) (Fin 2) ℂ) i.2.1 i.2.2) (f, i, j)

/-- All hypotheses of the theorems above hold for a batch of two different complex matrices. -/
example : ∃ o h', eigh2x2Mem (pairRef 0) (some (pairRef 1)) 0 pairHeap = (.ok o, h') ∧
    Fresh pairHeap o.1 ∧ Fresh pairHeap o.2 ∧ o.1.id ≠ o.2.id ∧
    h'.read (pairRef 0) (1, 0, 1) = Complex.I ∧ l2 (fun i => matrices h' o.2 1 i 0) = 1 := by
  have hb : BackwardRuns pairHeap := by simp [BackwardRuns, pairHeap, Heap.out]
  have h0 : Exists pairHeap (pairRef 0) := show 0 < 2 by norm_num
  have h1 : Exists pairHeap (pairRef 1) := show 1 < 2 by norm_num
  obtain ⟨o, h', e, u, -, q⟩ := eigh_2x2_batch_eigenpairs hb h0 h1
    (fun f => by
      rw [pairHeap_first]
      ext i j; fin_cases i <;> fin_cases j <;> simp)
    (fun f => by rw [pairHeap_second]; exact Matrix.PosDef.one)
    (fun f => by simp [pairHeap_first, pairHeap_second, eq_comm])
  obtain ⟨f0, f1, fd⟩ := eigh_2x2_result_is_fresh hb h0 (B := some (pairRef 1)) (by simpa using h1) 0 (o := o) (by rw [e])
  refine ⟨o, h', e, f0, f1, fd, ?_, ((q 1).2 0).2⟩
  rw [u.read _ h0]
  have := congrFun (congrFun (pairHeap_first 1) 0) 1
  simpa [matrices] using this

/-! ## The bookkeeping is not vacuous -/

/-- What the algorithms must not do would be noticed: the Laplace model records its input, so writing to that tensor after
the call makes the backward pass fail. -/
example (v : I3 1 1 1 → ℂ) :
    ¬ BackwardRuns ((laplaceMem (F := 1) (N := 1) 1e-5 1 () (smallRef 0 1 1 1) smallHeap).2.set (smallRef 0 1 1 1) id v) := by
  intro hb
  have := (hb (0, 0) (by simp [laplaceMem, bind_apply, Memory.read, Memory.out, Heap.out, Heap.set, smallRef, smallHeap,
    Memory.readR])).2
  simp [Heap.set, smallRef, laplaceMem, bind_apply, Memory.read, Memory.out, Heap.out, smallHeap, Memory.readR] at this

end Props
end Torchiva
