import Verif.Model.MemoryAlgos

/-!
# `eigh_2x2` on the heap

torchiva/linalg.py:150-253 fills the eigenvalues and eigenvectors entry by entry, in place, in tensors it has just created.
See `Model/Memory.lean`; `φ` is the type of batch indices.
-/

namespace Torchiva
namespace Memory

variable {φ : Type} [Encodable φ]

/-- torchiva/linalg.py:250-253: normalisation of the eigenvectors.  `norm` is the result of `sqrt`, which records it; a zero
divisor gives nan, reported as `nonFinite`. -/
noncomputable def normalizeMem (ev : Ref (φ × Fin 2)) (vec : Ref (φ × Fin 2 × Fin 2)) (eps : ℝ) :
    Mem (Ref (φ × Fin 2) × Ref (φ × Fin 2 × Fin 2)) := do
  let v ← read vec
  let norm ← out (ι := φ × Fin 2) [vec.id] fun i => (√(∑ k, magSq (v (i.1, k, i.2))) : ℂ)
  record [norm.id]
  let nv ← readR norm
  let vec ← outE (ι := φ × Fin 2 × Fin 2) [vec.id, norm.id]
    (open Classical in if ∃ i, clampMin (nv i) eps = 0 then .error .nonFinite
      else .ok fun i => divide (v i) (nv (i.1, i.2.2)) eps)
  return (ev, vec)

/-- torchiva/linalg.py:161-218, 250-253: `eigh_2x2` with two matrices (complex dtype). -/
noncomputable def eighGenMem (A B : Ref (φ × Fin 2 × Fin 2)) (eps : ℝ) :
    Mem (Ref (φ × Fin 2) × Ref (φ × Fin 2 × Fin 2)) := do
  let a ← read A
  let bb ← read B
  let b ← out (ι := φ) [A.id, B.id] fun f => (((a (f, 0, 0)).re * (bb (f, 1, 1)).re + (a (f, 1, 1)).re * (bb (f, 0, 0)).re
    - 2 * ((a (f, 0, 1)).re * (bb (f, 0, 1)).re + (a (f, 0, 1)).im * (bb (f, 0, 1)).im) : ℝ) : ℂ)
  let detA ← out (ι := φ) [A.id] fun f => (((a (f, 0, 0)).re * (a (f, 1, 1)).re - magSq (a (f, 0, 1)) : ℝ) : ℂ)
  let detB ← out (ι := φ) [B.id] fun f => (((bb (f, 0, 0)).re * (bb (f, 1, 1)).re - magSq (bb (f, 0, 1)) : ℝ) : ℂ)
  let bv ← readR b
  let da ← readR detA
  let db ← readR detB
  let delta ← out (ι := φ) [b.id, detA.id, detB.id] fun f => (clampMin (bv f ^ 2 - 4 * (da f * db f)) eps : ℂ)
  let dl ← readR delta
  let ev ← out (ι := φ × Fin 2) [] fun _ => 0
  record [delta.id]
  set ev (fun f => (f, 0)) fun f => ((0.5 * (bv f - √(dl f)) : ℝ) : ℂ)
  record [delta.id]
  set ev (fun f => (f, 1)) fun f => ((0.5 * (bv f + √(dl f)) : ℝ) : ℂ)
  let e ← readR ev
  let ev ← outE (ι := φ × Fin 2) [ev.id, detB.id]
    (open Classical in if ∃ f, clampMin (db f) eps = 0 then .error .nonFinite
      else .ok fun i => ((e i / clampMin (db i.1) eps : ℝ) : ℂ))
  let e ← readR ev
  let vec ← out (ι := φ × Fin 2 × Fin 2) [] fun _ => 0
  record [ev.id, B.id]
  set vec (fun f => (f, 0, 0)) fun f => (e (f, 0) : ℂ) * bb (f, 0, 1) - a (f, 0, 1)
  record [ev.id, B.id]
  set vec (fun f => (f, 1, 0)) fun f => a (f, 0, 0) - (e (f, 0) : ℂ) * bb (f, 0, 0)
  record [ev.id, B.id]
  set vec (fun f => (f, 0, 1)) fun f => (e (f, 1) : ℂ) * bb (f, 0, 1) - a (f, 0, 1)
  record [ev.id, B.id]
  set vec (fun f => (f, 1, 1)) fun f => a (f, 0, 0) - (e (f, 1) : ℂ) * bb (f, 0, 0)
  normalizeMem ev vec eps

/-- torchiva/linalg.py:220-253: `eigh_2x2` with one matrix. -/
noncomputable def eighPlainMem (A : Ref (φ × Fin 2 × Fin 2)) (eps : ℝ) :
    Mem (Ref (φ × Fin 2) × Ref (φ × Fin 2 × Fin 2)) := do
  let a ← read A
  let trace ← out (ι := φ) [] fun f => (((a (f, 0, 0)).re + (a (f, 1, 1)).re : ℝ) : ℂ)
  let det ← out (ι := φ) [A.id] fun f => (((a (f, 0, 0)).re * (a (f, 1, 1)).re - magSq (a (f, 0, 1)) : ℝ) : ℂ)
  let tv ← readR trace
  let dv ← readR det
  let delta ← out (ι := φ) [trace.id, det.id] fun f => (clampMin (tv f ^ 2 - 4 * dv f) eps : ℂ)
  let dl ← readR delta
  let ev ← out (ι := φ × Fin 2) [] fun _ => 0
  record [delta.id]
  set ev (fun f => (f, 0)) fun f => ((0.5 * (tv f - √(dl f)) : ℝ) : ℂ)
  record [delta.id]
  set ev (fun f => (f, 1)) fun f => ((0.5 * (tv f + √(dl f)) : ℝ) : ℂ)
  let e ← readR ev
  let vec ← out (ι := φ × Fin 2 × Fin 2) [] fun _ => 0
  set vec (fun f => (f, 1, 0)) fun f => a (f, 0, 1)
  set vec (fun f => (f, 0, 0)) fun f => (e (f, 0) : ℂ) - a (f, 1, 1)
  set vec (fun f => (f, 1, 1)) fun f => (e (f, 1) : ℂ) - a (f, 0, 0)
  set vec (fun f => (f, 0, 1)) fun f => a (f, 1, 0)
  normalizeMem ev vec eps

/-- torchiva/linalg.py:150-253 `eigh_2x2` on batches of 2x2 matrices (other sizes fail an assertion). -/
noncomputable def eigh2x2Mem (A : Ref (φ × Fin 2 × Fin 2)) (B : Option (Ref (φ × Fin 2 × Fin 2))) (eps : ℝ) :
    Mem (Ref (φ × Fin 2) × Ref (φ × Fin 2 × Fin 2)) :=
  match B with
  | some B => eighGenMem A B eps
  | none => eighPlainMem A eps

end Memory
end Torchiva
