import Verif.Spec.Shape
import Verif.Proofs.ShapeB

/-!
# Which shapes the linear algebra routines accept (C138)

`solve_loaded`, `solve_loaded_general`, `inv_loaded` and `eigh` on matrices with any batch dimensions.
-/

namespace Torchiva.Props

open Spec

set_option linter.unusedSimpArgs false

private theorem mat_eq (batch : List ℕ) (m n : ℕ) : dims (batch ++ [m, n]) = n :: m :: batch.reverse := by
  simp [dims]

private theorem vec_eq (batch : List ℕ) (n : ℕ) : dims (batch ++ [n]) = n :: batch.reverse := by
  simp [dims]

/-- C138: `solve_loaded` with matrices `(..., n, n)` takes right-hand sides `(..., n)` and `(..., n, k)` with
the same batch dimensions and returns solutions of the shape of the right-hand side; `inv_loaded` returns
matrices of the shape of its argument. -/
theorem solve_loaded_shape (batch : List ℕ) (n k : ℕ) (hn : 0 < n) :
    solveLoadedS (dims (batch ++ [n, n])) (dims (batch ++ [n])) = .ok (dims (batch ++ [n])) ∧
    solveLoadedS (dims (batch ++ [n, n])) (dims (batch ++ [n, k])) = .ok (dims (batch ++ [n, k])) ∧
    invLoadedS (dims (batch ++ [n, n])) = .ok (dims (batch ++ [n, n])) := by
  simp only [mat_eq, vec_eq]
  exact ⟨solveLoadedS_vec n hn _, solveLoadedS_mat n k hn _, invLoadedS_ok n hn _⟩

example : solveLoadedS (dims [5, 4, 3, 3]) (dims [5, 4, 3, 7]) = .ok (dims [5, 4, 3, 7]) :=
  (solve_loaded_shape [5, 4] 3 7 (by norm_num)).2.1

/-- C138: one right-hand side matrix `(n, k)` for a whole batch of systems: the solutions are `(..., n, k)`.
Missing: the batch dimensions must not be exactly `(n,)` with `k = n` (see `solve_loaded_shared_violated`). -/
theorem solve_loaded_shared_partial (batch : List ℕ) (n k : ℕ) (hn : 0 < n) (h : ¬(batch = [n] ∧ k = n)) :
    solveLoadedS (dims (batch ++ [n, n])) (dims [n, k]) = .ok (dims (batch ++ [n, k])) := by
  have h2 : dims [n, k] = [k, n] := by simp [dims]
  rw [mat_eq, mat_eq, h2]
  have hv : ¬([k, n] = n :: batch.reverse) := by
    intro e
    simp only [List.cons.injEq] at e
    apply h
    refine ⟨?_, e.1⟩
    have := congrArg List.reverse e.2
    simpa using this.symm
  have hn' : n ≠ 0 := by omega
  simp [solveLoadedS, maxKeep, hn', ok_bind', bcast_cons, comb_one_left, comb_self, bcast_nil_right, bcast_nil_left,
    bcast_self, solveS, hv]

example : solveLoadedS (dims [5, 3, 3]) (dims [3, 3]) = .ok (dims [5, 3, 3]) :=
  solve_loaded_shared_partial [5] 3 3 (by norm_num) (by simp)

/-- C138 is false for shared right-hand sides in general: with exactly `n` systems of size `n` an `n × n`
right-hand side is read as `n` vectors, one for each system, and the result has no matrix dimension left. -/
theorem solve_loaded_shared_violated (n : ℕ) (hn : 0 < n) :
    solveLoadedS (dims [n, n, n]) (dims [n, n]) = .ok (dims [n, n]) ∧ dims [n, n] ≠ dims [n, n, n] :=
  ⟨(solve_loaded_shape [n] n 0 hn).1, by simp [dims]⟩

example : solveLoadedS (dims [2, 2, 2]) (dims [2, 2]) = .ok (dims [2, 2]) :=
  (solve_loaded_shared_violated 2 (by norm_num)).1

/-- C138: matrices that are not square are rejected by `solve_loaded` (whatever the right-hand side) and by
`inv_loaded`.  Missing: more than one row (see `solve_loaded_row_violated`). -/
theorem solve_loaded_square_partial (batch : List ℕ) (m n : ℕ) (rhs : Shape) (hm : 1 < m) (hn : 0 < n) (h : m ≠ n) :
    solveLoadedS (dims (batch ++ [m, n])) rhs = .error .runtimeError ∧
    invLoadedS (dims (batch ++ [m, n])) = .error .runtimeError := by
  rw [mat_eq]
  have hn' : n ≠ 0 := by omega
  have hm' : m ≠ 0 := by omega
  have hm1 : m ≠ 1 := by omega
  by_cases h1 : n = 1
  · subst h1
    simp [solveLoadedS, invLoadedS, maxKeep, hm', ok_bind', bcast_cons, comb_one_left, comb_one_right, comb_self,
      bcast_nil_right, bcast_nil_left, bcast_self, solveS, hm1, Ne.symm hm1]
  · have hc : comb m n = .error .runtimeError := by simp [comb, h, hm1, h1]
    simp [solveLoadedS, invLoadedS, maxKeep, hm', hn', ok_bind', err_bind', bcast_cons, comb_one_left, comb_one_right,
      comb_self, bcast_nil_right, bcast_nil_left, bcast_self, hc]

example : invLoadedS (dims [5, 2, 3]) = .error .runtimeError :=
  (solve_loaded_square_partial [5] 2 3 (dims []) (by norm_num) (by norm_num) (by norm_num)).2

/-- C138 is false for a single row: the diagonal loading stretches a `1 × n` matrix to `n × n`, and
`solve_loaded` and `inv_loaded` return a result. -/
theorem solve_loaded_row_violated (batch : List ℕ) (n k : ℕ) (hn : 1 < n) :
    solveLoadedS (dims (batch ++ [1, n])) (dims (batch ++ [n, k])) = .ok (dims (batch ++ [n, k])) ∧
    invLoadedS (dims (batch ++ [1, n])) = .ok (dims (batch ++ [n, n])) := by
  simp only [mat_eq]
  have hn' : n ≠ 0 := by omega
  have hv (r : Shape) : ¬(k :: n :: r = n :: r) := by
    intro e
    have := congrArg List.length e
    simp at this
  simp [solveLoadedS, invLoadedS, maxKeep, hn', ok_bind', bcast_cons, comb_one_left, comb_one_right, comb_self,
    bcast_nil_right, bcast_nil_left, bcast_self, solveS, hv]

example : invLoadedS (dims [1, 4]) = .ok (dims [4, 4]) := (solve_loaded_row_violated [] 4 1 (by norm_num)).2

/-- C138: `solve_loaded_general` with matrices `(..., m, n)`, square or not, and right-hand sides `(..., m, k)`
returns `(..., n, k)`; one right-hand side `(m, k)` for the whole batch gives the same. -/
theorem solve_general_shape (batch : List ℕ) (m n k : ℕ) :
    solveLoadedGeneralS (dims (batch ++ [m, n])) (dims (batch ++ [m, k])) = .ok (dims (batch ++ [n, k])) ∧
    solveLoadedGeneralS (dims (batch ++ [m, n])) (dims [m, k]) = .ok (dims (batch ++ [n, k])) := by
  simp only [mat_eq]
  exact ⟨solveLoadedGeneralS_ok n m k _, solveLoadedGeneralS_ok' n m k _⟩

example : solveLoadedGeneralS (dims [5, 3, 4]) (dims [5, 3, 2]) = .ok (dims [5, 4, 2]) :=
  (solve_general_shape [5] 3 4 2).1

/-- C138 is false for a single vector as right-hand side of `solve_loaded_general`: the row weights stretch it
to an `m × m` matrix and the result is an `n × m` matrix, not a vector of `n` entries. -/
theorem solve_general_vector_violated (m n : ℕ) :
    solveLoadedGeneralS (dims [m, n]) (dims [m]) = .ok (dims [n, m]) := by
  simp [dims, solveLoadedGeneralS, reduceKeep, onDim, pure_ok', ok_bind', bcast_cons, comb_one_left, comb_one_right, comb_self,
    bcast_nil_right, bcast_nil_left, bcast_self, einsum, bindOps, bindOp, bindLabel, List.lookup, solveS]

example : solveLoadedGeneralS (dims [3, 3]) (dims [3]) = .ok (dims [3, 3]) := solve_general_vector_violated 3 3

/-- C138: `eigh(A)` and `eigh(A, B)` with matrices `(..., n, n)` of the same shape return eigenvalues `(..., n)`
and eigenvectors `(..., n, n)`. -/
theorem eigh_shape (batch : List ℕ) (n : ℕ) :
    eighFullS (dims (batch ++ [n, n])) none = .ok (dims (batch ++ [n]), dims (batch ++ [n, n])) ∧
    eighFullS (dims (batch ++ [n, n])) (some (dims (batch ++ [n, n]))) =
      .ok (dims (batch ++ [n]), dims (batch ++ [n, n])) := by
  simp only [mat_eq, vec_eq]
  exact ⟨eighFullS_ok n _, eighFullS_gen n _⟩

example : eighFullS (dims [5, 3, 3]) (some (dims [5, 3, 3])) = .ok (dims [5, 3], dims [5, 3, 3]) := (eigh_shape [5] 3).2

/-- C138: `eigh` rejects a second matrix whose size differs from that of the first, whatever the batch
dimensions, and, except for `2 × 2` matrices, also one whose batch dimensions differ. -/
theorem eigh_mismatch (b₁ b₂ : List ℕ) (n k : ℕ) (h : n ≠ k ∨ (n ≠ 2 ∧ b₁ ≠ b₂)) :
    eighFullS (dims (b₁ ++ [n, n])) (some (dims (b₂ ++ [k, k]))) = .error .assertionError := by
  simp only [mat_eq]
  by_cases h2 : n = 2
  · subst h2
    have hk : 2 ≠ k := by rcases h with h | h; exact h; exact absurd rfl h.1
    show eigh2S (2 :: 2 :: b₁.reverse) (some (k :: k :: b₂.reverse)) = _
    match k, hk with
    | 0, _ => rfl
    | 1, _ => rfl
    | 2, hk => exact absurd rfl hk
    | k + 3, _ => simp [eigh2S]
  · have : ¬(n :: n :: b₁.reverse = k :: k :: b₂.reverse) := by
      simp only [List.cons.injEq, List.reverse_inj, not_and]
      intro e _ e'
      rcases h with h | h
      exacts [h e, h.2 e']
    simp [eighFullS, h2, this]

example : eighFullS (dims [5, 3, 3]) (some (dims [3, 3])) = .error .assertionError :=
  eigh_mismatch [5] [] 3 3 (Or.inr ⟨by norm_num, by simp⟩)

/-- C138 is false for broadcasting in `eigh`: one matrix `B` for a batch of matrices `A` is accepted for
`2 × 2` matrices and rejected for every other size. -/
theorem eigh_broadcast_violated (batch : List ℕ) (hb : batch ≠ []) (n : ℕ) :
    (n = 2 → eighFullS (dims (batch ++ [n, n])) (some (dims [n, n])) =
      .ok (dims (batch ++ [n]), dims (batch ++ [n, n]))) ∧
    (n ≠ 2 → eighFullS (dims (batch ++ [n, n])) (some (dims [n, n])) = .error .assertionError) := by
  constructor
  · rintro rfl
    simp only [mat_eq, vec_eq]
    simp [dims, eighFullS, eigh2S, bcast_cons, comb_self, bcast_nil_right, ok_bind']
  · intro h
    exact eigh_mismatch batch [] n n (Or.inr ⟨h, hb⟩)

example : eighFullS (dims [5, 2, 2]) (some (dims [2, 2])) = .ok (dims [5, 2], dims [5, 2, 2]) :=
  (eigh_broadcast_violated [5] (by simp) 2).1 rfl

end Torchiva.Props
