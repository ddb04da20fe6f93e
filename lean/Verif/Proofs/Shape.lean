import Verif.Model.ShapeAlgos

/-! Evaluation of the shape model on symbolic shapes. -/

namespace Torchiva

theorem ok_bind' {α β : Type} (a : α) (f : α → Except Err β) : (Except.ok a >>= f) = f a := rfl
theorem err_bind' {α β : Type} (e : Err) (f : α → Except Err β) :
    ((Except.error e : Except Err α) >>= f) = .error e := rfl
theorem pure_ok' {α : Type} (a : α) : (pure a : Except Err α) = .ok a := rfl

theorem comb_self (n) : comb n n = .ok n := by simp [comb]
theorem comb_one_left (n) : comb 1 n = .ok n := by unfold comb; split_ifs with h <;> simp_all
theorem comb_one_right (n) : comb n 1 = .ok n := by unfold comb; split_ifs with h <;> simp_all
theorem bcast_self (s) : bcast s s = .ok s := by
  induction s with
  | nil => rfl
  | cons a s ih => simp [bcast, comb_self, ih]; rfl
theorem bcast_nil_left (s) : bcast [] s = .ok s := by cases s <;> rfl
theorem bcast_nil_right (s) : bcast s [] = .ok s := by cases s <;> rfl
theorem bcast_cons (m n : ℕ) (s t : Shape) :
    bcast (m :: s) (n :: t) = comb m n >>= fun k => bcast s t >>= fun r => .ok (k :: r) := rfl

theorem foldlM_const {σ α : Type} (f : σ → α → Except Err σ) (st : σ) (l : List α)
    (h : ∀ x ∈ l, f st x = .ok st) : l.foldlM f st = .ok st := by
  induction l with
  | nil => rfl
  | cons a l ih =>
    rw [List.foldlM_cons, h a (by simp), ok_bind']
    exact ih fun x hx => h x (by simp [hx])

theorem iterM_const {σ : Type} (f : σ → Except Err σ) (st : σ) (n : ℕ) (h : f st = .ok st) :
    iterM f n st = .ok st := by
  induction n with
  | zero => rfl
  | succ n ih => rw [iterM, h]; exact ih

attribute [local simp] ok_bind' err_bind' pure_ok' comb_self comb_one_left comb_one_right bcast_self
  bcast_nil_left bcast_nil_right bcast_cons bcastTo sel pick onDim unsq swap01 swap12 move13
  reduceKeep maxKeep reduce bindLabel bindOp bindOps einsum matmul eighS List.lookup

section
variable (N F C T s : ℕ) (b : Shape)

theorem solveLoadedGeneralS_ok (n m k : ℕ) (b : Shape) :
    solveLoadedGeneralS (n :: m :: b) (k :: m :: b) = .ok (k :: n :: b) := by
  simp [solveLoadedGeneralS, solveS]

theorem solveLoadedGeneralS_ok' (n m k : ℕ) (b : Shape) :
    solveLoadedGeneralS (n :: m :: b) [k, m] = .ok (k :: n :: b) := by
  simp [solveLoadedGeneralS, solveS]

attribute [local simp] solveLoadedGeneralS_ok solveLoadedGeneralS_ok'

theorem laplaceS_ok (n f : ℕ) (b : Shape) : laplaceS (n :: f :: b) = .ok (n :: f :: b) := by
  simp [laplaceS]

theorem gaussS_ok (n f : ℕ) (b : Shape) : gaussS (n :: f :: b) = .ok (n :: f :: b) := by
  simp [gaussS]

theorem demixDerevS_ok : demixDerevS (N :: F :: C :: b) (N :: T :: F :: C :: b) (C :: F :: s :: b)
    (T :: C :: F :: s :: b) = .ok (N :: F :: s :: b) := by
  simp [demixDerevS]

theorem demixBackgroundS_ok (hs : s ≤ C) :
    demixBackgroundS (N :: F :: C :: b) (s :: F :: (C - s) :: b) = .ok (N :: F :: (C - s) :: b) := by
  simp [demixBackgroundS, hs]

theorem issType1S_ok (i : ℕ) (hi : i < s) :
    issType1S i (N :: F :: s :: b) (N :: F :: s :: b) = .ok (F :: s :: b) := by
  simp [issType1S, hi]

theorem issType2S_ok :
    issType2S (N :: F :: s :: b) (N :: F :: b) (N :: F :: s :: b) = .ok (F :: s :: b) := by
  simp [issType2S]

attribute [local simp] issType1S_ok issType2S_ok demixBackgroundS_ok demixDerevS_ok

theorem issUpdatesS_ok (ZJ : Option (Shape × Shape))
    (h : (ZJ = none ∧ s = C) ∨
      (s ≤ C ∧ ZJ = some (N :: F :: (C - s) :: b, s :: F :: (C - s) :: b))) :
    issUpdatesS (N :: T :: F :: C :: b) (N :: F :: s :: b) ZJ
      ⟨N :: F :: s :: b, C :: F :: s :: b, T :: C :: F :: s :: b⟩ =
      .ok ⟨N :: F :: s :: b, C :: F :: s :: b, T :: C :: F :: s :: b⟩ := by
  have h1 : ∀ i ∈ List.range s, issSrcStepS (N :: F :: s :: b)
      ⟨N :: F :: s :: b, C :: F :: s :: b, T :: C :: F :: s :: b⟩ i =
      .ok ⟨N :: F :: s :: b, C :: F :: s :: b, T :: C :: F :: s :: b⟩ := by
    intro i hi
    rw [List.mem_range] at hi
    simp [issSrcStepS, hi]
  have h3 : ∀ i < C, ∀ t < T, issTapStepS (N :: F :: s :: b) (N :: T :: F :: C :: b)
      ⟨N :: F :: s :: b, C :: F :: s :: b, T :: C :: F :: s :: b⟩ i t =
      .ok ⟨N :: F :: s :: b, C :: F :: s :: b, T :: C :: F :: s :: b⟩ := by
    intro i hi t ht
    simp [issTapStepS, hi, ht]
  have h3' : ∀ n ≤ C, (List.range n).foldlM (fun st src => (List.range T).foldlM
      (fun st tap => issTapStepS (N :: F :: s :: b) (N :: T :: F :: C :: b) st src tap) st)
      (⟨N :: F :: s :: b, C :: F :: s :: b, T :: C :: F :: s :: b⟩ : IssS) =
      .ok ⟨N :: F :: s :: b, C :: F :: s :: b, T :: C :: F :: s :: b⟩ := by
    intro n hn
    refine foldlM_const _ _ _ fun i hi => foldlM_const _ _ _ fun t ht => ?_
    rw [List.mem_range] at hi ht
    exact h3 i (by omega) t ht
  rcases h with ⟨rfl, rfl⟩ | ⟨hs, rfl⟩
  · simp only [issUpdatesS, List.getD_cons_succ, List.getD_cons_zero, foldlM_const _ _ _ h1, ok_bind']
    exact h3' _ le_rfl
  · have h2 : ∀ i ∈ List.range (C - s), issBakStepS s (N :: F :: s :: b) (N :: F :: (C - s) :: b)
        (s :: F :: (C - s) :: b) ⟨N :: F :: s :: b, C :: F :: s :: b, T :: C :: F :: s :: b⟩ i =
        .ok ⟨N :: F :: s :: b, C :: F :: s :: b, T :: C :: F :: s :: b⟩ := by
      intro i hi
      rw [List.mem_range] at hi
      have : s + i < C := by omega
      simp [issBakStepS, hi, hs, this]
    simp only [issUpdatesS, List.getD_cons_succ, List.getD_cons_zero, foldlM_const _ _ _ h1, ok_bind',
      Nat.add_sub_cancel_left, foldlM_const _ _ _ h2]
    exact h3' _ (by omega)

theorem backgroundUpdateS_ok (hs : s ≤ C) :
    backgroundUpdateS (C :: F :: s :: b) (T :: C :: F :: s :: b) (C :: F :: C :: b)
      (C :: F :: T :: C :: b) = .ok (s :: F :: (C - s) :: b) := by
  simp [backgroundUpdateS, hs]

attribute [local simp] backgroundUpdateS_ok issUpdatesS_ok

/-- The shape of `J`. -/
def jS (F C s : ℕ) (b : Shape) : Option Shape :=
  if s < C then some (s :: F :: (C - s) :: b) else none

theorem tissOneIterS_ok (model : ShapeModel) (hs : s ≤ C)
    (hm : model (N :: F :: s :: b) = .ok (N :: F :: s :: b)) (cXX cXbarX : Shape)
    (hX : cXX = C :: F :: C :: b) (hXb : cXbarX = C :: F :: T :: C :: b) :
    tissOneIterS model (N :: F :: C :: b) (N :: T :: F :: C :: b) cXX cXbarX
      ⟨N :: F :: s :: b, C :: F :: s :: b, T :: C :: F :: s :: b, jS F C s b⟩ =
      .ok ⟨N :: F :: s :: b, C :: F :: s :: b, T :: C :: F :: s :: b, jS F C s b⟩ := by
  subst hX hXb
  unfold jS
  split_ifs with h
  · simp [tissOneIterS, hm, hs]
  · have : s = C := by omega
    subst this
    simp [tissOneIterS, hm]

theorem projectionBackWeightsS_ok (m : ℕ) (hs : s ≤ C) (hm : m < s ∨ (m < C ∧ b = [])) :
    projectionBackWeightsS (C :: F :: s :: b) (jS F C s b) m = .ok (1 :: F :: s :: b) := by
  unfold projectionBackWeightsS jS
  by_cases h : s < C
  · by_cases h2 : m < s
    · simp [h, hs, h2]
    · have : m - s < C - s := by omega
      have hb : b = [] := by
        rcases hm with hm | ⟨-, hb⟩
        · omega
        · exact hb
      subst hb
      simp [h, hs, h2, this, permute]
  · have : s = C := by omega
    subst this
    have : m < s := by omega
    simp [this]

theorem projectionBackWeightsS_err (m : ℕ) (hs : s < C) (hm : s ≤ m) (hmC : m < C) (hb : b ≠ []) :
    projectionBackWeightsS (C :: F :: s :: b) (jS F C s b) m = .error .runtimeError := by
  have h1 : ¬ m < s := by omega
  have h2 : m - s < C - s := by omega
  have h3 : ¬ 3 = (1 + b.length + 1 + 1) := by
    have : 0 < b.length := List.length_pos_of_ne_nil hb
    omega
  obtain ⟨a, b', rfl⟩ := List.exists_cons_of_ne_nil hb
  simp [projectionBackWeightsS, jS, hs, hs.le, h1, h2, permute]

attribute [local simp] projectionBackWeightsS_ok

theorem tissForwardS_ok (nIter T D N F C : ℕ) (nSrc : Option ℕ) (pb : Option ℕ) (dmc : Bool)
    (model : ShapeModel) (b : Shape) (hs : nSrc.getD C ≤ C)
    (hm : model (N :: F :: nSrc.getD C :: b) = .ok (N :: F :: nSrc.getD C :: b))
    (hpb : ∀ m ∈ pb, 0 < nIter → m < nSrc.getD C ∨ (m < C ∧ b = [])) :
    tissForwardS nIter T D nSrc pb dmc model (N :: F :: C :: b) =
      .ok (N :: F :: nSrc.getD C :: b) := by
  obtain ⟨s, hse⟩ : ∃ s, nSrc.getD C = s := ⟨_, rfl⟩
  rw [hse] at hs hm hpb ⊢
  have hJ : (if s < C then (backgroundUpdateS (C :: F :: s :: b) (T :: C :: F :: s :: b)
      (C :: F :: C :: b) (C :: F :: T :: C :: b)).map some else .ok none : Except Err (Option Shape)) =
      .ok (jS F C s b) := by
    unfold jS
    split_ifs with h
    · rw [backgroundUpdateS_ok F C T s b h.le]; rfl
    · rfl
  have hstep := tissOneIterS_ok N F C T s b model hs hm _ _ rfl rfl
  have hdmc : tissOneIterDmcS model (N :: F :: C :: b) (N :: T :: F :: C :: b) (C :: F :: C :: b)
      (C :: F :: T :: C :: b)
      ⟨N :: F :: s :: b, C :: F :: s :: b, T :: C :: F :: s :: b, jS F C s b⟩ =
      .ok ⟨N :: F :: s :: b, C :: F :: s :: b, T :: C :: F :: s :: b, jS F C s b⟩ := by
    simp [tissOneIterDmcS, hstep]
  have hloop : iterM (if dmc = true then tissOneIterDmcS model (N :: F :: C :: b)
        (N :: T :: F :: C :: b) (C :: F :: C :: b) (C :: F :: T :: C :: b)
      else tissOneIterS model (N :: F :: C :: b) (N :: T :: F :: C :: b) (C :: F :: C :: b)
        (C :: F :: T :: C :: b)) nIter
      ⟨N :: F :: s :: b, C :: F :: s :: b, T :: C :: F :: s :: b, jS F C s b⟩ =
      .ok ⟨N :: F :: s :: b, C :: F :: s :: b, T :: C :: F :: s :: b, jS F C s b⟩ := by
    apply iterM_const
    cases dmc
    · exact hstep
    · exact hdmc
  have hT : T + D + 1 - (D + 1) = T := by omega
  have hN : N + (T + D) + 1 - (T + D + 1) = N := by omega
  simp only [tissForwardS, hse, hs, if_true, delayedS, ok_bind', hT, hN]
  simp [hJ, hloop]
  cases pb with
  | none => simp
  | some m =>
    by_cases hn : 0 < nIter
    · simp [hn, projectionBackWeightsS_ok F C s b m hs (hpb m rfl hn)]
    · simp [hn]

theorem tissForwardS_err (nIter T D N F C : ℕ) (s m : ℕ) (dmc : Bool)
    (model : ShapeModel) (b : Shape) (hs : s < C)
    (hm : model (N :: F :: s :: b) = .ok (N :: F :: s :: b))
    (hn : 0 < nIter) (hms : s ≤ m) (hmC : m < C) (hb : b ≠ []) :
    tissForwardS nIter T D (some s) (some m) dmc model (N :: F :: C :: b) =
      .error .runtimeError := by
  have hstep := tissOneIterS_ok N F C T s b model hs.le hm _ _ rfl rfl
  have hdmc : tissOneIterDmcS model (N :: F :: C :: b) (N :: T :: F :: C :: b) (C :: F :: C :: b)
      (C :: F :: T :: C :: b)
      ⟨N :: F :: s :: b, C :: F :: s :: b, T :: C :: F :: s :: b, jS F C s b⟩ =
      .ok ⟨N :: F :: s :: b, C :: F :: s :: b, T :: C :: F :: s :: b, jS F C s b⟩ := by
    simp [tissOneIterDmcS, hstep]
  have hloop : iterM (if dmc = true then tissOneIterDmcS model (N :: F :: C :: b)
        (N :: T :: F :: C :: b) (C :: F :: C :: b) (C :: F :: T :: C :: b)
      else tissOneIterS model (N :: F :: C :: b) (N :: T :: F :: C :: b) (C :: F :: C :: b)
        (C :: F :: T :: C :: b)) nIter
      ⟨N :: F :: s :: b, C :: F :: s :: b, T :: C :: F :: s :: b, jS F C s b⟩ =
      .ok ⟨N :: F :: s :: b, C :: F :: s :: b, T :: C :: F :: s :: b, jS F C s b⟩ := by
    apply iterM_const
    cases dmc
    · exact hstep
    · exact hdmc
  have hJ : (Except.map some (.ok (s :: F :: (C - s) :: b)) : Except Err (Option Shape)) =
      .ok (jS F C s b) := by
    simp [jS, hs]; rfl
  have hT : T + D + 1 - (D + 1) = T := by omega
  have hN : N + (T + D) + 1 - (T + D + 1) = N := by omega
  simp only [tissForwardS, Option.getD_some, hs.le, if_true, delayedS, ok_bind', hT, hN]
  simp [hs, hs.le, hJ, hloop, hn, projectionBackWeightsS_err F C s b m hs hms hmC hb]

end

end Torchiva
