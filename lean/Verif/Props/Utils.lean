import Verif.Model.Utils
import Mathlib.Data.Fin.Tuple.Sort
import Mathlib.Data.List.OfFn

/-! # C53 `select_most_energetic`, C69 dtypes, C70 `import_name` -/

namespace Torchiva.Props

open Torchiva

/-- Energy of a signal (mean squared magnitude times its length). -/
noncomputable def signalEnergy {N : ℕ} (x : Fin N → ℂ) : ℝ := ∑ n, ‖x n‖ ^ 2

/-- C53: for `num ≥ 0` the output consists of the signals at `min num C` distinct positions, in order of
decreasing energy, and no signal left out has more energy than a selected one. -/
theorem select_most_energetic {C N : ℕ} [NeZero N] (argsort : (Fin C → ℝ) → Equiv.Perm (Fin C))
    (hsort : ArgsortDescContract C argsort) (x : Fin C → Fin N → ℂ) (num : ℕ) :
    ∃ idx : List (Fin C), selectMostEnergetic argsort x num = idx.map x ∧
      idx.length = min num C ∧ idx.Nodup ∧
      idx.Pairwise (fun i j => signalEnergy (x j) ≤ signalEnergy (x i)) ∧
      ∀ i ∈ idx, ∀ j ∉ idx, signalEnergy (x j) ≤ signalEnergy (x i) := by
  set power : Fin C → ℝ := fun c => (∑ n, ‖x c n‖ ^ 2) / N with hp
  have hN : (0 : ℝ) < N := by exact_mod_cast Nat.pos_of_ne_zero (NeZero.ne N)
  have hle : ∀ i j, power i ≤ power j → signalEnergy (x i) ≤ signalEnergy (x j) := fun i j h => by
    rwa [hp, div_le_div_iff_of_pos_right hN] at h
  set σ := argsort power with hσ
  have hs := hsort power
  refine ⟨(List.ofFn σ).take (pyTake C num), rfl, ?_, ?_, ?_, ?_⟩
  · have : ¬ ((num : ℤ) < 0) := by omega
    simp [pyTake, this]
  · exact (List.nodup_ofFn.2 σ.injective).sublist (List.take_sublist _ _)
  · refine List.Pairwise.sublist (List.take_sublist _ _) ?_
    rw [List.pairwise_ofFn]
    exact fun i j hij => hle _ _ (hs hij.le)
  · intro i hi j hj
    obtain ⟨a, ha, rfl⟩ := List.mem_take_iff_getElem.1 hi
    have hj' : j ∈ List.ofFn σ := by rw [List.mem_ofFn]; exact ⟨σ.symm j, by simp⟩
    obtain ⟨b, hb, rfl⟩ := List.mem_iff_getElem.1 hj'
    have hab : a < b := by
      by_contra h
      exact hj (List.mem_take_iff_getElem.2 ⟨b, by omega, rfl⟩)
    simp only [List.getElem_ofFn]
    exact hle _ _ (hs (by simpa using hab.le))

/-- C53: a negative `num` follows Python's slices: `-k` leaves out the `k` weakest signals. -/
theorem select_most_energetic_neg {C N : ℕ} [NeZero N]
    (argsort : (Fin C → ℝ) → Equiv.Perm (Fin C)) (x : Fin C → Fin N → ℂ) (k : ℕ) (hk : 0 < k) :
    selectMostEnergetic argsort x (-(k : ℤ)) = selectMostEnergetic argsort x ((C - k : ℕ) : ℤ) := by
  have h : -(k : ℤ) < 0 := by omega
  have h' : ¬ (((C - k : ℕ) : ℤ) < 0) := by omega
  simp [selectMostEnergetic, pyTake, h, h', hk]

/-- Leaving out the weakest of three signals. -/
example (argsort : (Fin 3 → ℝ) → Equiv.Perm (Fin 3)) (x : Fin 3 → Fin 2 → ℂ) :
    selectMostEnergetic argsort x (-1) = selectMostEnergetic argsort x 2 :=
  select_most_energetic_neg argsort x 1 one_pos

/-- C53: asking for at least as many signals as there are returns all of them. -/
theorem select_most_energetic_all {C N : ℕ} [NeZero N]
    (argsort : (Fin C → ℝ) → Equiv.Perm (Fin C)) (hsort : ArgsortDescContract C argsort)
    (x : Fin C → Fin N → ℂ) (num : ℕ) (h : C ≤ num) :
    ∃ idx : List (Fin C), selectMostEnergetic argsort x num = idx.map x ∧ ∀ c, c ∈ idx := by
  obtain ⟨idx, e, l, nd, -⟩ := select_most_energetic argsort hsort x num
  refine ⟨idx, e, fun c => ?_⟩
  rw [Nat.min_eq_right h] at l
  have hc : idx.toFinset = Finset.univ := by
    rw [← Finset.card_eq_iff_eq_univ, List.toFinset_card_of_nodup nd, l, Fintype.card_fin]
  exact List.mem_toFinset.1 (hc ▸ Finset.mem_univ c)

/-- A sorting function exists; asking for five signals of three returns all. -/
example (x : Fin 3 → Fin 2 → ℂ) : ∃ (argsort : _) (idx : List (Fin 3)), selectMostEnergetic argsort x 5 = idx.map x ∧ ∀ c : Fin 3, c ∈ idx :=
  ⟨fun v => Tuple.sort fun i => -v i, select_most_energetic_all _ (fun v i j hij => by
    have := Tuple.monotone_sort (fun i => -v i) hij
    simpa using this) x 5 (by norm_num)⟩

/-- A sorting function with the contract exists for every size. -/
theorem argsortDesc_exists (C : ℕ) : ∃ a, ArgsortDescContract C a := by
  refine ⟨fun v => Tuple.sort (fun i => -v i), fun v i j hij => ?_⟩
  have := Tuple.monotone_sort (fun i => -v i) hij
  simpa using this

/-- A concrete selection: the louder of two signals. -/
example (argsort : (Fin 2 → ℝ) → Equiv.Perm (Fin 2)) (hsort : ArgsortDescContract 2 argsort) :
    selectMostEnergetic (N := 1) argsort (fun c _ => if c = 0 then 1 else 3) 1 = [fun _ => 3] := by
  obtain ⟨idx, e, l, nd, -, best⟩ := select_most_energetic (N := 1) argsort hsort
    (fun c _ => if c = 0 then 1 else 3) 1
  have e' : selectMostEnergetic (N := 1) argsort (fun c _ => if c = 0 then 1 else 3) 1 = _ := e
  rw [e']
  obtain ⟨i, rfl⟩ := List.length_eq_one_iff.1 (by simpa using l)
  have hi : i = 1 := by
    by_contra h
    have h0 : i = 0 := by omega
    subst h0
    have := best 0 (by simp) 1 (by simp)
    norm_num [signalEnergy] at this
  subst hi
  simp

/-! ## C70 -/

/-- C70: a name with a single part returns the module, or raises `ImportError` if it does not exist. -/
theorem import_name_single (env : PyEnv) (a : String) :
    (env.exists_ [a] = true → importName env [a] = .ok (.module [a])) ∧
    (env.exists_ [a] = false → importName env [a] = .error .importError) := by
  constructor <;> intro h <;> simp [importName, PyEnv.importable, h]

/-- C70: `import_name("p1.….pk.target")` with every module `p1`, `p1.p2`, ..., importable returns the
attribute `target` of the last one; failing that the submodule of that name; failing that it raises
`ImportError`. -/
theorem import_name_dotted (env : PyEnv) (path : List String) (target : String) (hp : path ≠ [])
    (himp : ∀ k < path.length, env.exists_ (path.take (k + 1)) = true) :
    (∀ o, env.attr path target = some o → importName env (path ++ [target]) = .ok o) ∧
    (env.attr path target = none → env.exists_ (path ++ [target]) = true →
      importName env (path ++ [target]) = .ok (.module (path ++ [target]))) ∧
    (env.attr path target = none → env.exists_ (path ++ [target]) = false →
      importName env (path ++ [target]) = .error .importError) := by
  have hl : (path ++ [target]).length ≠ 1 := by
    have := List.length_pos_iff.2 hp
    simp; exact hp
  have hi : env.importable path = true := by
    simp only [PyEnv.importable, decide_eq_true_eq]; exact ⟨hp, himp⟩
  have hlast : (path ++ [target]).getLastD "" = target := by
    simp [List.getLastD_eq_getLast?]
  refine ⟨fun o ho => ?_, fun hn hs => ?_, fun hn hs => ?_⟩ <;>
    simp only [importName, hl, if_false, List.dropLast_concat, hlast, hi, if_true,
      PyEnv.fromlistAttr, *] <;> simp

/-- C70: if some module on the way does not exist, `ImportError` is raised. -/
theorem import_name_missing_module (env : PyEnv) (path : List String) (target : String)
    (hp : path ≠ []) (k : ℕ) (hk : k < path.length) (h : env.exists_ (path.take (k + 1)) = false) :
    importName env (path ++ [target]) = .error .importError := by
  have hl : (path ++ [target]).length ≠ 1 := by simp; exact hp
  have hi : env.importable path = false := by
    simp only [PyEnv.importable, decide_eq_false_iff_not, not_and]
    intro _ h2
    rw [h2 k hk] at h
    cases h
  simp only [importName, hl, if_false, List.dropLast_concat, hi]
  simp

/-- C70: `instantiate` calls the resolved object with the given positional and keyword arguments;
`None` means no arguments; it never calls anything when the name does not resolve. -/
theorem instantiate_spec {V : Type} (env : PyEnv)
    (call : PyObj → List V → List (String × V) → Except Err V) (parts : List String) (o : PyObj)
    (ho : importName env parts = .ok o) (args : List V) (kwargs : List (String × V)) :
    instantiate env call parts (some args) (some kwargs) = call o args kwargs ∧
    instantiate env call parts none (some kwargs) = call o [] kwargs ∧
    instantiate env call parts (some args) none = call o args [] ∧
    instantiate env call parts none none = call o [] [] := by
  refine ⟨?_, ?_, ?_, ?_⟩ <;> simp [instantiate, ho, bind, Except.bind]

theorem instantiate_unresolved {V : Type} (env : PyEnv)
    (call : PyObj → List V → List (String × V) → Except Err V) (parts : List String) (e : Err)
    (he : importName env parts = .error e) (args kwargs) :
    instantiate env call parts args kwargs = .error e := by
  simp [instantiate, he, bind, Except.bind]

/-- For `import_name_dotted`, `import_name_missing_module` and `instantiate_spec`: an environment with package `torchiva`, module `torchiva.models` and class 7 in it. -/
example : let env : PyEnv :=
      { exists_ := fun p => p = ["torchiva"] ∨ p = ["torchiva", "models"]
        attr := fun p t => if p = ["torchiva", "models"] ∧ t = "GLUMask" then some (.value 7) else none }
    importName env ["torchiva", "models", "GLUMask"] = .ok (.value 7) ∧
    importName env ["torchiva", "models"] = .ok (.module ["torchiva", "models"]) ∧
    importName env ["torchiva", "models", "X"] = .error .importError ∧
    importName env ["torchiva", "nets", "X"] = .error .importError := by
  refine ⟨?_, ?_, ?_, ?_⟩ <;> decide

/-! ## C69 -/

/-- C69: on the four supported dtypes, given as a dtype or as a tensor, the two maps go to the type of
the same precision, are inverse to each other and idempotent; every other dtype fails the assertion. -/
theorem dtype_maps :
    (∀ mk : Dtype → DtypeArg, (mk = .dtype ∨ mk = .tensor) →
      dtypeF2cpx (mk .float32) = .ok .complex64 ∧ dtypeF2cpx (mk .float64) = .ok .complex128 ∧
      dtypeF2cpx (mk .complex64) = .ok .complex64 ∧ dtypeF2cpx (mk .complex128) = .ok .complex128 ∧
      dtypeCpx2f (mk .complex64) = .ok .float32 ∧ dtypeCpx2f (mk .complex128) = .ok .float64 ∧
      dtypeCpx2f (mk .float32) = .ok .float32 ∧ dtypeCpx2f (mk .float64) = .ok .float64) ∧
    (∀ a t, dtypeF2cpx a = .ok t → isComplexType (.dtype t) = true ∧
      dtypeF2cpx (.dtype t) = .ok t ∧ ∃ r, dtypeCpx2f (.dtype t) = .ok r ∧
        dtypeCpx2f a = .ok r ∧ dtypeF2cpx (.dtype r) = .ok t) ∧
    (∀ a t, dtypeCpx2f a = .ok t → isComplexType (.dtype t) = false ∧
      dtypeCpx2f (.dtype t) = .ok t ∧ ∃ c, dtypeF2cpx (.dtype t) = .ok c ∧
        dtypeF2cpx a = .ok c ∧ dtypeCpx2f (.dtype c) = .ok t) ∧
    (∀ a, a.get ∉ [Dtype.float32, .float64, .complex64, .complex128] →
      dtypeF2cpx a = .error .assertionError ∧ dtypeCpx2f a = .error .assertionError) := by
  refine ⟨?_, ?_, ?_, ?_⟩
  · rintro mk (rfl | rfl) <;> decide
  · intro a t h
    obtain ⟨d⟩ | ⟨d⟩ := a <;> cases d <;> cases h <;> exact ⟨rfl, rfl, _, rfl, rfl, rfl⟩
  · intro a t h
    obtain ⟨d⟩ | ⟨d⟩ := a <;> cases d <;> cases h <;> exact ⟨rfl, rfl, _, rfl, rfl, rfl⟩
  · intro a h
    obtain ⟨d⟩ | ⟨d⟩ := a <;> cases d <;> simp [DtypeArg.get] at h <;> exact ⟨rfl, rfl⟩

/-- The rejected set is not empty: half precision and integers. -/
example : dtypeF2cpx (.dtype .float16) = .error .assertionError ∧
    dtypeCpx2f (.tensor (.other 0)) = .error .assertionError :=
  ⟨(dtype_maps.2.2.2 _ (by decide)).1, (dtype_maps.2.2.2 _ (by decide)).2⟩

end Torchiva.Props
