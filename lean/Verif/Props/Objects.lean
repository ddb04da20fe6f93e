import Verif.Model.Objects

/-! # C54, C55, C56, C58: separator objects -/

namespace Torchiva.Props

open Torchiva

variable {V σ X Y R : Type} [DecidableEq V]

/-! ## C58: forward arguments -/

/-- The value a parameter takes in a call: the argument if it is not `None`, else the attribute. -/
def effective (attrs override : String → Option V) (k : String) : Option V :=
  match override k with
  | some v => some v
  | none => attrs k

/-- C58: in every history of calls, each call runs with, for every parameter, its own argument or
the constructor's value: the parameters of a call do not depend on the calls before it, and at the
end the attributes are those the constructor set. -/
theorem forward_params_do_not_persist (M : Models V σ) (A : Algo V σ X Y R) (obj : BssObj V R)
    (heap : V → σ) (calls : List ((String → Option V) × X)) :
    (bssHistory M A obj heap calls).2.1.attrs = obj.attrs := by
  have step : ∀ (obj : BssObj V R) heap o x, (bssForward M A obj heap o x).2.1.attrs = obj.attrs := by
    intro obj heap o x
    unfold bssForward
    dsimp only
    split
    · rfl
    · rfl
    · split <;> rfl
  induction calls generalizing obj heap with
  | nil => rfl
  | cons c cs ih =>
    obtain ⟨o, x⟩ := c
    show (bssHistory M A (bssForward M A obj heap o x).2.1 (bssForward M A obj heap o x).2.2 cs).2.1.attrs = _
    rw [ih, step]

/-- C58: the parameters given to the run are the effective ones, in the order of the keywords. -/
theorem params_effective (attrs override : String → Option V) (keys : List String) :
    setParams attrs (keys.map fun k => (k, override k)) = keys.map (effective attrs override) := by
  unfold setParams effective
  rw [List.map_map]
  refine List.map_congr_left fun k _ => ?_
  simp only [Function.comp_apply]
  cases override k <;> rfl

/-- C58 and C56: in any history in which every model used has a `reset` method, the outputs are those
of running each call alone on a newly constructed object and any model states: nothing (arguments,
tensors kept on the object, model state, exceptions) leaks from one call to a later one. -/
theorem forward_history_independent (M : Models V σ) (A : Algo V σ X Y R) (obj : BssObj V R)
    (heap : V → σ) (calls : List ((String → Option V) × X))
    (hreset : ∀ c ∈ calls, ∀ m, effective obj.attrs c.1 "model" = some m → M.hasReset m = true)
    (heap0 : V → σ) (last0 : Option R) :
    (bssHistory M A obj heap calls).1 =
      calls.map fun c => (bssForward M A ⟨obj.attrs, last0⟩ heap0 c.1 c.2).1 := by
  have one : ∀ (obj : BssObj V R) (heap : V → σ) o x,
      (∀ m, effective obj.attrs o "model" = some m → M.hasReset m = true) →
      (bssForward M A obj heap o x).1 = (bssForward M A ⟨obj.attrs, last0⟩ heap0 o x).1 := by
    intro obj heap o x h
    unfold bssForward
    dsimp only
    have hm : (o "model").or (obj.attrs "model") = effective obj.attrs o "model" := by
      unfold effective; cases o "model" <;> rfl
    rw [hm]
    generalize hc : A.check _ x = chk
    cases chk with
    | error e => rfl
    | ok u =>
      cases he : effective obj.attrs o "model" with
      | none => rfl
      | some m =>
        have hr := h m he
        dsimp only
        unfold resetModel
        simp only [hr, if_true]
        split <;> simp_all
  induction calls generalizing obj heap with
  | nil => rfl
  | cons c cs ih =>
    obtain ⟨o, x⟩ := c
    show (bssForward M A obj heap o x).1 ::
      (bssHistory M A (bssForward M A obj heap o x).2.1 (bssForward M A obj heap o x).2.2 cs).1 = _
    have ha : (bssForward M A obj heap o x).2.1.attrs = obj.attrs := by
      have := forward_params_do_not_persist M A obj heap [(o, x)]
      exact this
    rw [ih _ _ (fun c hc m hm => by rw [ha] at hm; exact hreset c (List.mem_cons_of_mem _ hc) m hm),
      one obj heap o x (hreset _ List.mem_cons_self), ha]
    rfl

/-- C58 and C56: a history of calls changes the state of no source model other than those the calls
use. -/
theorem forward_leaves_other_models (M : Models V σ) (A : Algo V σ X Y R) (obj : BssObj V R)
    (heap : V → σ) (calls : List ((String → Option V) × X)) (v : V)
    (hv : ∀ c ∈ calls, effective obj.attrs c.1 "model" ≠ some v) :
    (bssHistory M A obj heap calls).2.2 v = heap v := by
  have step : ∀ (obj : BssObj V R) (heap : V → σ) o x, effective obj.attrs o "model" ≠ some v →
      (bssForward M A obj heap o x).2.2 v = heap v := by
    intro obj heap o x h
    have hm : (o "model").or (obj.attrs "model") = effective obj.attrs o "model" := by
      unfold effective; cases o "model" <;> rfl
    unfold bssForward
    dsimp only
    rw [hm]
    split
    · rfl
    · rfl
    · rename_i m _ hm'
      have hne : v ≠ m := by rintro rfl; exact h hm'
      have : resetModel M heap m v = heap v := by
        unfold resetModel; split_ifs <;> simp [hne]
      split <;> simp [hne, this]
  induction calls generalizing obj heap with
  | nil => rfl
  | cons c cs ih =>
    obtain ⟨o, x⟩ := c
    show (bssHistory M A (bssForward M A obj heap o x).2.1 (bssForward M A obj heap o x).2.2 cs).2.2 v = _
    have ha : (bssForward M A obj heap o x).2.1.attrs = obj.attrs :=
      forward_params_do_not_persist M A obj heap [(o, x)]
    rw [ih _ _ (fun c hc => by rw [ha]; exact hv c (List.mem_cons_of_mem _ hc)),
      step _ _ _ _ (hv _ List.mem_cons_self)]

/-- C58: passing `None` and passing the constructor's value are the same call; in particular a call
cannot set a parameter to `None` when the constructor did not. -/
theorem forward_none_is_attribute (M : Models V σ) (A : Algo V σ X Y R) (obj : BssObj V R)
    (heap : V → σ) (override : String → Option V) (k : String) (x : X) (hk : override k = none) :
    bssForward M A obj heap (fun k' => if k' = k then obj.attrs k else override k') x =
      bssForward M A obj heap override x := by
  have h1 : ∀ k', effective obj.attrs (fun k' => if k' = k then obj.attrs k else override k') k' =
      effective obj.attrs override k' := by
    intro k'
    unfold effective
    by_cases h : k' = k
    · subst h; simp only [if_true, hk]; cases obj.attrs k' <;> rfl
    · simp only [h, if_false]
  have hm : ∀ o : String → Option V, (o "model").or (obj.attrs "model") = effective obj.attrs o "model" := by
    intro o; unfold effective; cases o "model" <;> rfl
  unfold bssForward
  have hm' := hm fun k' => if k' = k then obj.attrs k else override k'
  rw [h1] at hm'
  have hp : (A.keys.map (effective obj.attrs fun k' => if k' = k then obj.attrs k else override k')) =
      A.keys.map (effective obj.attrs override) := List.map_congr_left fun k' _ => h1 k'
  rw [params_effective, params_effective, hp, hm', hm override]

/-- The constructor set `n_iter=10`: a call with `n_iter=10` and a call without it have the same result. -/
example : let M : Models ℕ ℕ := ⟨fun _ => true, fun _ => 0⟩
    let A : Algo ℕ ℕ Unit (Option ℕ × ℕ) Unit :=
      ⟨["n_iter", "model"], fun _ _ => .ok (), fun p s _ => (.ok ((p.headD none, s), ()), s + 1)⟩
    let obj : BssObj ℕ Unit := ⟨fun k => if k = "n_iter" then some 10 else some 0, none⟩
    (bssForward M A obj (fun _ => 5) (fun k => if k = "n_iter" then some 10 else none) ()).1
      = (bssForward M A obj (fun _ => 5) (fun _ => none) ()).1 := by
  decide

/-- C58: `eps=None` and `model=None` in the constructor select the defaults, any other argument is
stored as it is. -/
theorem constructor_defaults (args : String → Option V) (defaultEps laplace : V) :
    (args "eps" = none → (bssInit (R := R) args defaultEps laplace).attrs "eps" = some defaultEps) ∧
    (∀ v, args "eps" = some v → (bssInit (R := R) args defaultEps laplace).attrs "eps" = some v) ∧
    (args "model" = none → (bssInit (R := R) args defaultEps laplace).attrs "model" = some laplace) ∧
    (∀ v, args "model" = some v → (bssInit (R := R) args defaultEps laplace).attrs "model" = some v) ∧
    (∀ k ∈ ["n_iter", "n_taps", "n_delay", "n_src", "proj_back_mic", "use_dmc"],
      (bssInit (R := R) args defaultEps laplace).attrs k = args k) := by
  refine ⟨fun h => ?_, fun v h => ?_, fun h => ?_, fun v h => ?_, fun k hk => ?_⟩
  · simp [bssInit, h]
  · simp [bssInit, h]
  · simp [bssInit, h]
  · simp [bssInit, h]
  · simp only [List.mem_cons, List.not_mem_nil, or_false] at hk
    rcases hk with rfl | rfl | rfl | rfl | rfl | rfl <;> simp [bssInit]

/-- A concrete history for `forward_params_do_not_persist`, `forward_history_independent` and `forward_leaves_other_models`: a
counting model with `reset`, an algorithm that returns its iteration number
and the model state; the second call overrides `n_iter`, the third does not see it. -/
example : let M : Models ℕ ℕ := ⟨fun _ => true, fun _ => 0⟩
    let A : Algo ℕ ℕ Unit (Option ℕ × ℕ) Unit :=
      ⟨["n_iter", "model"], fun _ _ => .ok (), fun p s _ => (.ok ((p.headD none, s), ()), s + 1)⟩
    let obj : BssObj ℕ Unit := ⟨fun k => if k = "n_iter" then some 10 else some 0, none⟩
    (bssHistory M A obj (fun _ => 5)
      [(fun _ => none, ()), (fun k => if k = "n_iter" then some 3 else none, ()), (fun _ => none, ())]).1
      = [.ok (some 10, 0), .ok (some 3, 0), .ok (some 10, 0)] := by
  decide

/-! ## C55: choice of the algorithm -/

/-- The algorithm implemented by a separator object. -/
def Separator.kind : Separator V → SepAlgo
  | .tIss .. => .tIss
  | .auxIvaIp2 .. => .auxivaIp2
  | .five .. => .five
  | .mvdr .. => .mvdr
  | .mwf .. => .mwf
  | .gev .. => .gev

/-- The source model a separator object uses. -/
def Separator.model : Separator V → V
  | .tIss _ _ _ _ m _ _ _ => m
  | .auxIvaIp2 _ m _ _ => m
  | .five _ m _ _ _ => m
  | .mvdr m _ _ _ _ => m
  | .mwf m _ _ _ => m
  | .gev m _ _ => m

/-- The reference microphone and regularisation a separator object uses. -/
def Separator.refEps : Separator V → Option V × Option V
  | .tIss _ _ _ _ _ p _ e => (p, e)
  | .auxIvaIp2 _ _ p e => (p, e)
  | .five _ _ p e _ => (p, e)
  | .mvdr _ p e _ _ => (p, e)
  | .mwf _ p e _ => (p, e)
  | .gev _ p e => (p, e)

/-- The number of iterations of an iterative separator object. -/
def Separator.iters : Separator V → Option (Option V)
  | .tIss n _ _ _ _ _ _ _ => some n
  | .auxIvaIp2 n _ _ _ => some n
  | .five n _ _ _ _ => some n
  | _ => none

/-- C55: every member and every member's string value builds the algorithm of that name, with the
given model, reference microphone, regularisation and, for iterative algorithms, iterations. -/
theorem separator_builds (a : SepAlgo) (arg : AlgoArg)
    (harg : arg = .member a ∨ arg = .str a.value) (args : SepArgs V) (g : Bool) :
    ∃ s w, sepInit arg args g = .ok (s, w) ∧ Separator.kind s = a ∧
      Separator.model s = args.sourceModel ∧
      Separator.refEps s = (args.projBackMic, args.eps) ∧
      (a ∈ [.tIss, .auxivaIp2, .five] → Separator.iters s = some args.nIter) := by
  rcases harg with rfl | rfl <;> cases a <;>
    exact ⟨_, _, rfl, rfl, rfl, rfl, fun h => by first | rfl | (simp at h)⟩

/-- C55: every argument of the constructor that the chosen algorithm has reaches the parameter of the
same name of that algorithm (`proj_back_mic` being called `ref_mic` by the beamformers); the MVDR is
of type `"rtf"` and the MWF is time-invariant. -/
theorem separator_arguments (a : SepAlgo) (arg : AlgoArg)
    (harg : arg = .member a ∨ arg = .str a.value) (args : SepArgs V) (g : Bool) (s : Separator V)
    (w : Bool) (h : sepInit arg args g = .ok (s, w)) :
    (a = .tIss → s = .tIss (nIter := args.nIter) (nTaps := args.nTaps) (nDelay := args.nDelay)
      (nSrc := args.nSrc) (model := args.sourceModel) (projBackMic := args.projBackMic)
      (useDmc := args.useDmc) (eps := args.eps)) ∧
    (a = .auxivaIp2 → s = .auxIvaIp2 (nIter := args.nIter) (model := args.sourceModel)
      (projBackMic := args.projBackMic) (eps := args.eps)) ∧
    (a = .five → s = .five (nIter := args.nIter) (model := args.sourceModel)
      (projBackMic := args.projBackMic) (eps := args.eps) (nPowerIter := args.nPowerIter)) ∧
    (a = .mvdr → s = .mvdr (model := args.sourceModel) (refMic := args.projBackMic)
      (eps := args.eps) (mvdrType := "rtf") (nPowerIter := args.nPowerIter)) ∧
    (a = .mwf → s = .mwf (model := args.sourceModel) (refMic := args.projBackMic)
      (eps := args.eps) (timeInvariant := true)) ∧
    (a = .gev → s = .gev (model := args.sourceModel) (refMic := args.projBackMic)
      (eps := args.eps)) := by
  rcases harg with rfl | rfl <;> cases a <;> cases h <;>
    refine ⟨fun h => ?_, fun h => ?_, fun h => ?_, fun h => ?_, fun h => ?_, fun h => ?_⟩ <;>
    first | rfl | (cases h)

/-- C55: anything else raises `ValueError`. -/
theorem separator_rejects (args : SepArgs V) (g : Bool) :
    sepInit .other args g = .error .valueError ∧
    ∀ s : String, s ∉ ["ip2", "tiss", "five", "mvdr", "mwf", "gev"] →
      sepInit (.str s) args g = .error .valueError := by
  refine ⟨rfl, fun s hs => ?_⟩
  have : SepAlgo.all.find? (fun a => a.value = s) = none := by
    rw [List.find?_eq_none]
    intro a ha
    simp only [List.mem_cons, List.not_mem_nil, or_false, not_or] at hs
    cases a <;> simp [SepAlgo.value, eq_comm, hs]
  simp only [sepInit, SepAlgo.lookup, this, bind, Except.bind]

/-- C55: the warning that FIVE extracts one source is issued for the enum member only, never for the
equivalent string. -/
theorem five_warning (args : SepArgs V) (s : Separator V) (w : Bool) :
    (sepInit (.member .five) args true = .ok (s, w) → w = true) ∧
    (sepInit (.str "five") args true = .ok (s, w) → w = false) := by
  constructor <;> intro h <;>
    simp [sepInit, SepAlgo.lookup, SepAlgo.all, SepAlgo.value, bind, Except.bind] at h <;> simp [← h.2]

/-- Non-vacuity of `separator_arguments`. -/
example : ∃ s w, sepInit (.str "tiss") (⟨some 20, none, none, none, 0, some 0, none, none, none⟩ : SepArgs ℕ)
    false = .ok (s, w) ∧ Separator.kind s = .tIss := by
  obtain ⟨s, w, h, k, -⟩ := separator_builds .tIss (.str "tiss") (Or.inr rfl)
    (⟨some 20, none, none, none, 0, some 0, none, none, none⟩ : SepArgs ℕ) false
  exact ⟨s, w, h, k⟩

example : "auxiva" ∉ ["ip2", "tiss", "five", "mvdr", "mwf", "gev"] := by decide

/-! ## C54: output length -/

theorem fixLength_spec (y : List ℝ) (n : ℕ) : (fixLength y n).length = n ∧
    ∀ i < n, (fixLength y n)[i]? = some (y[i]?.getD 0) := by
  unfold fixLength
  split_ifs with h1 h2
  · refine ⟨by simp; omega, fun i hi => ?_⟩
    rcases lt_or_ge i y.length with h | h
    · rw [List.getElem?_append_left h, List.getElem?_eq_getElem h]; rfl
    · rw [List.getElem?_append_right h, List.getElem?_eq_none h, List.getElem?_replicate,
        if_pos (by omega)]; rfl
  · refine ⟨by simp; omega, fun i hi => ?_⟩
    rw [List.getElem?_take_of_lt hi, List.getElem?_eq_getElem (by omega)]; rfl
  · refine ⟨by omega, fun i hi => ?_⟩
    rw [List.getElem?_eq_getElem (by omega)]; rfl

/-- C54: whenever a call returns, every channel has as many samples as the input, and these are the
leading samples of the inverse STFT followed by zeros.  What is transformed back is the result of the separator for the STFT of the
input, with its model fresh if it was reset (by the caller or by the separator itself) and as it was otherwise. -/
theorem separator_output_length (hasReset : Bool) (fresh : σ) (resets : Bool)
    (stft : List (List ℝ) → Except Err X) (sep : σ → X → Except Err Y × σ)
    (istft : Y → Except Err (List (List ℝ))) (st : σ) (x : List (List ℝ)) (n : ℕ) (reset : Bool)
    (y : List (List ℝ))
    (h : (sepForward hasReset fresh resets stft sep istft st x n reset).1 = .ok y) :
    ∃ (Xf : X) (Yf : Y) (z : List (List ℝ)), stft x = .ok Xf ∧
      (sep (if hasReset ∧ (reset ∨ resets) then fresh else st) Xf).1 = .ok Yf ∧ istft Yf = .ok z ∧ y.length = z.length ∧
      ∀ (c : ℕ) (yc : List ℝ), y[c]? = some yc → yc.length = n ∧ ∃ zc : List ℝ, z[c]? = some zc ∧
        ∀ i < n, yc[i]? = some (zc[i]?.getD 0) := by
  have hst : (if resets = true ∧ hasReset = true then fresh else if hasReset = true ∧ reset = true then fresh else st)
      = if hasReset ∧ (reset ∨ resets) then fresh else st := by
    cases resets <;> cases hasReset <;> cases reset <;> rfl
  unfold sepForward at h
  dsimp only at h
  rw [hst] at h
  split at h
  · cases h
  rename_i Xf hX
  split at h
  · cases h
  rename_i Yf hY
  split at h
  · cases h
  rename_i z hz
  cases h
  refine ⟨Xf, Yf, z, hX, hY, hz, by simp, fun c yc hc => ?_⟩
  rw [List.getElem?_map, Option.map_eq_some_iff] at hc
  obtain ⟨zc, hzc, rfl⟩ := hc
  exact ⟨(fixLength_spec zc n).1, zc, hzc, (fixLength_spec zc n).2⟩

/-- Both branches occur. -/
example : fixLength [1, 2] 3 = [1, 2, 0] ∧ fixLength [1, 2, 3] 2 = [1, 2] := by
  constructor <;> simp [fixLength]

/-! ## C56: model reset -/

/-- C56: with an algorithm that resets (T_ISS, IP2, FIVE) and a model that has `reset`, the outputs of
any sequence of calls, with any `reset` flags and any exceptions on the way, are those of each call
made alone with a fresh model. -/
theorem separator_history_independent (fresh : σ) (stft : List (List ℝ) → Except Err X)
    (sep : σ → X → Except Err Y × σ) (istft : Y → Except Err (List (List ℝ))) (st : σ)
    (calls : List (List (List ℝ) × ℕ × Bool)) :
    (sepHistory true fresh true stft sep istft st calls).1 =
      calls.map fun c => (sepForward true fresh true stft sep istft fresh c.1 c.2.1 true).1 := by
  induction calls generalizing st with
  | nil => rfl
  | cons c cs ih =>
    obtain ⟨x, n, r⟩ := c
    show (sepForward true fresh true stft sep istft st x n r).1 ::
      (sepHistory true fresh true stft sep istft _ cs).1 = _
    rw [ih, List.map_cons]
    congr 1
    unfold sepForward
    dsimp only
    cases stft x with
    | error e => rfl
    | ok X => simp only [Bool.true_eq_false, and_self, if_true]

/-- C56, the same for the beamformers when `reset=True` is passed (the default). -/
theorem separator_history_independent_default (fresh : σ) (resets : Bool)
    (stft : List (List ℝ) → Except Err X) (sep : σ → X → Except Err Y × σ)
    (istft : Y → Except Err (List (List ℝ))) (st : σ)
    (calls : List (List (List ℝ) × ℕ × Bool)) (h : ∀ c ∈ calls, c.2.2 = true) :
    (sepHistory true fresh resets stft sep istft st calls).1 =
      calls.map fun c => (sepForward true fresh resets stft sep istft fresh c.1 c.2.1 true).1 := by
  induction calls generalizing st with
  | nil => rfl
  | cons c cs ih =>
    obtain ⟨x, n, r⟩ := c
    have hr : r = true := h _ List.mem_cons_self
    subst hr
    show (sepForward true fresh resets stft sep istft st x n true).1 ::
      (sepHistory true fresh resets stft sep istft _ cs).1 = _
    rw [ih _ fun c hc => h c (List.mem_cons_of_mem _ hc), List.map_cons]
    congr 1

/-- A model that counts its calls: with `reset=True` both calls see a fresh one, with `reset=False` the second does not. -/
example : (sepHistory true 0 false (fun x => .ok x) (fun (s : ℕ) x => (.ok (x ++ [[(s : ℝ)]]), s + 1)) (fun y => .ok y) 7
      [([[1]], 1, true), ([[2]], 1, true)]).2 = 1 ∧
    (sepHistory true 0 false (fun x => .ok x) (fun (s : ℕ) x => (.ok (x ++ [[(s : ℝ)]]), s + 1)) (fun y => .ok y) 7
      [([[1]], 1, true), ([[2]], 1, false)]).2 = 2 := by
  constructor <;> rfl

/-- C56, second clause, false: with T_ISS, IP2 and FIVE `reset=False` has no effect; there is a model
that counts its calls for which two successive `reset=False` calls return the same, although continuing
from the kept state would have returned something else. -/
theorem separator_reset_false_violated :
    (∀ (σ X Y : Type) (fresh : σ) (stft : List (List ℝ) → Except Err X)
      (sep : σ → X → Except Err Y × σ) (istft : Y → Except Err (List (List ℝ))) (st : σ) x n,
      (sepForward true fresh true stft sep istft st x n false).1 =
        (sepForward true fresh true stft sep istft st x n true).1) ∧
    ∃ (sep : ℕ → Unit → Except Err ℕ × ℕ) (istft : ℕ → Except Err (List (List ℝ))),
      (sepHistory true 0 true (fun _ => .ok ()) sep istft 0 [([], 1, false), ([], 1, false)]).1 =
        [.ok [[0]], .ok [[0]]] ∧
      (sepHistory true 0 false (fun _ => .ok ()) sep istft 0 [([], 1, false), ([], 1, false)]).1 =
        [.ok [[0]], .ok [[1]]] := by
  refine ⟨?_, fun s _ => (.ok s, s + 1), fun k => .ok [[(k : ℝ)]], ?_, ?_⟩
  · intro σ X Y fresh stft sep istft st x n
    unfold sepForward
    dsimp only
    cases stft x with
    | error e => rfl
    | ok X => simp only [and_self, if_true]
  · simp [sepHistory, sepForward, fixLength]
  · simp [sepHistory, sepForward, fixLength]

/-- C56, what `reset=False` does: with the beamformers, or with a model that has no `reset`, the call
starts from the model state left by the previous calls. -/
theorem separator_reset_false_partial (hasReset : Bool) (fresh : σ) (resets : Bool)
    (h : hasReset = false ∨ resets = false)
    (stft : List (List ℝ) → Except Err X) (sep : σ → X → Except Err Y × σ)
    (istft : Y → Except Err (List (List ℝ))) (st : σ) (x : List (List ℝ)) (n : ℕ) (Xf : X)
    (hx : stft x = .ok Xf) :
    (sepForward hasReset fresh resets stft sep istft st x n false).2 = (sep st Xf).2 := by
  unfold sepForward
  dsimp only
  rw [hx]
  have e : (if resets = true ∧ hasReset = true then fresh
      else if hasReset = true ∧ false = true then fresh else st) = st := by
    rcases h with h | h <;> simp [h]
  dsimp only
  rw [e]
  split
  · rfl
  split <;> rfl

/-- The state of a counting model after a beamformer call without reset. -/
example : (sepForward true 0 false (fun x => .ok x) (fun s x => (.ok x, s + 1)) (fun y => .ok y) 7 [[1]] 1 false).2 = 8 :=
  separator_reset_false_partial true 0 false (Or.inr rfl) _ _ _ _ _ _ _ rfl

end Torchiva.Props
