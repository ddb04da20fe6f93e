import Verif.Model.Export
import Verif.Props.Loader

/-!
# C98, C99: exporting a trained separator and loading it again
-/

namespace Torchiva.Props

open Torchiva

variable {T Sh : Type}

/-- Two separators behave the same: same algorithm, arguments (the source model is compared apart), source model and tensors. -/
structure SameSep (s s' : Sep T) : Prop where
  algo : s.algo = s'.algo
  args : ∀ k, k ≠ "source_model" → s.args k = s'.args k
  source : s.source = s'.source
  weights : s.weights = s'.weights
  window : s.window = s'.window
  fake : s.algo.isBss = false → s.fake = s'.fake

/-- A separator after training: only the tensors of the source model and the dummy parameter have changed, and they keep their
names and shapes. -/
def TrainedFrom (W : SepWorld T Sh) (s0 s : Sep T) : Prop :=
  s.args = s0.args ∧ s.algo = s0.algo ∧ s.source = s0.source ∧ s.window = s0.window ∧
    (∀ k, (s.weights k).map W.shape = (s0.weights k).map W.shape) ∧ W.shape s.fake = W.shape s0.fake

/-- Building a source model again gives tensors of the same names and shapes, whatever the random generator does. -/
def StableInst (W : SepWorld T Sh) : Prop :=
  ∀ seed seed' d w, W.inst seed d = .ok w → ∃ w', W.inst seed' d = .ok w' ∧ ∀ k, (w' k).map W.shape = (w k).map W.shape

private lemma ebind {A B : Type} (x : Except Err A) (f : A → Except Err B) (b : B) :
    (x >>= f) = .ok b ↔ ∃ a, x = .ok a ∧ f a = .ok b := by
  cases x with
  | error e => exact ⟨fun h => (by cases h), fun ⟨a, h, _⟩ => (by cases h)⟩
  | ok a => exact ⟨fun h => ⟨a, rfl, h⟩, fun ⟨a', h, h'⟩ => (by cases h; exact h')⟩

private lemma get_nil {V : Type} (k : String) : dictGet ([] : List (String × V)) k = none := rfl

private lemma get_cons {V : Type} (a : String) (v : V) (l : List (String × V)) (k : String) :
    dictGet ((a, v) :: l) k = if a = k then some v else dictGet l k := by
  unfold dictGet
  by_cases h : a = k
  · rw [List.find?_cons_of_pos (by simp [h]), if_pos h]; rfl
  · rw [List.find?_cons_of_neg (by simp [h]), if_neg h]

private lemma dictGet_pop {V : Type} (d : List (String × V)) (a k : String) :
    dictGet (dictPop d a) k = if k = a then none else dictGet d k := by
  induction d with
  | nil => simp [dictPop, dictGet]
  | cons x l ih =>
    unfold dictPop dictGet at ih ⊢
    by_cases hx : x.1 = a
    · rw [List.filter_cons_of_neg (by simp [hx]), ih]
      split_ifs with h
      · rfl
      · rw [List.find?_cons_of_neg]
        simp only [hx, decide_eq_true_eq]
        exact fun h' => h h'.symm
    · rw [List.filter_cons_of_pos (by simp [hx])]
      by_cases hk : x.1 = k
      · have : k ≠ a := fun h => hx (hk.trans h)
        rw [List.find?_cons_of_pos (by simp [hk]), List.find?_cons_of_pos (by simp [hk]), if_neg this]
      · rw [List.find?_cons_of_neg (by simp [hk]), List.find?_cons_of_neg (by simp [hk]), ih]

private lemma dictGet_isSome {V : Type} (d : List (String × V)) (k : String) (v : V) (h : dictGet d k = some v) :
    ∃ kv ∈ d, kv.1 = k := by
  unfold dictGet at h
  rw [Option.map_eq_some_iff] at h
  obtain ⟨x, hx, -⟩ := h
  exact ⟨x, List.mem_of_find?_eq_some hx, by simpa using List.find?_some hx⟩

private lemma isSome_dictGet {V : Type} (d : List (String × V)) (kv : String × V) (h : kv ∈ d) : ∃ v, dictGet d kv.1 = some v := by
  unfold dictGet
  rw [← Option.isSome_iff_exists, Option.isSome_map, List.find?_isSome]
  exact ⟨kv, h, by simp⟩

private lemma export_get (m : List (String × PyVal)) (v : PyVal) (h : dictGet m "ref_mic" = some v) (k : String) :
    dictGet (exportConfig m) k
      = if k = "proj_back_mic" then some v else if k = "ref_mic" then none else dictGet m k := by
  unfold exportConfig
  rw [h]
  simp only
  rw [dictGet_set, dictGet_pop]

/-- The entries of `config["model"]` that `WSJModel` reads. -/
def modelKeys : List String :=
  ["n_fft", "n_iter", "hop_length", "n_taps", "n_delay", "ref_mic", "use_dmc", "n_power_iter", "source_model"]

private lemma bindArgs_ok (d : List (String × PyVal)) (hk : ∀ kv ∈ d, kv.1 ∈ sepDefault.map Prod.fst) (v : PyVal)
    (hn : dictGet d "n_fft" = some v) :
    bindArgs d = .ok fun k => (dictGet d k).getD (((dictGet sepDefault k).getD Option.none).getD .none) := by
  unfold bindArgs
  rw [if_neg (by push Not; exact hk), if_neg (by simp [hn])]

private lemma mem_update {V : Type} (d kw : List (String × V)) (kv : String × V) (h : kv ∈ dictUpdate d kw) :
    (∃ x ∈ d, x.1 = kv.1) ∨ ∃ x ∈ kw, x.1 = kv.1 := by
  obtain ⟨v, hv⟩ := isSome_dictGet _ _ h
  rw [dictGet_update] at hv
  rcases Option.or_eq_some_iff.1 hv with h1 | ⟨-, h1⟩
  · obtain ⟨x, hx, e⟩ := dictGet_isSome _ _ _ h1
    exact .inr ⟨x, List.mem_reverse.1 hx, e⟩
  · exact .inl (dictGet_isSome _ _ _ h1)

/-- What training a configuration gives. -/
private lemma train_inv (W : SepWorld T Sh) (seed : ℕ) (algorithm nSrc : PyVal) (m : List (String × PyVal)) (s : Sep T)
    (hkey : ∀ d, W.inst seed d ≠ .error .keyError) (h : trainSep W seed algorithm nSrc m = .ok s) :
    ∃ nFft nIter hop nTaps nDelay ref dmc, dictGet m "n_fft" = some nFft ∧ dictGet m "n_iter" = some nIter ∧
      dictGet m "hop_length" = some hop ∧ dictGet m "n_taps" = some nTaps ∧ dictGet m "n_delay" = some nDelay ∧
      dictGet m "ref_mic" = some ref ∧ dictGet m "use_dmc" = some dmc ∧
      s.args = (fun k => (dictGet [("n_fft", nFft), ("n_iter", nIter), ("hop_length", hop), ("n_taps", nTaps), ("n_delay", nDelay),
        ("n_src", nSrc), ("algo", algorithm), ("proj_back_mic", ref), ("use_dmc", dmc),
        ("n_power_iter", (dictGet m "n_power_iter").getD .none)] k).getD
          (((dictGet sepDefault k).getD Option.none).getD .none)) ∧
      SepAlgo.lookup algorithm.toAlgo = .ok s.algo ∧ W.window .none nFft = .ok s.window ∧ s.fake = W.fake ∧
      ((dictGet m "source_model" = none ∧ s.source = none ∧ s.weights = fun _ => none) ∨
        ∃ d, dictGet m "source_model" = some (.dict d) ∧ s.source = some d ∧ W.inst seed d = .ok s.weights) := by
  unfold trainSep at h
  simp only [ebind] at h
  obtain ⟨nIter, h1, nFft, h2, hop, h3, src, h4, nTaps, h5, nDelay, h6, ref, h7, dmc, h8, args, h9, h10⟩ := h
  have get : ∀ (k : String) (v : PyVal), (match dictGet m k with
      | some v => .ok v
      | Option.none => .error .keyError : Except Err PyVal) = .ok v → dictGet m k = some v := by
    intro k v e
    cases hd : dictGet m k with
    | none => rw [hd] at e; cases e
    | some w => rw [hd] at e; cases e; rfl
  refine ⟨nFft, nIter, hop, nTaps, nDelay, ref, dmc, get _ _ h2, get _ _ h1, get _ _ h3, get _ _ h5, get _ _ h6, get _ _ h7,
    get _ _ h8, ?_⟩
  rw [bindArgs_ok _ (by simp [sepDefault]) nFft (by simp [dictGet])] at h9
  cases h9
  unfold buildSep at h10
  simp only [ebind] at h10
  obtain ⟨sw, h11, algo, h12, wdw, h13, h14⟩ := h10
  cases h14
  refine ⟨rfl, by simpa [dictGet] using h12, by simpa [dictGet, sepDefault] using h13, rfl, ?_⟩
  cases hd : dictGet m "source_model" with
  | none =>
    rw [hd] at h4
    cases h4
    cases h11
    exact .inl ⟨rfl, rfl, rfl⟩
  | some v =>
    rw [hd] at h4
    cases v with
    | dict d =>
      dsimp only at h4
      cases hi : W.inst seed d with
      | ok w =>
        rw [hi] at h4
        cases h4
        cases h11
        exact .inr ⟨d, rfl, rfl, hi⟩
      | error e =>
        rw [hi] at h4
        cases e <;> first | exact absurd hi (hkey d) | cases h4
    | _ => cases h4

/-- The value of an argument when an exported configuration is loaded. -/
def reloadArg (m kwargs : List (String × PyVal)) (k : String) : PyVal :=
  ((lastGet kwargs k).or (dictGet (exportConfig m) k)).getD (((dictGet sepDefault k).getD Option.none).getD .none)

private lemma reload_bind (m kwargs : List (String × PyVal)) (hm : ∀ kv ∈ m, kv.1 ∈ modelKeys)
    (hkw : ∀ kv ∈ kwargs, kv.1 ∈ sepDefault.map Prod.fst) (ref nFft : PyVal) (hr : dictGet m "ref_mic" = some ref)
    (hn : dictGet m "n_fft" = some nFft) :
    bindArgs (dictUpdate (exportConfig m) kwargs) = .ok (reloadArg m kwargs) := by
  have hg : ∃ v, dictGet (dictUpdate (exportConfig m) kwargs) "n_fft" = some v := by
    rw [dictGet_update, export_get m ref hr]
    simp only [hn, if_neg (show ¬ "n_fft" = "proj_back_mic" by decide), if_neg (show ¬ "n_fft" = "ref_mic" by decide)]
    cases lastGet kwargs "n_fft" <;> simp
  obtain ⟨v, hv⟩ := hg
  rw [bindArgs_ok _ _ v hv]
  · congr 1
    funext k
    rw [dictGet_update]
    rfl
  · intro kv hkv
    rcases mem_update _ _ _ hkv with ⟨x, hx, e⟩ | ⟨x, hx, e⟩
    · rw [← e]
      obtain ⟨w, hw⟩ := isSome_dictGet _ _ hx
      rw [export_get m ref hr] at hw
      split_ifs at hw with h1 h2
      · rw [h1]; decide
      · obtain ⟨y, hy, e'⟩ := dictGet_isSome _ _ _ hw
        have := hm y hy
        rw [e'] at this
        simp only [modelKeys, List.mem_cons, List.not_mem_nil, or_false] at this
        rcases this with h | h | h | h | h | h | h | h | h <;> first | exact absurd h h2 | (rw [h]; decide)
    · rw [← e]; exact hkw x hx

open Classical in
/-- Loading an exported model: all cases. -/
private lemma reload_cases (W : SepWorld T Sh) (hst : StableInst W) (seed seed' : ℕ) (algorithm nSrc : PyVal)
    (m kwargs : List (String × PyVal)) (hm : ∀ kv ∈ m, kv.1 ∈ modelKeys)
    (hkw : ∀ kv ∈ kwargs, kv.1 ∈ sepDefault.map Prod.fst)
    (hk1 : lastGet kwargs "source_model" = none) (hk2 : lastGet kwargs "window" = none) (hk3 : lastGet kwargs "n_fft" = none)
    (s0 s : Sep T) (hkey : ∀ d, W.inst seed d ≠ .error .keyError) (h : trainSep W seed algorithm nSrc m = .ok s0)
    (ht : TrainedFrom W s0 s) (a : SepAlgo) (ha : SepAlgo.lookup (reloadArg m kwargs "algo").toAlgo = .ok a) :
    reloadSep W seed' (exportConfig m) kwargs s.state =
      if a.isBss = s.algo.isBss then
        .ok ⟨reloadArg m kwargs, a, s.source, s.weights, s.window, if s.algo.isBss then W.fake else s.fake⟩
      else .error .runtimeError := by
  obtain ⟨nFft, nIter, hop, nTaps, nDelay, ref, dmc, g1, g2, g3, g4, g5, g6, g7, hargs, halgo, hwin, hfake, hsrc⟩ :=
    train_inv W seed algorithm nSrc m s0 hkey h
  obtain ⟨t1, t2, t3, t4, t5, t6⟩ := ht
  have hw : reloadArg m kwargs "window" = .none := by
    have : dictGet m "window" = none := by
      cases hd : dictGet m "window" with
      | none => rfl
      | some v =>
        obtain ⟨x, hx, e⟩ := dictGet_isSome _ _ _ hd
        have := hm x hx
        rw [e] at this
        simp [modelKeys] at this
    unfold reloadArg
    rw [hk2, export_get m ref g6]
    simp [this, get_cons, get_nil, sepDefault]
  have hn : reloadArg m kwargs "n_fft" = nFft := by
    unfold reloadArg
    rw [hk3, export_get m ref g6]
    simp [g1]
  have hs : reloadArg m kwargs "source_model" = (dictGet m "source_model").getD .none := by
    unfold reloadArg
    rw [hk1, export_get m ref g6]
    cases dictGet m "source_model" <;> simp [get_cons, get_nil, sepDefault]
  have key : ∃ w, reloadSep W seed' (exportConfig m) kwargs s.state
      = Sep.load W ⟨reloadArg m kwargs, a, s.source, w, s.window, W.fake⟩ s.state ∧
        ∀ k, (w k).map W.shape = (s.weights k).map W.shape := by
    unfold reloadSep
    simp only
    rw [reload_bind m kwargs hm hkw ref nFft g6 g1]
    rcases hsrc with ⟨e1, e2, e3⟩ | ⟨d, e1, e2, e3⟩
    · refine ⟨fun _ => none, ?_, fun k => by rw [t5 k, e3]⟩
      have : reloadArg m kwargs "source_model" = .none := by rw [hs, e1]; rfl
      simp only [bind, Except.bind, this, buildSep, ha, hw, hn, hwin, t3, t4, e2, pure, Except.pure]
    · obtain ⟨w', hw', hsh⟩ := hst seed seed' d _ e3
      refine ⟨w', ?_, fun k => by rw [t5 k, hsh k]⟩
      have : reloadArg m kwargs "source_model" = .dict d := by rw [hs, e1]; rfl
      simp only [bind, Except.bind, this, buildSep, ha, hw, hn, hwin, t3, t4, e2, pure, Except.pure, hw', Except.map]
  obtain ⟨w, e, hsh⟩ := key
  rw [e]
  unfold Sep.load
  by_cases hb : a.isBss = s.algo.isBss
  · rw [if_pos hb, if_pos]
    · cases hB : s.algo.isBss <;> simp [Sep.state, hb, hB]
    · intro k
      cases k <;> simp only [Sep.state, hb]
      · exact (hsh _).symm
      · split_ifs
        · exact (hsh _).symm
        · rfl
      · split_ifs
        · rfl
        · exact (hsh _).symm
      · split_ifs
        · rfl
        · simp only [Option.map_some, t6, hfake]
  · rw [if_neg hb, if_neg]
    intro hall
    have := hall .fake
    cases h1 : a.isBss <;> cases h2 : s.algo.isBss <;> simp [Sep.state, h1, h2] at this hb

/-! ## C98 -/

/-- A small world: a tensor is its size and its content, a source model has one tensor of size 3. -/
private def demoWorld : SepWorld (ℕ × ℕ) ℕ where
  inst seed _ := .ok fun k => if k = "w" then some (3, seed) else none
  window win n := match win, n with
    | .none, .int i => .ok (i.toNat, 0)
    | _, .int i => .ok (i.toNat, 1)
    | _, _ => .error .typeError
  fake := (1, 0)
  shape t := t.1

private lemma demo_stable : StableInst demoWorld := by
  intro seed seed' d w h
  refine ⟨_, rfl, fun k => ?_⟩
  cases h
  show Option.map _ (if k = "w" then _ else _) = Option.map _ (if k = "w" then _ else _)
  split_ifs <;> rfl

/-- The `model` entry of examples/configs/mvdr.json. -/
private def demoModel : List (String × PyVal) :=
  [("n_fft", .int 4096), ("hop_length", .int 1024), ("n_iter", .int 20), ("n_taps", .int 0), ("n_delay", .int 0),
    ("n_power_iter", .int 10), ("use_dmc", .bool false), ("ref_mic", .int 0),
    ("source_model", .dict [("name", .str "torchiva.models.MaskMVDRSupport")])]

/-- **C98 (construction).**  A `KeyError` raised while the configured source model is built is not reported: training goes on exactly as if
the configuration had no source model. -/
theorem train_source_keyerror (W : SepWorld T Sh) (seed : ℕ) (algorithm nSrc : PyVal) (m : List (String × PyVal)) (d : List (String × PyVal))
    (hd : dictGet m "source_model" = some (.dict d)) (hk : W.inst seed d = .error .keyError) :
    trainSep W seed algorithm nSrc m = trainSep W seed algorithm nSrc (dictPop m "source_model") := by
  unfold trainSep
  simp only [dictGet_pop, hd, hk, reduceIte, String.reduceEq]

/-- A source model that cannot be built: the separator is there, without any weights. -/
example : ∃ s, trainSep { demoWorld with inst := fun _ _ => .error .keyError } 7 (.str "mvdr") (.int 2) demoModel = .ok s ∧
    s.source = none ∧ s.weights "w" = none := by
  rw [train_source_keyerror _ _ _ _ _ [("name", .str "torchiva.models.MaskMVDRSupport")] (by simp [demoModel, dictGet]) rfl]
  unfold trainSep
  simp only [demoModel, dictPop, List.filter, get_cons, get_nil]
  simp only [reduceIte, String.reduceEq, bind, Except.bind, Option.getD_some, ne_eq, not_false_eq_true, decide_true, not_true_eq_false,
    decide_false, get_cons, get_nil, reduceIte, String.reduceEq]
  rw [bindArgs_ok _ (by simp [sepDefault]) (.int 4096) (by simp [dictGet])]
  simp only [buildSep, get_cons, get_nil, reduceIte, String.reduceEq, bind, Except.bind, pure, Except.pure, Option.getD_some,
    Option.getD_none, PyVal.toAlgo, sepDefault, demoWorld]
  exact ⟨_, rfl, rfl, rfl⟩

private lemma demo_train (alg : String) (a : SepAlgo) (h : SepAlgo.lookup (.str alg) = .ok a) :
    ∃ s0, trainSep demoWorld 7 (.str alg) (.int 2) demoModel = .ok s0 ∧ s0.algo = a ∧ s0.weights "w" = some (3, 7) := by
  have hex : ∃ s0, trainSep demoWorld 7 (.str alg) (.int 2) demoModel = .ok s0 := by
    unfold trainSep
    simp only [demoModel, get_cons, get_nil]
    simp only [reduceIte, String.reduceEq, bind, Except.bind, Option.getD_some, demoWorld]
    rw [bindArgs_ok _ (by simp [sepDefault]) (.int 4096) (by simp [dictGet])]
    simp only [buildSep, get_cons, get_nil, reduceIte, String.reduceEq, bind, Except.bind, pure, Except.pure, Option.getD_some,
      Option.getD_none, PyVal.toAlgo, h, sepDefault]
    exact ⟨_, rfl⟩
  obtain ⟨s0, e⟩ := hex
  obtain ⟨nFft, nIter, hop, nTaps, nDelay, ref, dmc, -, -, -, -, -, -, -, -, halgo, -, -, hsrc⟩ :=
    train_inv demoWorld 7 (.str alg) (.int 2) demoModel s0 (fun d => by simp [demoWorld]) e
  refine ⟨s0, e, ?_, ?_⟩
  · have := halgo.symm.trans h
    cases this; rfl
  · rcases hsrc with ⟨e1, -⟩ | ⟨d, -, -, e3⟩
    · simp [demoModel, get_cons] at e1
    · have : (fun k => if k = "w" then some (3, 7) else none) = s0.weights := by
        simpa [demoWorld] using e3
      rw [← this]; rfl

/-- C98 (partial: only when the caller supplies again the two entries that the export leaves out).  A trained separator that is
exported and loaded with the algorithm and the number of sources it was trained with is the trained separator, whatever the random
generator does while it is rebuilt. -/
theorem export_reload_partial (W : SepWorld T Sh) (hst : StableInst W) (seed seed' : ℕ) (algorithm nSrc : PyVal)
    (m : List (String × PyVal)) (hm : ∀ kv ∈ m, kv.1 ∈ modelKeys) (s0 s : Sep T)
    (hkey : ∀ d, W.inst seed d ≠ .error .keyError) (h : trainSep W seed algorithm nSrc m = .ok s0) (ht : TrainedFrom W s0 s) :
    ∃ s', reloadSep W seed' (exportConfig m) [("algo", algorithm), ("n_src", nSrc)] s.state = .ok s' ∧ SameSep s' s := by
  obtain ⟨nFft, nIter, hop, nTaps, nDelay, ref, dmc, g1, g2, g3, g4, g5, g6, g7, hargs, halgo, hwin, hfake, hsrc⟩ :=
    train_inv W seed algorithm nSrc m s0 hkey h
  have ha : reloadArg m [("algo", algorithm), ("n_src", nSrc)] "algo" = algorithm := by
    simp [reloadArg, lastGet, get_cons, get_nil]
  have hc := reload_cases W hst seed seed' algorithm nSrc m [("algo", algorithm), ("n_src", nSrc)] hm
    (by simp [sepDefault]) (by simp [lastGet, get_cons, get_nil]) (by simp [lastGet, get_cons, get_nil]) (by simp [lastGet, get_cons, get_nil]) s0 s hkey h ht
    s.algo (by rw [ha, halgo, ht.2.1])
  rw [if_pos rfl] at hc
  refine ⟨_, hc, rfl, ?_, rfl, rfl, rfl, ?_⟩
  · intro k hk
    have hnw : ∀ k, k ∉ modelKeys → dictGet m k = none := by
      intro k hk'
      cases hd : dictGet m k with
      | none => rfl
      | some v =>
        obtain ⟨x, hx, e⟩ := dictGet_isSome _ _ _ hd
        exact absurd (e ▸ hm x hx) hk'
    simp only [ht.1, hargs, reloadArg]
    rw [export_get m ref g6]
    by_cases c1 : k = "n_fft"
    · subst c1; simp [lastGet, get_cons, get_nil, g1]
    by_cases c2 : k = "n_iter"
    · subst c2; simp [lastGet, get_cons, get_nil, g2]
    by_cases c3 : k = "hop_length"
    · subst c3; simp [lastGet, get_cons, get_nil, g3]
    by_cases c4 : k = "n_taps"
    · subst c4; simp [lastGet, get_cons, get_nil, g4]
    by_cases c5 : k = "n_delay"
    · subst c5; simp [lastGet, get_cons, get_nil, g5]
    by_cases c6 : k = "n_src"
    · subst c6; simp [lastGet, get_cons, get_nil]
    by_cases c7 : k = "algo"
    · subst c7; simp [lastGet, get_cons, get_nil]
    by_cases c8 : k = "proj_back_mic"
    · subst c8; simp [lastGet, get_cons, get_nil]
    by_cases c9 : k = "use_dmc"
    · subst c9; simp [lastGet, get_cons, get_nil, g7]
    by_cases c10 : k = "n_power_iter"
    · subst c10; cases hp : dictGet m "n_power_iter" <;> simp [lastGet, get_cons, get_nil, sepDefault]
    have hz : lastGet [("algo", algorithm), ("n_src", nSrc)] k = none := by
      simp [lastGet, get_cons, get_nil, Ne.symm c6, Ne.symm c7]
    rw [hz, if_neg c8]
    have hz2 : (if k = "ref_mic" then none else dictGet m k) = none := by
      split_ifs with hr
      · rfl
      · exact hnw k (by simp [modelKeys, *])
    rw [hz2]
    simp [get_cons, get_nil, Ne.symm c1, Ne.symm c2, Ne.symm c3, Ne.symm c4, Ne.symm c5, Ne.symm c6, Ne.symm c7, Ne.symm c8, Ne.symm c9,
      Ne.symm c10]
  · intro hb
    simp only at hb ⊢
    rw [hb]; rfl

/-- A trained MVDR beamformer, with new weights, loads back under another random state. -/
example : ∃ s0 s s', trainSep demoWorld 7 (.str "mvdr") (.int 2) demoModel = .ok s0 ∧ TrainedFrom demoWorld s0 s ∧
    s.weights "w" = some (3, 99) ∧
    reloadSep demoWorld 8 (exportConfig demoModel) [("algo", .str "mvdr"), ("n_src", .int 2)] s.state = .ok s' ∧
    SameSep s' s := by
  obtain ⟨s0, h, -, hw⟩ := demo_train "mvdr" .mvdr (by decide)
  have ht : TrainedFrom demoWorld s0 { s0 with weights := fun k => if k = "w" then some (3, 99) else s0.weights k } := by
    refine ⟨rfl, rfl, rfl, rfl, fun k => ?_, rfl⟩
    by_cases hk : k = "w"
    · subst hk; simp [hw, demoWorld]
    · simp [hk]
  obtain ⟨s', h1, h2⟩ := export_reload_partial demoWorld demo_stable 7 8 _ _ demoModel (by simp [demoModel, modelKeys]) s0 _
    (fun d => by simp [demoWorld]) h ht
  exact ⟨s0, _, s', h, ht, rfl, h1, h2⟩

/-- C98 is violated: an exported model that is loaded without naming the algorithm is a T-ISS separator with the default number of
sources, whatever algorithm it was trained with and for, when that algorithm is one of the blind ones, and cannot be loaded at all when
it is a beamformer. -/
theorem export_reload_violated (W : SepWorld T Sh) (hst : StableInst W) (seed seed' : ℕ) (algorithm nSrc : PyVal)
    (m : List (String × PyVal)) (hm : ∀ kv ∈ m, kv.1 ∈ modelKeys) (s0 s : Sep T)
    (hkey : ∀ d, W.inst seed d ≠ .error .keyError) (h : trainSep W seed algorithm nSrc m = .ok s0) (ht : TrainedFrom W s0 s) :
    (s.algo ∈ [SepAlgo.auxivaIp2, .tIss, .five] →
      ∃ s', reloadSep W seed' (exportConfig m) [] s.state = .ok s' ∧ s'.algo = .tIss ∧ s'.args "n_src" = .none ∧
        s'.source = s.source ∧ s'.weights = s.weights) ∧
    (s.algo ∈ [SepAlgo.mvdr, .mwf, .gev] → reloadSep W seed' (exportConfig m) [] s.state = .error .runtimeError) := by
  obtain ⟨nFft, nIter, hop, nTaps, nDelay, ref, dmc, g1, g2, g3, g4, g5, g6, g7, hargs, halgo, hwin, hfake, hsrc⟩ :=
    train_inv W seed algorithm nSrc m s0 hkey h
  have hnw : ∀ k, k ∉ modelKeys → dictGet m k = none := by
    intro k hk'
    cases hd : dictGet m k with
    | none => rfl
    | some v =>
      obtain ⟨x, hx, e⟩ := dictGet_isSome _ _ _ hd
      exact absurd (e ▸ hm x hx) hk'
  have ha : reloadArg m [] "algo" = .member .tIss := by
    simp only [reloadArg]
    rw [export_get m ref g6, hnw "algo" (by decide)]
    simp [lastGet, get_cons, get_nil, sepDefault]
  have hns : reloadArg m [] "n_src" = .none := by
    simp only [reloadArg]
    rw [export_get m ref g6, hnw "n_src" (by decide)]
    simp [lastGet, get_cons, get_nil, sepDefault]
  have hc := reload_cases W hst seed seed' algorithm nSrc m [] hm (by simp) (by simp [lastGet, get_cons, get_nil])
    (by simp [lastGet, get_cons, get_nil]) (by simp [lastGet, get_cons, get_nil]) s0 s hkey h ht .tIss (by rw [ha]; rfl)
  constructor
  · intro hs
    have hb : s.algo.isBss = true := by
      simp only [List.mem_cons, List.not_mem_nil, or_false] at hs
      rcases hs with e | e | e <;> rw [e] <;> rfl
    rw [if_pos (by rw [hb]; rfl)] at hc
    exact ⟨_, hc, rfl, hns, rfl, rfl⟩
  · intro hs
    have hb : s.algo.isBss = false := by
      simp only [List.mem_cons, List.not_mem_nil, or_false] at hs
      rcases hs with e | e | e <;> rw [e] <;> rfl
    rw [hc, if_neg (by rw [hb]; decide)]

/-- The model trained with `mvdr.json` cannot be loaded after its export; one trained for FIVE comes back as T-ISS. -/
example : (∃ s, trainSep demoWorld 7 (.str "mvdr") (.int 2) demoModel = .ok s ∧
      reloadSep demoWorld 8 (exportConfig demoModel) [] s.state = .error .runtimeError) ∧
    (∃ s s', trainSep demoWorld 7 (.str "five") (.int 2) demoModel = .ok s ∧ s.algo = .five ∧
      reloadSep demoWorld 8 (exportConfig demoModel) [] s.state = .ok s' ∧ s'.algo = .tIss) := by
  constructor
  · obtain ⟨s0, h, ha, hw⟩ := demo_train "mvdr" .mvdr (by decide)
    exact ⟨s0, h, (export_reload_violated demoWorld demo_stable 7 8 _ _ demoModel (by simp [demoModel, modelKeys]) s0 s0
      (fun d => by simp [demoWorld]) h ⟨rfl, rfl, rfl, rfl, fun _ => rfl, rfl⟩).2 (by simp [ha])⟩
  · obtain ⟨s0, h, ha, hw⟩ := demo_train "five" .five (by decide)
    obtain ⟨s', h1, h2, -⟩ := (export_reload_violated demoWorld demo_stable 7 8 _ _ demoModel (by simp [demoModel, modelKeys]) s0 s0
      (fun d => by simp [demoWorld]) h ⟨rfl, rfl, rfl, rfl, fun _ => rfl, rfl⟩).1 (by simp [ha])
    exact ⟨s0, s', h, ha, h1, h2⟩

/-! ## C99 -/

private def demoKw : List (String × PyVal) := [("algo", .str "mvdr"), ("window", .str "blackman")]

private lemma demo_window (s : Sep (ℕ × ℕ)) (h : trainSep demoWorld 7 (.str "mvdr") (.int 2) demoModel = .ok s) :
    ∃ s', reloadSep demoWorld 8 (exportConfig demoModel) demoKw s.state = .ok s' := by
  obtain ⟨nFft, nIter, hop, nTaps, nDelay, ref, dmc, g1, -, -, -, -, g6, -, -, halgo, hwin, hfake, hsrc⟩ :=
    train_inv demoWorld 7 (.str "mvdr") (.int 2) demoModel s (fun d => by simp [demoWorld]) h
  have hn : nFft = .int 4096 := by
    simp [demoModel, get_cons] at g1; exact g1.symm
  subst hn
  have ha : s.algo = .mvdr := by
    have : SepAlgo.lookup (PyVal.str "mvdr").toAlgo = .ok .mvdr := by decide
    rw [this] at halgo
    exact (Except.ok.inj halgo).symm
  have hw : s.window = (4096, 0) := by
    simp only [demoWorld] at hwin
    exact (Except.ok.inj hwin).symm
  have hs : (fun k => if k = "w" then some (3, 7) else none) = s.weights := by
    rcases hsrc with ⟨e1, -⟩ | ⟨d, -, -, e3⟩
    · simp [demoModel, get_cons] at e1
    · simpa [demoWorld] using e3
  have hb := reload_bind demoModel demoKw (by simp [demoModel, modelKeys]) (by simp [demoKw, sepDefault]) _ _ g6 g1
  have k1 : reloadArg demoModel demoKw "source_model" = .dict [("name", .str "torchiva.models.MaskMVDRSupport")] := by
    unfold reloadArg
    rw [export_get _ _ g6]
    simp [demoKw, lastGet, get_cons, get_nil, demoModel]
  have k2 : reloadArg demoModel demoKw "algo" = .str "mvdr" := by
    unfold reloadArg
    rw [export_get _ _ g6]
    simp [demoKw, lastGet, get_cons, get_nil, demoModel]
  have k3 : reloadArg demoModel demoKw "n_fft" = .int 4096 := by
    unfold reloadArg
    rw [export_get _ _ g6]
    simp [demoKw, lastGet, get_cons, get_nil, demoModel]
  have k4 : reloadArg demoModel demoKw "window" = .str "blackman" := by
    unfold reloadArg
    rw [export_get _ _ g6]
    simp [demoKw, lastGet, get_cons, get_nil, demoModel]
  have k5 : SepAlgo.lookup (PyVal.str "mvdr").toAlgo = .ok .mvdr := by decide
  unfold reloadSep
  simp only [hb, bind, Except.bind, k1, buildSep, k2, k3, k4, k5, pure, Except.pure, demoWorld, Except.map]
  unfold Sep.load
  rw [if_pos]
  · exact ⟨_, rfl⟩
  · intro k
    cases k <;> simp only [Sep.state, ha, SepAlgo.isBss, ← hs, hw, hfake, demoWorld] <;> (try split_ifs) <;> simp

/-- C99: a separator that loads has exactly the stored tensors, whatever the configuration and the keyword arguments say: the window
(and so a `window` argument given at load time has no effect) and the tensors of the source model. -/
theorem reload_tensors (W : SepWorld T Sh) (seed : ℕ) (cfg kwargs : List (String × PyVal)) (s : Sep T) (s' : Sep T)
    (h : reloadSep W seed cfg kwargs s.state = .ok s') : s'.window = s.window ∧ s'.weights = s.weights := by
  unfold reloadSep at h
  simp only [ebind] at h
  obtain ⟨args, -, src, -, s1, -, h⟩ := h
  unfold Sep.load at h
  by_cases hsh : ∀ k, (s.state k).map W.shape = (s1.state k).map W.shape
  swap
  · rw [if_neg hsh] at h; cases h
  rw [if_pos hsh] at h
  cases h
  refine ⟨rfl, ?_⟩
  have hf := hsh .fake
  funext k
  cases h1 : s1.algo.isBss <;> cases h2 : s.algo.isBss <;> simp [Sep.state, h1, h2] at hf ⊢

/-- A trained MVDR beamformer loaded with another window: the load succeeds and the window is the one it was trained with. -/
example : ∃ s s', trainSep demoWorld 7 (.str "mvdr") (.int 2) demoModel = .ok s ∧
    reloadSep demoWorld 8 (exportConfig demoModel) [("algo", .str "mvdr"), ("window", .str "blackman")] s.state = .ok s' ∧
    s'.window = s.window := by
  obtain ⟨s0, h, ha, hw⟩ := demo_train "mvdr" .mvdr (by decide)
  obtain ⟨s', h'⟩ := demo_window s0 h
  exact ⟨s0, s', h, h', (reload_tensors demoWorld 8 _ _ s0 s' h').1⟩

/-- C99: a load fails when the window for the `n_fft` in force does not have the shape of the stored one, as when another `n_fft` is
given at load time. -/
theorem reload_size (W : SepWorld T Sh) (seed : ℕ) (cfg kwargs : List (String × PyVal)) (s : Sep T) (v : PyVal)
    (hv : (lastGet kwargs "n_fft").or (dictGet cfg "n_fft") = some v)
    (hw : ∀ win w, W.window win v = .ok w → W.shape w ≠ W.shape s.window) :
    ∃ e, reloadSep W seed cfg kwargs s.state = .error e := by
  cases h : reloadSep W seed cfg kwargs s.state with
  | error e => exact ⟨e, rfl⟩
  | ok s' =>
    exfalso
    unfold reloadSep at h
    simp only [ebind] at h
    obtain ⟨args, ha, src, -, s1, h1, h⟩ := h
    unfold Sep.load at h
    by_cases hsh : ∀ k, (s.state k).map W.shape = (s1.state k).map W.shape
    swap
    · rw [if_neg hsh] at h; cases h
    have hn : args "n_fft" = v := by
      unfold bindArgs at ha
      split_ifs at ha
      cases ha
      simp only [dictGet_update, hv, Option.getD_some]
    unfold buildSep at h1
    simp only [ebind] at h1
    obtain ⟨sw, -, algo, -, wdw, h13, h14⟩ := h1
    cases h14
    rw [hn] at h13
    have := hsh .stftWindow
    simp only [Sep.state, Option.map_some, Option.some.injEq] at this
    exact hw _ _ h13 this.symm

/-- A model trained with frames of 4096 samples does not load with `n_fft=2048`. -/
example : ∃ s e, trainSep demoWorld 7 (.str "tiss") (.int 2) demoModel = .ok s ∧
    reloadSep demoWorld 8 (exportConfig demoModel) [("n_fft", .int 2048)] s.state = .error e := by
  obtain ⟨s0, h, ha, hw⟩ := demo_train "tiss" .tIss (by decide)
  obtain ⟨nFft, -, -, -, -, -, -, g1, -, -, -, -, -, -, -, -, hwin, -⟩ :=
    train_inv demoWorld 7 (.str "tiss") (.int 2) demoModel s0 (fun d => by simp [demoWorld]) h
  have hn : nFft = .int 4096 := by
    simp [demoModel, get_cons] at g1; exact g1.symm
  subst hn
  obtain ⟨e, he⟩ := reload_size demoWorld 8 (exportConfig demoModel) [("n_fft", .int 2048)] s0 (.int 2048)
    (by simp [lastGet, get_cons]) (fun win w e => by
      have h1 : w.1 = 2048 := by
        cases win <;> (simp only [demoWorld] at e; cases e; rfl)
      have h2 : s0.window = (4096, 0) := by simp only [demoWorld] at hwin; exact (Except.ok.inj hwin).symm
      rw [h2]
      simp [demoWorld, h1])
  exact ⟨s0, e, h, he⟩

end Torchiva.Props
