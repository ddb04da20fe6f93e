import Verif.Model.Loader

/-! # C59-C61 loading models -/

namespace Torchiva.Props

open Torchiva

/-! ## URLs -/

/-- The cache key of a URL is its last component, whatever precedes it. -/
theorem pathName_join (base name : Str) (h1 : '/' ∉ name) (h2 : name ≠ []) (h3 : name ≠ ['.']) :
    pathName (base ++ '/' :: name) = name := by
  unfold pathName
  rw [List.splitOn_append_cons_self, List.splitOn_eq_singleton h1, List.filter_append]
  simp [h2, h3]

/-- The names in the cache of two URLs. -/
example : pathName "https://a.org/models/tiss".toList = "tiss".toList ∧
    pathName "https://b.org/tiss".toList = "tiss".toList :=
  ⟨pathName_join "https://a.org/models".toList _ (by decide) (by decide) (by decide),
    pathName_join "https://b.org".toList _ (by decide) (by decide) (by decide)⟩

/-- A trailing slash changes neither the cache key nor the URLs that are requested. -/
theorem trailing_slash (url part : Str) :
    pathName (url ++ ['/']) = pathName url ∧
    (url ≠ [] → urljoin (url ++ ['/']) part = urljoin url part) := by
  constructor
  · unfold pathName
    rw [List.splitOn_append_cons_self, List.splitOn_nil, List.filter_append]
    simp
  · intro _
    unfold urljoin stripSlash
    congr 2
    rw [List.dropWhile_append]
    split_ifs with h
    · have h' : url.dropWhile (fun x => decide (x = '/')) = [] := by simpa using h
      rw [h']
      simp
    · rw [List.rdropWhile_concat]
      simp

/-! ## The cache only grows -/

theorem fetchFile_keeps (web : Web) (fault : Fault) (url : Str) (c : Cache) (f : MFile) (n : Str)
    (g : MFile) (b : Bytes) (hb : c n g = some b) : (fetchFile web fault url c f).2 n g = some b := by
  unfold fetchFile
  split_ifs with h1 h2
  · exact hb
  · exact hb
  · split
    · exact hb
    · have : ¬ (n = pathName url ∧ g = f) := by
        rintro ⟨rfl, rfl⟩
        rw [hb] at h2
        simp at h2
      split_ifs <;> simp [Cache.write, this, hb]

theorem getModel_keeps (web : Web) (fault : Fault) (url : Str) (c : Cache) (n : Str)
    (g : MFile) (b : Bytes) (hb : c n g = some b) :
    (getModelFromUrl web fault url c).2 n g = some b := by
  unfold getModelFromUrl
  have h1 := fetchFile_keeps web fault url c .weights n g b hb
  rcases e1 : fetchFile web fault url c .weights with ⟨r1, c1⟩
  rw [e1] at h1
  cases r1 with
  | error e => exact h1
  | ok u =>
    dsimp only at h1 ⊢
    have h2 := fetchFile_keeps web fault url c1 .config n g b h1
    rcases e2 : fetchFile web fault url c1 .config with ⟨r2, c2⟩
    rw [e2] at h2
    cases r2 <;> exact h2

/-- C59/C60: a file that is in the cache, complete or not, is never touched again: it has the same
bytes after any sequence of loads, of any URLs, with any faults, whatever the servers hold. -/
theorem cached_file_is_forever (h : List (Web × Fault × Str)) (c : Cache) (n : Str) (g : MFile)
    (b : Bytes) (hb : c n g = some b) : loadHistory h c n g = some b := by
  induction h generalizing c with
  | nil => exact hb
  | cons a t ih => exact ih _ (getModel_keeps _ _ _ _ _ _ _ hb)

/-- A download that was cut after two bytes stays in the cache. -/
example : loadHistory [(fun _ => some [9, 9, 9], .fine, "https://a.org/tiss".toList)]
    (fun n g => if n = "tiss".toList ∧ g = .weights then some [1, 2] else none) "tiss".toList .weights = some [1, 2] :=
  cached_file_is_forever _ _ _ _ _ (by simp)

/-- With both files in the cache a load returns them, from any URL with that last component. -/
theorem load_from_cache (web : Web) (url : Str) (c : Cache) (w y : Bytes)
    (hw : c (pathName url) .weights = some w) (hy : c (pathName url) .config = some y) :
    getModelFromUrl web .fine url c = (.ok (some w, some y), c) := by
  simp [getModelFromUrl, fetchFile, Fault.stopsBefore, hw, hy]

/-- A fault-free load from a server that has both files, with an empty cache for that name. -/
theorem load_fresh (web : Web) (url : Str) (c : Cache) (w y : Bytes)
    (hw0 : c (pathName url) .weights = none) (hy0 : c (pathName url) .config = none)
    (hw : web (urljoin url MFile.weights.fn) = some w)
    (hy : web (urljoin url MFile.config.fn) = some y) :
    ∃ c', getModelFromUrl web .fine url c = (.ok (some w, some y), c') ∧
      c' (pathName url) .weights = some w ∧ c' (pathName url) .config = some y := by
  simp [getModelFromUrl, fetchFile, Fault.stopsBefore, Fault.cutsAt, hw, hy, hw0, hy0, Cache.write]

/-- The files that are requested, written out: from `host/path/name` the load takes `host/path/name/model_weights.ckpt` and
`host/path/name/model_config.yaml`, and nothing else on the server matters. -/
theorem load_fresh_urls (web : Web) (base name : Str) (c : Cache) (w y : Bytes)
    (hb : base.head? ≠ some '/') (hb0 : base ≠ []) (h1 : '/' ∉ name) (h2 : name ≠ []) (h3 : name ≠ ['.'])
    (hw0 : c name .weights = none) (hy0 : c name .config = none)
    (hw : web (base ++ '/' :: name ++ "/model_weights.ckpt".toList) = some w)
    (hy : web (base ++ '/' :: name ++ "/model_config.yaml".toList) = some y) :
    ∃ c', getModelFromUrl web .fine (base ++ '/' :: name) c = (.ok (some w, some y), c') ∧
      c' name .weights = some w ∧ c' name .config = some y := by
  have hp := pathName_join base name h1 h2 h3
  have hs : stripSlash (base ++ '/' :: name) = base ++ '/' :: name := by
    unfold stripSlash
    have : (base ++ '/' :: name).dropWhile (fun x => decide (x = '/')) = base ++ '/' :: name := by
      cases base with
      | nil => exact absurd rfl hb0
      | cons a l =>
        have : a ≠ '/' := by simpa using hb
        simp [this]
    rw [this, List.rdropWhile_eq_self_iff]
    intro hl
    have hlast : (base ++ '/' :: name).getLast hl = name.getLast h2 := by
      rw [List.getLast_append_of_ne_nil _ (List.cons_ne_nil _ _), List.getLast_cons h2]
    rw [hlast]
    have := List.getLast_mem h2
    simp only [decide_eq_true_eq]
    intro he
    exact h1 (he ▸ this)
  have hsl1 : ['/'] ++ MFile.weights.fn = "/model_weights.ckpt".toList := by decide
  have hsl2 : ['/'] ++ MFile.config.fn = "/model_config.yaml".toList := by decide
  have e := load_fresh web (base ++ '/' :: name) c w y (by rw [hp]; exact hw0) (by rw [hp]; exact hy0)
    (by rw [← hw, urljoin, hs, List.append_assoc]; exact congrArg web (congrArg _ hsl1))
    (by rw [← hy, urljoin, hs, List.append_assoc]; exact congrArg web (congrArg _ hsl2))
  rwa [hp] at e

/-- A server with exactly the two files. -/
example : ∃ c', getModelFromUrl (fun u => if u = "https://a.org/tiss/model_weights.ckpt".toList then some [1]
      else if u = "https://a.org/tiss/model_config.yaml".toList then some [2] else none)
    .fine ("https://a.org".toList ++ '/' :: "tiss".toList) (fun _ _ => none) = (.ok (some [1], some [2]), c') :=
  (load_fresh_urls _ "https://a.org".toList "tiss".toList _ [1] [2] (by decide) (by decide) (by decide) (by decide)
    (by decide) rfl rfl (if_pos (by decide)) (by rw [if_neg (by decide), if_pos (by decide)])).imp fun _ h => h.1

/-- A server with different bytes in the two files and an empty cache. -/
example : ∃ c', getModelFromUrl (fun u => if u = urljoin "https://a.org/tiss".toList MFile.weights.fn then some [1] else some [2])
    .fine "https://a.org/tiss".toList (fun _ _ => none) = (.ok (some [1], some [2]), c') :=
  (load_fresh _ _ _ [1] [2] rfl rfl (by simp) (by rw [if_neg (by decide)])).imp fun _ h => h.1

/-- C59, false in general: after a successful load of `u`, loading any other URL with the same last
component returns `u`'s files, after any further history and whatever is stored at the other URL (also
at `u` itself: updates on the server are never seen). -/
theorem cache_keyed_by_url_violated (web : Web) (u v : Str) (hn : pathName v = pathName u) (w y : Bytes)
    (hw : web (urljoin u MFile.weights.fn) = some w)
    (hy : web (urljoin u MFile.config.fn) = some y)
    (h : List (Web × Fault × Str)) (web' : Web) :
    (getModelFromUrl web' .fine v
      (loadHistory h (getModelFromUrl web .fine u (fun _ _ => none)).2)).1 = .ok (some w, some y) := by
  obtain ⟨c', h1, h2, h3⟩ := load_fresh web u (fun _ _ => none) w y rfl rfl hw hy
  rw [h1]
  rw [load_from_cache web' v _ w y (hn ▸ cached_file_is_forever h c' _ _ _ h2)
    (hn ▸ cached_file_is_forever h c' _ _ _ h3)]

/-- Two servers with a model of the same name and different files: the second load returns the files of the first. -/
example : (getModelFromUrl (fun _ => some [7]) .fine "https://b.org/tiss".toList
    (getModelFromUrl (fun _ => some [1]) .fine "https://a.org/tiss".toList (fun _ _ => none)).2).1
      = .ok (some [1], some [1]) :=
  cache_keyed_by_url_violated (fun _ => some [1]) _ _ (by decide) [1] [1] rfl rfl [] _

/-- The concrete failure: two different models called "tiss" on two servers. -/
theorem cache_keyed_by_url_violated_witness :
    ∃ (web : Web) (u v : Str), u ≠ v ∧
      web (urljoin u MFile.weights.fn) = some [1] ∧ web (urljoin v MFile.weights.fn) = some [2] ∧
      (getModelFromUrl web .fine v (getModelFromUrl web .fine u (fun _ _ => none)).2).1 =
        .ok (some [1], some [7]) := by
  let u : Str := "https://a.org/tiss".toList
  let v : Str := "https://b.org/tiss".toList
  have hne : urljoin v MFile.weights.fn ≠ urljoin u MFile.weights.fn := by decide
  have hne2 : urljoin u MFile.config.fn ≠ urljoin u MFile.weights.fn := by decide
  have hne3 : urljoin u MFile.config.fn ≠ urljoin v MFile.weights.fn := by decide
  refine ⟨fun s => if s = urljoin u MFile.weights.fn then some [1]
    else if s = urljoin v MFile.weights.fn then some [2] else some [7], u, v, by decide, ?_, ?_, ?_⟩
  · simp
  · simp [hne]
  · exact cache_keyed_by_url_violated _ u v (by decide) _ _ (by simp) (by simp [hne2, hne3]) [] _

/-! ## Correctness when names are distinct and no download is cut -/

/-- The entries of the cache for this URL are complete copies of the files at this URL. -/
def Faithful (web : Web) (url : Str) (c : Cache) : Prop :=
  ∀ f b, c (pathName url) f = some b → web (urljoin url f.fn) = some b

theorem fetchFile_faithful (web : Web) (url : Str) (fault : Fault) (u : Str) (c : Cache) (f : MFile)
    (hc : Faithful web url c)
    (hu : pathName u = pathName url → stripSlash u = stripSlash url ∧ ∀ g, fault.cutsAt g = none) :
    Faithful web url (fetchFile web fault u c f).2 := by
  unfold fetchFile
  split_ifs with h1 h2
  · exact hc
  · exact hc
  · split
    · exact hc
    · rename_i b hb
      by_cases hn : pathName u = pathName url
      · obtain ⟨hs, hf⟩ := hu hn
        simp only [hf f, Option.not_mem_none, false_and, exists_false, if_false]
        intro g b' hb'
        simp only [Cache.write] at hb'
        split_ifs at hb' with hg
        · obtain ⟨_, rfl⟩ := hg
          obtain rfl := Option.some.inj hb'
          rw [← hb]
          unfold urljoin
          rw [hs]
        · exact hc g b' hb'
      · split_ifs
        all_goals
          intro g b' hb'
          simp only [Cache.write] at hb'
          rw [if_neg (fun h => hn h.1.symm)] at hb'
          exact hc g b' hb'

theorem getModel_faithful (web : Web) (url : Str) (fault : Fault) (u : Str) (c : Cache)
    (hc : Faithful web url c)
    (hu : pathName u = pathName url → stripSlash u = stripSlash url ∧ ∀ g, fault.cutsAt g = none) :
    Faithful web url (getModelFromUrl web fault u c).2 := by
  unfold getModelFromUrl
  have h1 := fetchFile_faithful web url fault u c .weights hc hu
  rcases e1 : fetchFile web fault u c .weights with ⟨r1, c1⟩
  rw [e1] at h1
  cases r1 with
  | error e => exact h1
  | ok _ =>
    dsimp only at h1 ⊢
    have h2 := fetchFile_faithful web url fault u c1 .config h1 hu
    rcases e2 : fetchFile web fault u c1 .config with ⟨r2, c2⟩
    rw [e2] at h2
    cases r2 <;> exact h2

theorem history_faithful (web : Web) (url : Str) (h : List (Web × Fault × Str)) (c : Cache)
    (hc : Faithful web url c)
    (hh : ∀ a ∈ h, a.1 = web ∧ (pathName a.2.2 = pathName url → stripSlash a.2.2 = stripSlash url ∧
      ∀ g, a.2.1.cutsAt g = none)) : Faithful web url (loadHistory h c) := by
  induction h generalizing c with
  | nil => exact hc
  | cons a t ih =>
    obtain ⟨hw, ha⟩ := hh a (by simp)
    refine ih _ ?_ fun b hb => hh b (List.mem_cons_of_mem _ hb)
    obtain ⟨w, f, u⟩ := a
    subst hw
    exact getModel_faithful _ url f u c hc ha

/-- C59 and C60, what holds: take any history of loads in which every URL with the last component of
`url` is `url` itself (up to leading and trailing slashes) and none of *its* downloads was cut in the
middle of a file; crashes before either file, HTTP errors, and anything at all for other names, are
allowed.  Then loading `url` returns exactly the two files stored there. -/
theorem load_correct_partial (web : Web) (url : Str) (h : List (Web × Fault × Str))
    (hh : ∀ a ∈ h, a.1 = web ∧ (pathName a.2.2 = pathName url → stripSlash a.2.2 = stripSlash url ∧
      ∀ g, a.2.1.cutsAt g = none)) (w y : Bytes)
    (hw : web (urljoin url MFile.weights.fn) = some w)
    (hy : web (urljoin url MFile.config.fn) = some y) :
    (getModelFromUrl web .fine url (loadHistory h (fun _ _ => none))).1 = .ok (some w, some y) := by
  have hf := history_faithful web url h (fun _ _ => none) (fun _ _ h => by simp at h) hh
  generalize loadHistory h (fun _ _ => none) = c at hf
  have e : ∀ f b, web (urljoin url (MFile.fn f)) = some b →
      c (pathName url) f = none ∨ c (pathName url) f = some b := by
    intro f b hb
    rcases hc : c (pathName url) f with _ | b'
    · exact Or.inl rfl
    · have := hf f b' hc
      rw [hb] at this
      exact Or.inr (by rw [Option.some.inj this])
  rcases e _ _ hw with h1 | h1 <;> rcases e _ _ hy with h2 | h2 <;>
    simp [getModelFromUrl, fetchFile, Fault.stopsBefore, Fault.cutsAt, Cache.write, h1, h2, hw, hy]

/-- A load of a URL whose files are missing on the server raises, when nothing of that name was cached. -/
theorem load_missing_raises (web : Web) (url : Str) (c : Cache)
    (hc : c (pathName url) .weights = none) (hw : web (urljoin url MFile.weights.fn) = none) :
    getModelFromUrl web .fine url c = (.error .osError, c) := by
  simp [getModelFromUrl, fetchFile, Fault.stopsBefore, hc, hw]

/-- An empty cache and a server without files. -/
example : getModelFromUrl (fun _ => none) .fine "https://a.org/tiss".toList (fun _ _ => none)
    = (.error .osError, fun _ _ => none) := load_missing_raises _ _ _ rfl rfl

/-- C60, false: if the download of the weights is cut after `k` bytes, then after any further history
every load of that URL that returns, returns the truncated weights, and it does return if the
configuration file is available. -/
theorem interrupted_download_violated (web : Web) (url : Str) (w : Bytes) (k : ℕ) (hk : k < w.length)
    (hw : web (urljoin url MFile.weights.fn) = some w) (h : List (Web × Fault × Str)) (web' : Web)
    (y : Bytes) (hy : web' (urljoin url MFile.config.fn) = some y) :
    ∃ r, (getModelFromUrl web' .fine url (loadHistory h
        (getModelFromUrl web (.during .weights k) url (fun _ _ => none)).2)).1 = .ok (some (w.take k), r) ∧
      w.take k ≠ w := by
  have h0 : (getModelFromUrl web (.during .weights k) url (fun _ _ => none)).2 (pathName url) .weights
      = some (w.take k) := by
    simp [getModelFromUrl, fetchFile, Fault.stopsBefore, Fault.cutsAt, hw, hk, Cache.write]
  have h1 := cached_file_is_forever h _ _ _ _ h0
  generalize loadHistory h _ = c at h1
  have h2 : w.take k ≠ w := fun e => by
    have := congrArg List.length e
    rw [List.length_take] at this
    omega
  rcases hc : c (pathName url) .config with _ | b
  · refine ⟨some y, ?_, h2⟩
    simp [getModelFromUrl, fetchFile, Fault.stopsBefore, Fault.cutsAt, Cache.write, h1, hc, hy]
  · exact ⟨some b, by rw [load_from_cache web' url c _ _ h1 hc], h2⟩

example : ∃ r, (getModelFromUrl (fun _ => some [1, 2, 3]) .fine "https://a.org/tiss".toList
    (getModelFromUrl (fun _ => some [1, 2, 3]) (.during .weights 1) "https://a.org/tiss".toList
      (fun _ _ => none)).2).1 = .ok (some [1], r) :=
  (interrupted_download_violated (fun _ => some [1, 2, 3]) _ [1, 2, 3] 1 (by decide) rfl []
    (fun _ => some [1, 2, 3]) [1, 2, 3] rfl).imp fun _ h => h.1

/-- The hypotheses of `load_correct_partial` are met by a history with a crash between the two files,
a cut download of another model and a trailing slash. -/
example : (getModelFromUrl (fun _ => some [1, 2, 3]) .fine "https://a.org/tiss".toList
    (loadHistory [(fun _ => some [1, 2, 3], .before .config, "https://a.org/tiss/".toList),
      (fun _ => some [1, 2, 3], .during .weights 2, "https://a.org/other".toList)]
      (fun _ _ => none))).1 = .ok (some [1, 2, 3], some [1, 2, 3]) := by
  refine load_correct_partial (fun _ => some [1, 2, 3]) _ _ ?_ _ _ rfl rfl
  intro a ha
  simp only [List.mem_cons, List.not_mem_nil, or_false] at ha
  rcases ha with rfl | rfl
  · exact ⟨rfl, fun _ => ⟨by decide, fun _ => rfl⟩⟩
  · exact ⟨rfl, fun h => absurd h (by decide)⟩

/-! ## C61 -/

theorem dictGet_append {V : Type} (d e : List (String × V)) (k : String) :
    dictGet (d ++ e) k = (dictGet d k).or (dictGet e k) := by
  unfold dictGet
  rw [List.find?_append]
  cases List.find? (fun kv => decide (kv.1 = k)) d <;> simp

theorem dictGet_set {V : Type} (d : List (String × V)) (k k' : String) (v : V) :
    dictGet (dictSet d k v) k' = if k' = k then some v else dictGet d k' := by
  unfold dictSet
  split_ifs with h1 h2 h2
  · subst h2
    induction d with
    | nil => simp [dictGet] at h1
    | cons a t ih =>
      by_cases ha : a.1 = k'
      · simp [dictGet, ha]
      · have : dictGet (a :: t) k' = dictGet t k' := by simp [dictGet, ha]
        rw [this] at h1
        have := ih h1
        simpa [dictGet, ha] using this
  · clear h1
    induction d with
    | nil => rfl
    | cons a t ih =>
      by_cases ha : a.1 = k
      · have e1 : dictGet (a :: t) k' = dictGet t k' := by
          simp [dictGet, ha, Ne.symm h2]
        rw [e1, ← ih]
        simp [dictGet, ha, Ne.symm h2]
      · by_cases hb : a.1 = k'
        · simp [dictGet, hb, h2]
        · simp [dictGet, ha, hb] at ih ⊢
          exact ih
  · subst h2
    rw [dictGet_append, Option.not_isSome_iff_eq_none.1 h1]
    simp [dictGet]
  · rw [dictGet_append]
    have : dictGet [(k, v)] k' = none := by simp [dictGet, Ne.symm h2]
    rw [this, Option.or_none]

/-- The last value given for a key. -/
def lastGet {V : Type} (kw : List (String × V)) (k : String) : Option V := dictGet kw.reverse k

theorem dictGet_update {V : Type} (d kw : List (String × V)) (k : String) :
    dictGet (dictUpdate d kw) k = (lastGet kw k).or (dictGet d k) := by
  unfold dictUpdate lastGet
  induction kw generalizing d with
  | nil => rfl
  | cons a t ih =>
    rw [List.foldl_cons, ih, dictGet_set, List.reverse_cons, dictGet_append]
    have : dictGet [a] k = if k = a.1 then some a.2 else none := by
      by_cases h : k = a.1
      · simp [dictGet, h]
      · simp [dictGet, h, Ne.symm h]
    rw [this]
    split_ifs <;> cases dictGet t.reverse k <;> simp

variable {V S T : Type}

/-- C61: with both files present and readable, the separator is built from a configuration that has,
key by key, the keyword argument if one is given and the stored value otherwise (no other key),
and then receives the stored weights. -/
theorem load_overrides (parse : Bytes → Yaml V) (torchLoad : Bytes → Except Err T)
    (build : List (String × V) → Except Err S) (loadState : S → T → Except Err S) (wb cb : Bytes)
    (d kwargs : List (String × V)) (hk : (kwargs.map Prod.fst).Nodup) (hd : parse cb = .dict d) (t : T)
    (ht : torchLoad wb = .ok t) :
    ∃ cfg, (∀ k, dictGet cfg k = match dictGet kwargs k with
        | some v => some v
        | none => dictGet d k) ∧
      loadSeparatorModel parse torchLoad build loadState (.file wb) (.file cb) kwargs =
        (build cfg >>= fun s => loadState s t) := by
  refine ⟨dictUpdate d kwargs, fun k => ?_, ?_⟩
  · rw [dictGet_update]
    have : lastGet kwargs k = dictGet kwargs k := by
      unfold lastGet
      clear hd
      induction kwargs with
      | nil => rfl
      | cons a l ih =>
        rw [List.map_cons, List.nodup_cons] at hk
        rw [List.reverse_cons, dictGet_append, ih hk.2]
        by_cases h : a.1 = k
        · subst h
          have h0 : dictGet l a.1 = none := by
            unfold dictGet
            rw [Option.map_eq_none_iff, List.find?_eq_none]
            intro x hx he
            exact hk.1 (List.mem_map.2 ⟨x, hx, by simpa using he⟩)
          rw [h0]
          simp [dictGet]
        · have h1 : dictGet [a] k = none := by simp [dictGet, h]
          have h2 : dictGet (a :: l) k = dictGet l k := by simp [dictGet, h]
          rw [h1, h2, Option.or_none]
    rw [this]
    cases dictGet kwargs k <;> rfl
  · unfold loadSeparatorModel
    simp only [hd, ht]
    rfl

/-- A stored configuration `n_iter=5, eps=1` and the keyword argument `n_iter=7`. -/
example : ∃ cfg, dictGet cfg "n_iter" = some 7 ∧ dictGet cfg "eps" = some 1 ∧
    loadSeparatorModel (fun _ => .dict [("n_iter", 5), ("eps", 1)]) (fun b => .ok b.length) (fun c => .ok (c, 0))
      (fun s t => .ok (s.1, t)) (.file [0, 0]) (.file [0]) [("n_iter", 7)] = .ok (cfg, 2) := by
  obtain ⟨cfg, h, e⟩ := load_overrides (V := ℕ) (fun _ => .dict [("n_iter", 5), ("eps", 1)]) (fun b => .ok b.length)
    (fun c => .ok (c, 0)) (fun s t => .ok (s.1, t)) [0, 0] [0] _ [("n_iter", 7)] (by decide) rfl 2 rfl
  exact ⟨cfg, by rw [h]; decide, by rw [h]; decide, e⟩

/-- C61: a missing weights or configuration file raises `ValueError`, whatever the other one is. -/
theorem load_missing_file (parse : Bytes → Yaml V) (torchLoad : Bytes → Except Err T)
    (build : List (String × V) → Except Err S) (loadState : S → T → Except Err S)
    (ck cf : Node) (kwargs : List (String × V)) (h : ck = .absent ∨ cf = .absent) :
    loadSeparatorModel parse torchLoad build loadState ck cf kwargs = .error .valueError := by
  rcases h with rfl | rfl
  · cases cf <;> rfl
  · cases ck <;> rfl

/-- The weights are there and the configuration is not. -/
example : loadSeparatorModel (V := ℕ) (fun _ => .other) (fun b => .ok b) (fun c => .ok c) (fun s _ => .ok s)
    (.file [1]) .absent [] = .error .valueError := load_missing_file _ _ _ _ _ _ _ (Or.inr rfl)

/-- C61: a string that is not an http(s) URL and is not an existing folder raises `ValueError` and leaves
the cache alone; an existing folder is read from its own two files. -/
theorem load_local (parse : Bytes → Yaml V) (torchLoad : Bytes → Except Err T)
    (build : List (String × V) → Except Err S) (loadState : S → T → Except Err S) (web : Web)
    (fault : Fault) (fs : Str → Node) (inDir : Str → MFile → Node) (path : Str)
    (kwargs : List (String × V)) (c : Cache)
    (hu : urlScheme path ≠ "http".toList ∧ urlScheme path ≠ "https".toList) :
    (fs path ≠ .dir → loadSeparator parse torchLoad build loadState web fault fs inDir path kwargs c =
      (.error .valueError, c)) ∧
    (fs path = .dir → loadSeparator parse torchLoad build loadState web fault fs inDir path kwargs c =
      (loadSeparatorModel parse torchLoad build loadState (inDir path .weights)
        (inDir path .config) kwargs, c)) := by
  unfold loadSeparator
  rw [if_neg (by tauto)]
  constructor
  · intro h
    cases e : fs path with
    | absent => rfl
    | file b => rfl
    | dir => exact absurd e h
  · intro h
    rw [h]

/-- A relative path is not a URL. -/
example : urlScheme "models/tiss".toList ≠ "http".toList ∧ urlScheme "models/tiss".toList ≠ "https".toList := by decide

/-- C61: an http or https URL (in any case) never touches local folders of that name. -/
theorem load_url_ignores_local (parse : Bytes → Yaml V) (torchLoad : Bytes → Except Err T)
    (build : List (String × V) → Except Err S) (loadState : S → T → Except Err S) (web : Web)
    (fault : Fault) (fs fs' : Str → Node) (inDir inDir' : Str → MFile → Node) (path : Str)
    (kwargs : List (String × V)) (c : Cache)
    (hu : urlScheme path = "http".toList ∨ urlScheme path = "https".toList) :
    loadSeparator parse torchLoad build loadState web fault fs inDir path kwargs c =
    loadSeparator parse torchLoad build loadState web fault fs' inDir' path kwargs c := by
  unfold loadSeparator
  rw [if_pos hu, if_pos hu]

example : urlScheme "HTTPS://a.org/tiss".toList = "https".toList := by decide
example : urlScheme "./models/tiss".toList = [] := by decide

/-- C59-C61 together: with the files of a URL available and a clean history, `load_separator(url)` is
`load_separator_model` on the files stored at that URL. -/
theorem load_url_correct_partial (parse : Bytes → Yaml V) (torchLoad : Bytes → Except Err T)
    (build : List (String × V) → Except Err S) (loadState : S → T → Except Err S) (web : Web)
    (fs : Str → Node) (inDir : Str → MFile → Node) (url : Str)
    (kwargs : List (String × V)) (h : List (Web × Fault × Str))
    (hu : urlScheme url = "http".toList ∨ urlScheme url = "https".toList)
    (hh : ∀ a ∈ h, a.1 = web ∧ (pathName a.2.2 = pathName url → stripSlash a.2.2 = stripSlash url ∧
      ∀ g, a.2.1.cutsAt g = none)) (w y : Bytes)
    (hw : web (urljoin url MFile.weights.fn) = some w)
    (hy : web (urljoin url MFile.config.fn) = some y) :
    (loadSeparator parse torchLoad build loadState web .fine fs inDir url kwargs
      (loadHistory h (fun _ _ => none))).1 =
    loadSeparatorModel parse torchLoad build loadState (.file w) (.file y) kwargs := by
  have h1 := load_correct_partial web url h hh w y hw hy
  unfold loadSeparator
  rw [if_pos hu]
  rcases e : getModelFromUrl web .fine url (loadHistory h fun _ _ => none) with ⟨r, c⟩
  rw [e] at h1
  dsimp only at h1
  subst h1
  rfl

/-- A clean history: the model was loaded before, from the same server, without and with a trailing slash; the download of another
model was cut. -/
example : (loadSeparator (fun b => .dict [("k", b.length)]) (fun b => .ok b) (fun c => .ok c) (fun s _ => .ok s)
    (fun _ => some [1, 2, 3]) .fine (fun _ => .absent) (fun _ _ => .absent) "https://a.org/tiss".toList []
    (loadHistory [(fun _ => some [1, 2, 3], .fine, "https://a.org/tiss/".toList),
      (fun _ => some [1, 2, 3], .during .weights 2, "https://a.org/other".toList)] (fun _ _ => none))).1
    = .ok [("k", 3)] := by
  rw [load_url_correct_partial (w := [1, 2, 3]) (y := [1, 2, 3]) (hu := Or.inr (by decide)) (hw := rfl) (hy := rfl)]
  · rfl
  · intro a ha
    simp only [List.mem_cons, List.not_mem_nil, or_false] at ha
    rcases ha with rfl | rfl
    · exact ⟨rfl, fun _ => ⟨by decide, fun _ => rfl⟩⟩
    · exact ⟨rfl, fun h => absurd h (by decide)⟩

end Torchiva.Props
