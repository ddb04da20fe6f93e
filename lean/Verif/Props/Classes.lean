import Verif.Spec.Classes
import Verif.Props.Pipeline
import Verif.Props.ModelUse
import Verif.Props.Ip2

/-! # C125, C126: options of the classes, and `BSSSeparator` from its arguments to the recordings -/

namespace Torchiva.Props
open Torchiva Torchiva.Spec
variable {M σ : Type} {S C F N n : ℕ}

private lemma bind_ok {sig kw : Kw M} (h : Only kw (sig.map Prod.fst)) :
    bindKw sig kw = .ok (sig.map fun s => (s.1, (kw.lookup s.1).getD s.2)) := by
  unfold bindKw
  rw [if_pos]
  rw [List.all_eq_true]
  intro kv hkv
  obtain ⟨s, hs, e⟩ := List.mem_map.1 (h kv hkv)
  exact List.any_eq_true.2 ⟨s, hs, by simpa using e⟩

private lemma eff (ctor call : Kw M) (k : String) (d) :
    ((call.lookup k).getD none).or ((ctor.lookup k).getD d) = inForce ctor call k d := by
  unfold inForce
  rcases call.lookup k with _ | _ | v <;> rcases ctor.lookup k with _ | w <;> simp

private lemma effOr (ctor call : Kw M) (k : String) (d) :
    ((call.lookup k).getD none).or (some (((ctor.lookup k).getD none).getD d)) = some (inForceOr ctor call k d) := by
  unfold inForceOr
  rcases call.lookup k with _ | _ | v <;> rcases ctor.lookup k with _ | _ | w <;> simp

private lemma base_ok (lap : M) (kw : Kw M) (h : Only kw ((drSig (M := M)).map Prod.fst)) (m0 : M)
    (hm : ((kw.lookup "model").getD none).getD (.obj lap) = .obj m0) :
    ∃ attrs, newBase lap kw = .ok attrs ∧ attrs "n_iter" = (kw.lookup "n_iter").getD (some (.int 10)) ∧
      attrs "n_taps" = (kw.lookup "n_taps").getD (some (.int 0)) ∧ attrs "n_delay" = (kw.lookup "n_delay").getD (some (.int 0)) ∧
      attrs "n_src" = (kw.lookup "n_src").getD none ∧ attrs "proj_back_mic" = (kw.lookup "proj_back_mic").getD (some (.int 0)) ∧
      attrs "use_dmc" = (kw.lookup "use_dmc").getD (some (.bool false)) ∧ attrs "model" = some (.obj m0) ∧
      attrs "eps" = some (((kw.lookup "eps").getD none).getD (.float 1e-5)) := by
  unfold newBase
  rw [bind_ok h]
  have : (bssInit (R := Unit) (arg (drSig.map fun s => (s.1, (kw.lookup s.1).getD s.2))) (.float 1e-5) (.obj lap)).attrs "model" = some (.obj m0) := by
    rw [← hm]
    simp only [bssInit, drSig, arg, List.lookup, List.map]
    rcases kw.lookup "model" with _ | _ | _ <;> simp
  simp only [bind, Except.bind, this, asModel]
  refine ⟨_, rfl, ?_, ?_, ?_, ?_, ?_, ?_, this, ?_⟩
  all_goals simp only [bssInit, drSig, arg, List.lookup, List.map]; simp
  rcases kw.lookup "eps" with _ | _ | _ <;> simp

private lemma arg_none (keys : List String) (call : Kw M) (k : String) (h : k ∈ keys) :
    arg ((noneSig keys).map fun s => (s.1, (call.lookup s.1).getD s.2)) k = (call.lookup k).getD none := by
  unfold arg noneSig
  induction keys with
  | nil => cases h
  | cons a keys ih =>
    by_cases e : k = a
    · subst e
      simp
    · have : (k == a) = false := by simpa using e
      simp only [List.map, List.lookup, this]
      exact ih ((List.mem_cons.1 h).resolve_left e)

@[simp] private lemma optNat (s : Option ℕ) : asOptNat (s.map (PyArg.int (M := M))) = .ok s := by cases s <;> rfl

private lemma model_obj (lap : M) (ctor : Kw M) (hm : ∀ v, ctor.lookup "model" = some (some v) → ∃ m, v = .obj m) :
    ∃ m0, ((ctor.lookup "model").getD none).getD (.obj lap) = .obj m0 := by
  rcases h : ctor.lookup "model" with _ | _ | v
  · exact ⟨_, rfl⟩
  · exact ⟨_, rfl⟩
  · obtain ⟨m, rfl⟩ := hm v h
    exact ⟨m, rfl⟩

/-! ## C125 -/

private lemma flag_falsy {v : Option (PyArg M)} {b : Bool} (h : Falsy v ↔ b = false) : asFlag v = b := by
  have : asFlag v = false ↔ Falsy v := by
    rcases v with _ | (n | x | b | s | a | m) <;> simp [asFlag, Falsy]
  cases b <;> simp_all

/-- **C125 (T-ISS).** Every option of the call that is not `None` overrides the constructor, whose options override the defaults of the documentation; nothing else reaches the computation.  The flag may be any value: Python's truth value is used. -/
theorem tiss_flag (W : World M σ S) (ctor call : Kw M) (hc : Only ctor ["n_iter", "n_taps", "n_delay", "n_src", "model", "proj_back_mic", "use_dmc", "eps"]) (ho : Only call ["n_iter", "n_taps", "n_delay", "n_src", "model", "proj_back_mic", "use_dmc", "eps"])
    (hm : ∀ v, ctor.lookup "model" = some (some v) → ∃ m, v = .obj m) :
    ∃ attrs, newTiss W.laplace ctor = .ok attrs ∧ ∀ (i t d : ℕ) (s r : Option ℕ) (v : Option (PyArg M)) (b : Bool) (e : ℝ) (m : M),
      inForce ctor call "n_iter" (some (.int 10)) = some (.int i) →
      inForce ctor call "n_taps" (some (.int 0)) = some (.int t) →
      inForce ctor call "n_delay" (some (.int 0)) = some (.int d) →
      inForce ctor call "n_src" (none) = s.map .int →
      inForceOr ctor call "model" (.obj W.laplace) = .obj m →
      inForce ctor call "proj_back_mic" (some (.int 0)) = r.map .int →
      inForce ctor call "use_dmc" (some (.bool false)) = v → (Falsy v ↔ b = false) →
      inForceOr ctor call "eps" (.float 1e-5) = .float e →
      ∀ (heap : M → σ) (X : Sig C F N), tissCall W attrs heap call X = tissForward ⟨i, t, d, r, b, e⟩ s X (W.source m F N) (W.reset m) (heap m) := by
  obtain ⟨m0, hm0⟩ := model_obj W.laplace ctor hm
  obtain ⟨attrs, h, a1, a2, a3, a4, a5, a6, a7, a8⟩ : ∃ attrs, newTiss W.laplace ctor = .ok attrs ∧ _ := by
    unfold newTiss
    rw [bind_ok hc]
    dsimp only [bind, Except.bind]
    refine base_ok _ _ ?_ m0 ?_
    · simp [Only, drSig]
    · rw [← hm0]; simp [arg, List.lookup]
  simp [arg, List.lookup] at a1 a2 a3 a4 a5 a6 a8
  rw [← hm0] at a7
  refine ⟨_, h, fun i t d s r v b e m h1 h2 h3 h4 h5 h6 h7 hb h8 heap X => ?_⟩
  unfold tissCall
  rw [bind_ok ho]
  simp [bind, Except.bind, arg_none, setParams, a1, a2, a3, a4, a5, a6, a7, a8, -Option.or_some]
  simp only [eff, effOr, h1, h2, h3, h4, h5, h6, h7, h8, asModel, asNat, asReal, flag_falsy hb, optNat]

/-- **C125 (T-ISS).** Every option of the call that is not `None` overrides the constructor, whose options override the defaults of the documentation; nothing else reaches the computation. -/
theorem tiss_options (W : World M σ S) (ctor call : Kw M) (hc : Only ctor ["n_iter", "n_taps", "n_delay", "n_src", "model", "proj_back_mic", "use_dmc", "eps"]) (ho : Only call ["n_iter", "n_taps", "n_delay", "n_src", "model", "proj_back_mic", "use_dmc", "eps"])
    (hm : ∀ v, ctor.lookup "model" = some (some v) → ∃ m, v = .obj m) :
    ∃ attrs, newTiss W.laplace ctor = .ok attrs ∧ ∀ (i t d : ℕ) (s r : Option ℕ) (b : Bool) (e : ℝ) (m : M),
      inForce ctor call "n_iter" (some (.int 10)) = some (.int i) →
      inForce ctor call "n_taps" (some (.int 0)) = some (.int t) →
      inForce ctor call "n_delay" (some (.int 0)) = some (.int d) →
      inForce ctor call "n_src" (none) = s.map .int →
      inForceOr ctor call "model" (.obj W.laplace) = .obj m →
      inForce ctor call "proj_back_mic" (some (.int 0)) = r.map .int →
      inForce ctor call "use_dmc" (some (.bool false)) = some (.bool b) →
      inForceOr ctor call "eps" (.float 1e-5) = .float e →
      ∀ (heap : M → σ) (X : Sig C F N), tissCall W attrs heap call X = tissForward ⟨i, t, d, r, b, e⟩ s X (W.source m F N) (W.reset m) (heap m) := by
  obtain ⟨attrs, h, H⟩ := tiss_flag W ctor call hc ho hm
  exact ⟨attrs, h, fun i t d s r b e m h1 h2 h3 h4 h5 h6 h7 h8 => H i t d s r _ b e m h1 h2 h3 h4 h5 h6 h7 (by simp [Falsy]) h8⟩

/-- **C125 (AuxIVA-IP).** The same for AuxIVA-IP. -/
theorem auxiva_options (W : World M σ S) (ctor call : Kw M) (hc : Only ctor ["n_iter", "n_src", "model", "proj_back_mic", "eps"]) (ho : Only call ["n_iter", "n_src", "model", "proj_back_mic", "eps"])
    (hm : ∀ v, ctor.lookup "model" = some (some v) → ∃ m, v = .obj m) :
    ∃ attrs, newIp W.laplace ctor = .ok attrs ∧ ∀ (i : ℕ) (s r : Option ℕ) (e : ℝ) (m : M),
      inForce ctor call "n_iter" (some (.int 10)) = some (.int i) →
      inForce ctor call "n_src" (none) = s.map .int →
      inForceOr ctor call "model" (.obj W.laplace) = .obj m →
      inForce ctor call "proj_back_mic" (some (.int 0)) = r.map .int →
      inForceOr ctor call "eps" (.float 1e-5) = .float e →
      ∀ (heap : M → σ) (X : Sig C F N), ipCall W attrs heap call X = auxivaForward ⟨i, r, e⟩ s X (W.source m F N) (W.reset m) (heap m) := by
  obtain ⟨m0, hm0⟩ := model_obj W.laplace ctor hm
  obtain ⟨attrs, h, a1, a2, a3, a4, a5, a6, a7, a8⟩ : ∃ attrs, newIp W.laplace ctor = .ok attrs ∧ _ := by
    unfold newIp
    rw [bind_ok hc]
    dsimp only [bind, Except.bind]
    refine base_ok _ _ ?_ m0 ?_
    · simp [Only, drSig]
    · rw [← hm0]; simp [arg, List.lookup]
  simp [arg, List.lookup] at a1 a2 a3 a4 a5 a6 a8
  rw [← hm0] at a7
  refine ⟨_, h, fun i s r e m h1 h2 h3 h4 h5 heap X => ?_⟩
  unfold ipCall
  rw [bind_ok ho]
  simp [bind, Except.bind, arg_none, setParams, a1, a2, a3, a4, a5, a6, a7, a8, -Option.or_some]
  simp only [eff, effOr, h1, h2, h3, h4, h5, asModel, asNat, asReal, asFlag, optNat]

/-- **C125 (AuxIVA-IP2).** The same for AuxIVA-IP2. -/
theorem ip2_options (W : World M σ S) (ctor call : Kw M) (hc : Only ctor ["n_iter", "model", "proj_back_mic", "eps"]) (ho : Only call ["n_iter", "model", "proj_back_mic", "eps"])
    (hm : ∀ v, ctor.lookup "model" = some (some v) → ∃ m, v = .obj m) :
    ∃ attrs, newIp2 W.laplace ctor = .ok attrs ∧ ∀ (i : ℕ) (r : Option ℕ) (e : ℝ) (m : M),
      inForce ctor call "n_iter" (some (.int 10)) = some (.int i) →
      inForceOr ctor call "model" (.obj W.laplace) = .obj m →
      inForce ctor call "proj_back_mic" (some (.int 0)) = r.map .int →
      inForceOr ctor call "eps" (.float 1e-5) = .float e →
      ∀ (heap : M → σ) (X : Sig C F N), ip2Call W attrs heap call X = auxiva2Forward i (r.map fun r => (r : ℤ)) e X (W.source m F N) (W.reset m) (heap m) := by
  obtain ⟨m0, hm0⟩ := model_obj W.laplace ctor hm
  obtain ⟨attrs, h, a1, a2, a3, a4, a5, a6, a7, a8⟩ : ∃ attrs, newIp2 W.laplace ctor = .ok attrs ∧ _ := by
    unfold newIp2
    rw [bind_ok hc]
    dsimp only [bind, Except.bind]
    refine base_ok _ _ ?_ m0 ?_
    · simp [Only, drSig]
    · rw [← hm0]; simp [arg, List.lookup]
  simp [arg, List.lookup] at a1 a2 a3 a4 a5 a6 a8
  rw [← hm0] at a7
  refine ⟨_, h, fun i r e m h1 h2 h3 h4 heap X => ?_⟩
  unfold ip2Call
  rw [bind_ok ho]
  simp [bind, Except.bind, arg_none, setParams, a1, a2, a3, a4, a5, a6, a7, a8, -Option.or_some]
  simp only [eff, effOr, h1, h2, h3, h4, asModel, asNat, asReal, asFlag, optNat]


/-- **C125 (FIVE).** The same for FIVE; a reference microphone that does not exist is refused. -/
theorem five_options (W : World M σ S) (ctor call : Kw M) (hc : Only ctor ["n_iter", "model", "proj_back_mic", "eps", "n_power_iter"])
    (ho : Only call ["n_iter", "model", "proj_back_mic", "eps", "n_power_iter"])
    (hm : ∀ v, ctor.lookup "model" = some (some v) → ∃ m, v = .obj m) :
    ∃ attrs, newFive W.laplace ctor = .ok attrs ∧ ∀ (i r : ℕ) (p : Option ℕ) (m : M),
      inForce ctor call "n_iter" (some (.int 10)) = some (.int i) →
      inForceOr ctor call "model" (.obj W.laplace) = .obj m →
      inForce ctor call "proj_back_mic" (some (.int 0)) = some (.int r) →
      inForce ctor call "n_power_iter" none = p.map .int →
      ∀ (heap : M → σ) (X : Sig C (F + 1) N),
        (∀ [NeZero C] (h : r < C), fiveCall W attrs heap call X =
          fiveForward (W.solver C) i ⟨r, h⟩ p X (W.source m F N) (W.reset m) (heap m)) ∧
        (C ≤ r → fiveCall W attrs heap call X = .error .indexError) := by
  obtain ⟨m0, hm0⟩ := model_obj W.laplace ctor hm
  obtain ⟨attrs, h, a1, a2, a3, a4, a5, a6, a7, a8⟩ : ∃ attrs, newBase W.laplace [("n_iter", (ctor.lookup "n_iter").getD (some (.int 10))),
      ("model", (ctor.lookup "model").getD none), ("proj_back_mic", (ctor.lookup "proj_back_mic").getD (some (.int 0))),
      ("eps", (ctor.lookup "eps").getD none)] = .ok attrs ∧ _ := by
    refine base_ok _ _ ?_ m0 ?_
    · simp [Only, drSig]
    · rw [← hm0]; simp [List.lookup]
  simp [List.lookup] at a1 a2 a3 a4 a5 a6 a8
  rw [← hm0] at a7
  have h' : newFive W.laplace ctor = .ok fun k => if k = "n_power_iter" then (ctor.lookup "n_power_iter").getD none else attrs k := by
    unfold newFive
    rw [bind_ok hc]
    simp only [bind, Except.bind, List.map, arg, List.lookup]
    simp
    rw [h]
  refine ⟨_, h', fun i r p m h1 h2 h3 h4 heap X => ?_⟩
  have key : fiveCall W (fun k => if k = "n_power_iter" then (ctor.lookup "n_power_iter").getD none else attrs k) heap call X =
      if h : r < C then haveI : NeZero C := ⟨by omega⟩; fiveForward (W.solver C) i ⟨r, h⟩ p X (W.source m F N) (W.reset m) (heap m)
      else .error .indexError := by
    unfold fiveCall
    rw [bind_ok ho]
    simp [bind, Except.bind, arg_none, setParams, a1, a5, a7, a8, -Option.or_some]
    simp only [eff, effOr, h1, h2, h3, h4, asModel, asNat, optNat]
  rw [key]
  exact ⟨fun h => by rw [dif_pos h], fun h => by rw [dif_neg (by omega)]⟩

/-- **C125 (WPE).** The same for WPE, whose default model is `None` (weights from the signal itself). -/
theorem wpe_options (W : World M σ S) (ctor call : Kw M) (hc : Only ctor ["n_iter", "n_delay", "n_taps", "model", "eps"])
    (ho : Only call ["n_iter", "n_delay", "n_taps", "model", "eps"]) :
    ∃ attrs, newWpe W.laplace ctor = .ok attrs ∧ ∀ (i d t : ℕ) (e : ℝ),
      inForce ctor call "n_iter" (some (.int 3)) = some (.int i) →
      inForce ctor call "n_delay" (some (.int 3)) = some (.int d) →
      inForce ctor call "n_taps" (some (.int 5)) = some (.int t) →
      inForceOr ctor call "eps" (.float 1e-5) = .float e →
      ∀ (heap : M → σ) (X : Sig C F N),
        (inForce ctor call "model" none = none →
          wpeCall W attrs heap call X = wpeForward i t d e X (none : Option (WpeModel Unit C F N)) ()) ∧
        ∀ m, inForce ctor call "model" none = some (.obj m) →
          wpeCall W attrs heap call X = wpeForward i t d e X (some (W.weights m C F N)) (heap m) := by
  obtain ⟨attrs, h, a1, a2, a3, a4, a5, a6, a7, a8⟩ : ∃ attrs, newBase W.laplace [("n_iter", (ctor.lookup "n_iter").getD (some (.int 3))),
      ("n_taps", (ctor.lookup "n_taps").getD (some (.int 5))), ("n_delay", (ctor.lookup "n_delay").getD (some (.int 3))),
      ("eps", (ctor.lookup "eps").getD (some (.float 1e-5)))] = .ok attrs ∧ _ := by
    refine base_ok _ _ ?_ W.laplace ?_
    · simp [Only, drSig]
    · simp [List.lookup]
  simp [List.lookup] at a1 a2 a3 a4 a5 a6 a8
  have h' : newWpe W.laplace ctor = .ok fun k => if k = "model" then (ctor.lookup "model").getD none else attrs k := by
    unfold newWpe
    rw [bind_ok hc]
    simp only [bind, Except.bind, List.map, arg, List.lookup]
    simp
    rw [h]
  have h8 : ((ctor.lookup "eps").getD (some (.float 1e-5))).getD (.float 1e-5) = ((ctor.lookup "eps").getD none).getD (.float 1e-5) := by
    rcases ctor.lookup "eps" with _ | _ | _ <;> rfl
  rw [h8] at a8
  refine ⟨_, h', fun i d t e h1 h2 h3 h4 heap X => ⟨fun h5 => ?_, fun m h5 => ?_⟩⟩
  all_goals
    unfold wpeCall
    rw [bind_ok ho]
    simp [bind, Except.bind, arg_none, setParams, a1, a2, a3, a8, -Option.or_some]
    simp only [eff, effOr, h1, h2, h3, h4, h5, asModel, asNat, asReal]

private lemma bf_ok (mask : Option (PyArg M)) (kw : Kw M) (h : Only kw ["ref_mic", "eps"]) :
    ∃ attrs, newBf mask kw = .ok attrs ∧ attrs "mask_model" = mask ∧ attrs "ref_mic" = (kw.lookup "ref_mic").getD (some (.int 0)) ∧
      attrs "eps" = (kw.lookup "eps").getD (some (.float 1e-5)) := by
  unfold newBf
  rw [bind_ok h]
  exact ⟨_, rfl, by simp, by simp [arg, List.lookup], by simp [arg, List.lookup]⟩

private lemma eff_mask (mask : PyArg M) (call : Kw M) :
    ((call.lookup "mask_model").getD none).or (some mask) = inForce [("mask_model", some mask)] call "mask_model" none := by
  unfold inForce
  rcases call.lookup "mask_model" with _ | _ | v <;> simp [List.lookup]

/-- **C125 (MVDR).** The same for the MVDR beamformer. -/
theorem mvdr_options (W : World M σ S) (mask : PyArg M) (ctor call : Kw M) (hc : Only ctor ["ref_mic", "eps", "mvdr_type", "n_power_iter"]) (ho : Only call ["mask_model", "ref_mic", "eps", "mvdr_type", "n_power_iter"]) :
    ∃ attrs, newMvdr (some mask) ctor = .ok attrs ∧ ∀ (m : M) (r : ℕ) (e : ℝ) (ty : String) (p : Option ℕ),
      inForce [("mask_model", some mask)] call "mask_model" none = some (.obj m) →
      inForce ctor call "ref_mic" (some (.int 0)) = some (.int r) →
      inForce ctor call "eps" (some (.float 1e-5)) = some (.float e) →
      inForce ctor call "mvdr_type" (some (.str "rtf")) = some (.str ty) →
      inForce ctor call "n_power_iter" none = p.map .int →
      ∀ (X : Sig C F N), 
        (∀ [NeZero C] (h : r < C), mvdrCall W attrs call X = mvdrForward (W.solver C) (W.mask m F N) ⟨r, h⟩ e ty p X) ∧
        (C ≤ r → mvdrCall W attrs call X = .error .indexError) := by
  obtain ⟨attrs, h, a1, a2, a3⟩ : ∃ attrs, newBf (some mask) [("ref_mic", (ctor.lookup "ref_mic").getD (some (.int 0))),
      ("eps", (ctor.lookup "eps").getD (some (.float 1e-5)))] = .ok attrs ∧ _ := bf_ok _ _ (by simp [Only])
  simp [List.lookup] at a2 a3
  have h' : newMvdr (some mask) ctor = .ok fun k => if k = "mvdr_type" then (ctor.lookup "mvdr_type").getD (some (.str "rtf"))
      else if k = "n_power_iter" then (ctor.lookup "n_power_iter").getD none else attrs k := by
    unfold newMvdr
    rw [bind_ok hc]
    simp only [bind, Except.bind, List.map, arg, List.lookup]
    simp
    rw [h]
  refine ⟨_, h', fun m r e ty p h1 h2 h3 h4 h5 X => ?_⟩
  have key : mvdrCall W (fun k => if k = "mvdr_type" then (ctor.lookup "mvdr_type").getD (some (.str "rtf"))
      else if k = "n_power_iter" then (ctor.lookup "n_power_iter").getD none else attrs k) call X =
      if h : r < C then haveI : NeZero C := ⟨by omega⟩; mvdrForward (W.solver C) (W.mask m F N) ⟨r, h⟩ e ty p X
      else .error .indexError := by
    unfold mvdrCall
    rw [bind_ok ho]
    simp [bind, Except.bind, arg_none, setParams, a1, a2, a3, -Option.or_some]
    simp only [eff, eff_mask, h1, h2, h3, h4, h5, asNat, optNat, asReal, Except.toOption, Option.getD_some, ite_self]
  rw [key]
  exact ⟨fun h => by rw [dif_pos h], fun h => by rw [dif_neg (by omega)]⟩

/-- **C125 (MWF).** The same for the multichannel Wiener filter.  `eps` has no effect: the result is that of any value `e` (see C38).  The flag may be any value. -/
theorem mwf_flag (W : World M σ S) (mask : PyArg M) (ctor call : Kw M) (hc : Only ctor ["ref_mic", "eps", "time_invariant"]) (ho : Only call ["mask_model", "ref_mic", "eps", "time_invariant"]) :
    ∃ attrs, newMwf (some mask) ctor = .ok attrs ∧ ∀ (m : M) (r : ℕ) (v : Option (PyArg M)) (b : Bool),
      inForce [("mask_model", some mask)] call "mask_model" none = some (.obj m) →
      inForce ctor call "ref_mic" (some (.int 0)) = some (.int r) →
      inForce ctor call "time_invariant" (some (.bool true)) = v → (Falsy v ↔ b = false) →
      ∀ (X : Sig C F N), 
        (∀ (h : r < C) (e : ℝ), mwfCall W attrs call X = mwfForward (W.mask m F N) ⟨r, h⟩ e b X) ∧
        (C ≤ r → mwfCall W attrs call X = .error .indexError) := by
  obtain ⟨attrs, h, a1, a2, a3⟩ : ∃ attrs, newBf (some mask) [("ref_mic", (ctor.lookup "ref_mic").getD (some (.int 0))),
      ("eps", (ctor.lookup "eps").getD (some (.float 1e-5)))] = .ok attrs ∧ _ := bf_ok _ _ (by simp [Only])
  simp [List.lookup] at a2 a3
  have h' : newMwf (some mask) ctor = .ok fun k => if k = "time_invariant" then (ctor.lookup "time_invariant").getD (some (.bool true))
      else attrs k := by
    unfold newMwf
    rw [bind_ok hc]
    simp only [bind, Except.bind, List.map, arg, List.lookup]
    simp
    rw [h]
  refine ⟨_, h', fun m r v b h1 h2 h3 hb X => ?_⟩
  have key : ∀ e, mwfCall W (fun k => if k = "time_invariant" then (ctor.lookup "time_invariant").getD (some (.bool true)) else attrs k) call X =
      if h : r < C then mwfForward (W.mask m F N) ⟨r, h⟩ e b X else .error .indexError := by
    intro e
    unfold mwfCall
    rw [bind_ok ho]
    simp [bind, Except.bind, arg_none, setParams, a1, a2, a3, -Option.or_some]
    simp only [eff, eff_mask, h1, h2, h3, asNat, flag_falsy hb]
    rfl
  exact ⟨fun h e => by rw [key e, dif_pos h], fun h => by rw [key 0, dif_neg (by omega)]⟩

/-- **C125 (MWF).** The same for the multichannel Wiener filter.  `eps` has no effect: the result is that of any value `e` (see C38). -/
theorem mwf_options (W : World M σ S) (mask : PyArg M) (ctor call : Kw M) (hc : Only ctor ["ref_mic", "eps", "time_invariant"]) (ho : Only call ["mask_model", "ref_mic", "eps", "time_invariant"]) :
    ∃ attrs, newMwf (some mask) ctor = .ok attrs ∧ ∀ (m : M) (r : ℕ) (b : Bool),
      inForce [("mask_model", some mask)] call "mask_model" none = some (.obj m) →
      inForce ctor call "ref_mic" (some (.int 0)) = some (.int r) →
      inForce ctor call "time_invariant" (some (.bool true)) = some (.bool b) →
      ∀ (X : Sig C F N), 
        (∀ (h : r < C) (e : ℝ), mwfCall W attrs call X = mwfForward (W.mask m F N) ⟨r, h⟩ e b X) ∧
        (C ≤ r → mwfCall W attrs call X = .error .indexError) := by
  obtain ⟨attrs, h, H⟩ := mwf_flag W mask ctor call hc ho
  exact ⟨attrs, h, fun m r b h1 h2 h3 => H m r _ b h1 h2 h3 (by simp [Falsy])⟩

/-- **C125 (GEV).** The same for the GEV beamformer; `eps` has no effect. -/
theorem gev_options (W : World M σ S) (mask : PyArg M) (ctor call : Kw M) (hc : Only ctor ["ref_mic", "eps"]) (ho : Only call ["mask_model", "ref_mic", "eps"]) :
    ∃ attrs, newGev (some mask) ctor = .ok attrs ∧ ∀ (m : M) (r : ℕ),
      inForce [("mask_model", some mask)] call "mask_model" none = some (.obj m) →
      inForce ctor call "ref_mic" (some (.int 0)) = some (.int r) →
      ∀ (X : Sig C F N), 
        (∀ [NeZero C] (h : r < C), gevCall W attrs call X = gevForward (W.solver C) (W.mask m F N) ⟨r, h⟩ X) ∧
        (C ≤ r → gevCall W attrs call X = .error .indexError) := by
  obtain ⟨attrs, h, a1, a2, a3⟩ : ∃ attrs, newBf (some mask) [("ref_mic", (ctor.lookup "ref_mic").getD (some (.int 0))),
      ("eps", (ctor.lookup "eps").getD (some (.float 1e-5)))] = .ok attrs ∧ _ := bf_ok _ _ (by simp [Only])
  simp [List.lookup] at a2 a3
  have h' : newGev (some mask) ctor = .ok attrs := by
    unfold newGev
    rw [bind_ok hc]
    simp only [bind, Except.bind, List.map, arg, List.lookup]
    simp
    rw [h]
  refine ⟨_, h', fun m r h1 h2 X => ?_⟩
  have key : gevCall W attrs call X =
      if h : r < C then haveI : NeZero C := ⟨by omega⟩; gevForward (W.solver C) (W.mask m F N) ⟨r, h⟩ X else .error .indexError := by
    unfold gevCall
    rw [bind_ok ho]
    simp [bind, Except.bind, arg_none, setParams, a1, a2, a3, -Option.or_some]
    simp only [eff, eff_mask, h1, h2, asNat]
  rw [key]
  exact ⟨fun h => by rw [dif_pos h], fun h => by rw [dif_neg (by omega)]⟩

private noncomputable def tissWith (W : World M σ S) (heap : M → σ) (X : Sig C F N)
    (nIter nTaps nDelay nSrc model projBackMic useDmc eps : Option (PyArg M)) : Except Err (Σ s : ℕ, TissOut σ s C F N) := do
  let m ← asModel model
  let i ← asNat nIter
  let t ← asNat nTaps
  let d ← asNat nDelay
  let s ← asOptNat nSrc
  let r ← asOptNat projBackMic
  let e ← asReal eps
  tissForward ⟨i, t, d, r, asFlag useDmc, e⟩ s X (W.source m F N) (W.reset m) (heap m)

private lemma tiss_with (W : World M σ S) (ctor call : Kw M)
    (hc : Only ctor ["n_iter", "n_taps", "n_delay", "n_src", "model", "proj_back_mic", "use_dmc", "eps"])
    (ho : Only call ["n_iter", "n_taps", "n_delay", "n_src", "model", "proj_back_mic", "use_dmc", "eps"])
    (hm : ∀ v, ctor.lookup "model" = some (some v) → ∃ m, v = .obj m) (heap : M → σ) (X : Sig C F N) :
    (newTiss W.laplace ctor >>= fun a => tissCall W a heap call X) = tissWith W heap X (inForce ctor call "n_iter" (some (.int 10)))
      (inForce ctor call "n_taps" (some (.int 0))) (inForce ctor call "n_delay" (some (.int 0))) (inForce ctor call "n_src" none)
      (some (inForceOr ctor call "model" (.obj W.laplace))) (inForce ctor call "proj_back_mic" (some (.int 0)))
      (inForce ctor call "use_dmc" (some (.bool false))) (some (inForceOr ctor call "eps" (.float 1e-5))) := by
  obtain ⟨m0, hm0⟩ := model_obj W.laplace ctor hm
  obtain ⟨attrs, h, a1, a2, a3, a4, a5, a6, a7, a8⟩ : ∃ attrs, newTiss W.laplace ctor = .ok attrs ∧ _ := by
    unfold newTiss
    rw [bind_ok hc]
    dsimp only [bind, Except.bind]
    refine base_ok _ _ ?_ m0 ?_
    · simp [Only, drSig]
    · rw [← hm0]; simp [arg, List.lookup]
  simp [arg, List.lookup] at a1 a2 a3 a4 a5 a6 a8
  rw [← hm0] at a7
  rw [h]
  change tissCall W attrs heap call X = _
  unfold tissCall
  rw [bind_ok ho]
  simp [bind, Except.bind, arg_none, setParams, a1, a2, a3, a4, a5, a6, a7, a8, -Option.or_some]
  simp only [eff, effOr]
  rfl

/-- **C125.** Options mean the same in the constructor and in the call: an object built with options and called without, and one built without options
and called with them, give the same result, for options other than `None`. -/
theorem tiss_options_either (W : World M σ S) (p : Kw M)
    (hp : Only p ["n_iter", "n_taps", "n_delay", "n_src", "model", "proj_back_mic", "use_dmc", "eps"])
    (hv : ∀ kv ∈ p, kv.2 ≠ none) (hm : ∀ v, p.lookup "model" = some (some v) → ∃ m, v = .obj m) (heap : M → σ) (X : Sig C F N) :
    (newTiss W.laplace p >>= fun a => tissCall W a heap [] X) = newTiss W.laplace [] >>= fun a => tissCall W a heap p X := by
  have hl : ∀ k, p.lookup k ≠ some none := fun k h => by
    obtain ⟨l1, l2, rfl, -⟩ := List.lookup_eq_some_iff.1 h
    exact hv (k, none) (by simp) rfl
  have e1 : ∀ k d, inForce p [] k d = inForce [] p k d := fun k d => by
    unfold inForce
    rcases h : p.lookup k with _ | _ | v
    · simp
    · exact absurd h (hl k)
    · simp
  have e2 : ∀ k d, inForceOr p [] k d = inForceOr [] p k d := fun k d => by
    unfold inForceOr
    rcases h : p.lookup k with _ | _ | v <;> simp
  rw [tiss_with W p [] hp (by simp [Only]) hm, tiss_with W [] p (by simp [Only]) hp (by simp)]
  simp only [e1, e2]

/-- **C125 (a limit of the interface).** `None` in a call does not override the constructor: the call is the same as without that argument.  So
projection back cannot be switched off, and the number of sources not set back to all channels, in a call. -/
theorem tiss_call_none (W : World M σ S) (ctor call : Kw M)
    (hc : Only ctor ["n_iter", "n_taps", "n_delay", "n_src", "model", "proj_back_mic", "use_dmc", "eps"])
    (ho : Only call ["n_iter", "n_taps", "n_delay", "n_src", "model", "proj_back_mic", "use_dmc", "eps"])
    (hd : (call.map Prod.fst).Nodup)
    (hm : ∀ v, ctor.lookup "model" = some (some v) → ∃ m, v = .obj m) (heap : M → σ) (X : Sig C F N) :
    (newTiss W.laplace ctor >>= fun a => tissCall W a heap call X) =
      newTiss W.laplace ctor >>= fun a => tissCall W a heap (call.filter fun kv => kv.2.isSome) X := by
  have hl : ∀ k, (call.filter fun kv => kv.2.isSome).lookup k = (call.lookup k).bind fun v => v.map some := by
    intro k
    clear ho
    induction call with
    | nil => rfl
    | cons a call ih =>
      obtain ⟨k', v⟩ := a
      have hd' := List.nodup_cons.1 hd
      have ih := ih hd'.2
      by_cases e : k = k'
      · subst e
        have hn : call.lookup k = none := List.lookup_eq_none_iff.2 fun p hp => by
          simp only [bne_iff_ne, ne_eq]
          exact fun h => hd'.1 (List.mem_map.2 ⟨p, hp, h.symm⟩)
        rcases v with _ | v
        · simp [List.filter, List.lookup, ih, hn]
        · simp [List.filter, List.lookup]
      · have : (k == k') = false := by simpa using e
        rcases v with _ | v
        · simp only [List.filter, List.lookup, this, Option.isSome]; exact ih
        · simp only [List.filter, List.lookup, this, Option.isSome]; exact ih
  have e1 : ∀ k d, inForce ctor call k d = inForce ctor (call.filter fun kv => kv.2.isSome) k d := fun k d => by
    unfold inForce
    rw [hl]
    rcases call.lookup k with _ | _ | v <;> rcases ctor.lookup k with _ | _ | w <;> simp
  have e2 : ∀ k d, inForceOr ctor call k d = inForceOr ctor (call.filter fun kv => kv.2.isSome) k d := fun k d => by
    unfold inForceOr
    rw [hl]
    rcases call.lookup k with _ | _ | v <;> rcases ctor.lookup k with _ | _ | w <;> simp
  rw [tiss_with W ctor call hc ho hm, tiss_with W ctor _ hc (fun kv h => ho kv (List.mem_filter.1 h).1) hm]
  simp only [e1, e2]

/-! ## C126 -/

private lemma bound (kw : Kw M) (k : String) (d) : (kw.lookup k).getD d = inForce kw [] k d := by
  unfold inForce
  rcases kw.lookup k <;> simp

private lemma sep_args (kw : Kw M) (hkw : Only kw separatorOptions) :
    ∃ L, bindKw [("n_iter", some (.int 20)), ("hop_length", none), ("window", none), ("n_taps", some (.int 0)), ("n_delay", some (.int 0)),
      ("n_src", none), ("algo", some (.algo .tIss)), ("source_model", none), ("proj_back_mic", some (.int 0)), ("use_dmc", some (.bool false)),
      ("n_power_iter", none), ("eps", some (.float 1e-5))] kw = .ok L ∧
      arg L "n_iter" = inForce kw [] "n_iter" (some (.int 20)) ∧
      arg L "hop_length" = inForce kw [] "hop_length" none ∧
      arg L "window" = inForce kw [] "window" none ∧
      arg L "n_taps" = inForce kw [] "n_taps" (some (.int 0)) ∧
      arg L "n_delay" = inForce kw [] "n_delay" (some (.int 0)) ∧
      arg L "n_src" = inForce kw [] "n_src" none ∧
      arg L "algo" = inForce kw [] "algo" (some (.algo .tIss)) ∧
      arg L "source_model" = inForce kw [] "source_model" none ∧
      arg L "proj_back_mic" = inForce kw [] "proj_back_mic" (some (.int 0)) ∧
      arg L "use_dmc" = inForce kw [] "use_dmc" (some (.bool false)) ∧
      arg L "n_power_iter" = inForce kw [] "n_power_iter" none ∧
      arg L "eps" = inForce kw [] "eps" (some (.float 1e-5)) := by
  rw [bind_ok (by simpa [separatorOptions] using hkw)]
  refine ⟨_, rfl, ?_, ?_, ?_, ?_, ?_, ?_, ?_, ?_, ?_, ?_, ?_, ?_⟩ <;> rw [← bound] <;> simp [arg, List.lookup]

private def chosen (A : SepArgs (PyArg M)) : SepAlgo → Separator (PyArg M)
  | .tIss => .tIss A.nIter A.nTaps A.nDelay A.nSrc A.sourceModel A.projBackMic A.useDmc A.eps
  | .auxivaIp2 => .auxIvaIp2 A.nIter A.sourceModel A.projBackMic A.eps
  | .five => .five A.nIter A.sourceModel A.projBackMic A.eps A.nPowerIter
  | .mvdr => .mvdr A.sourceModel A.projBackMic A.eps "rtf" A.nPowerIter
  | .mwf => .mwf A.sourceModel A.projBackMic A.eps true
  | .gev => .gev A.sourceModel A.projBackMic A.eps

private lemma new_sep (lap : M) (known : String → Bool) (nFft : ℕ) (kw : Kw M) (hkw : Only kw separatorOptions) (a : SepAlgo)
    (ha : Chooses kw a a.value) (w : String) (hw : inForceOr kw [] "window" (.str "hann") = .str w) (hk : known w = true)
    (hop : Option ℕ) (hh : inForce kw [] "hop_length" none = hop.map .int) (m : M)
    (hm : inForceOr kw [] "source_model" (.obj lap) = .obj m) :
    sepNew lap known nFft kw = (buildSeparator lap (chosen ⟨inForce kw [] "n_iter" (some (.int 20)), inForce kw [] "n_taps" (some (.int 0)),
      inForce kw [] "n_delay" (some (.int 0)), inForce kw [] "n_src" none, .obj m, inForce kw [] "proj_back_mic" (some (.int 0)),
      inForce kw [] "use_dmc" (some (.bool false)), inForce kw [] "n_power_iter" none, inForce kw [] "eps" (some (.float 1e-5))⟩ a)).map
      fun c => ⟨nFft, hop, w, m, c⟩ := by
  have hm' : (inForce kw [] "source_model" none).getD (.obj lap) = .obj m := by
    rw [← hm]; unfold inForceOr inForce
    rcases kw.lookup "source_model" with _ | _ | _ <;> simp
  have hw' : stftInit known (windowArg nFft (inForce kw [] "window" none)) = .ok w := by
    unfold inForceOr at hw
    unfold inForce
    rcases h : kw.lookup "window" with _ | _ | v <;> rw [h] at hw <;> simp at hw <;> subst hw <;> simp [stftInit, windowArg, hk]
  have ha' : ∀ (A : SepArgs (PyArg M)) g, ∃ b, sepInit (algoArg (inForce kw [] "algo" (some (.algo .tIss)))) A g = .ok (chosen A a, b) := fun A g => by
    rcases ha with ha | ha <;> rw [ha] <;> cases a <;>
      simp [sepInit, SepAlgo.lookup, SepAlgo.all, SepAlgo.value, bind, Except.bind, chosen, algoArg]
  obtain ⟨L, hL, a1, a2, a3, a4, a5, a6, a7, a8, a9, a10, a11, a12⟩ := sep_args kw hkw
  unfold sepNew
  rw [hL]
  dsimp only [bind, Except.bind]
  rw [a1, a2, a3, a4, a5, a6, a7, a8, a9, a10, a11, a12, hm', hh, hw']
  obtain ⟨b, hb⟩ := ha' ⟨inForce kw [] "n_iter" (some (.int 20)), inForce kw [] "n_taps" (some (.int 0)),
      inForce kw [] "n_delay" (some (.int 0)), inForce kw [] "n_src" none, .obj m, inForce kw [] "proj_back_mic" (some (.int 0)),
      inForce kw [] "use_dmc" (some (.bool false)), inForce kw [] "n_power_iter" none, inForce kw [] "eps" (some (.float 1e-5))⟩
      (severalSources (inForce kw [] "n_src" none))
  rw [hb, optNat]
  dsimp only [asModel]
  rcases buildSeparator lap _ <;> rfl

/-- **C55 (warning).**  The constructor warns that `n_src` is ignored exactly when the algorithm is given as the member FIVE and more than one source
is asked for; with the name `"five"` it never warns. -/
theorem separator_warns (args : SepArgs (PyArg M)) (algo nSrc : Option (PyArg M)) (s : Separator (PyArg M)) (w : Bool)
    (h : sepInit (algoArg algo) args (severalSources nSrc) = .ok (s, w)) :
    w = true ↔ algo = some (.algo .five) ∧ ∃ n, nSrc = some (.int n) ∧ 1 < n := by
  have hs : severalSources nSrc = true ↔ ∃ n, nSrc = some (.int n) ∧ 1 < n := by
    rcases nSrc with _ | (n | x | b | s | a | m) <;> simp [severalSources]
  rw [← hs]
  unfold sepInit at h
  simp only [bind, Except.bind] at h
  have hw : w = match algoArg algo with
      | .member v => decide (v = .five ∧ severalSources nSrc = true)
      | _ => false := by
    split at h
    · cases h
    · split_ifs at h <;> cases h <;> rcases algo with _ | (n | x | b | s | a | m) <;> simp [algoArg]
  rw [hw]
  rcases algo with _ | (n | x | b | s | a | m) <;> simp [algoArg]

example (args : SepArgs (PyArg M)) : ∃ s, sepInit (algoArg (some (.algo (M := M) .five))) args (severalSources (some (.int (M := M) 2))) = .ok (s, true) :=
  ⟨_, by simp [sepInit, SepAlgo.lookup, SepAlgo.value, bind, Except.bind, algoArg, severalSources]; rfl⟩

private lemma or_passed (kw : Kw M) (k : String) (d : PyArg M) : inForceOr kw [] k d = (inForce kw [] k (some d)).getD d := by
  unfold inForceOr inForce
  rcases kw.lookup k with _ | _ | v <;> simp

private lemma inForceOr_one (kw : Kw M) (k : String) (d : PyArg M) : inForceOr kw [] k d = ((kw.lookup k).join).getD d := by
  unfold inForceOr
  rcases kw.lookup k with _ | _ | v <;> simp

private lemma cut (n k : ℕ) (y : Fin k → ℝ) (i : Fin n) :
    (fixLength (List.ofFn y) n).getD i 0 = if h : i.val < k then y ⟨i, h⟩ else 0 := by
  have h := (fixLength_spec (List.ofFn y) n).2 i i.2
  rw [List.getD_eq_getElem?_getD, h]
  by_cases hi : i.val < k
  · simp [hi]
  · simp [hi]

private lemma run_eq (W : World M σ S) (windowOf : String → ∀ k : ℕ, Fin k → ℝ) (obj : SepObj M) (heap : M → σ) (reset : Bool)
    (x : Fin C → Fin n → ℝ) (sep : Sig C (obj.nFft / 2 + 1) (stftFrames obj.nFft (hopOf obj.nFft obj.hop) n) →
      Except Err (Σ s : ℕ, Sig s (obj.nFft / 2 + 1) (stftFrames obj.nFft (hopOf obj.nFft obj.hop) n)))
    (h : ∀ (heap' : M → σ) X, heap' obj.model = (if reset then W.reset obj.model (heap obj.model) else heap obj.model) →
      runSeparator W heap' X obj.separator = sep X) :
    sepRun W windowOf obj heap reset x = separated obj.nFft obj.hop (windowOf obj.window obj.nFft) sep x := by
  classical
  unfold sepRun separated
  dsimp only
  congr 1
  funext X
  rw [h _ X]
  · simp only [cut]
  · cases reset <;> simp

/-- **C126 (T-ISS).** `BSSSeparator(n_fft, **kw)(x)`, without an algorithm or with `algo="tiss"`, resets the model if asked to, transforms the recording
with the window and hop of the options, runs T-ISS with the options of the constructor (20 iterations, no taps, no delay, as many sources as
channels, reference microphone 0, no demixing matrix checkpointing, regularisation 1e-5 where nothing is given; `eps=None` is 1e-5), transforms back and
returns signals as long as the recording. -/
theorem separator_tiss (W : World M σ S) (known : String → Bool) (windowOf : String → ∀ k : ℕ, Fin k → ℝ) (nFft : ℕ) (kw : Kw M)
    (hop : Option ℕ) (w : String) (m : M) (hs : Shares W.laplace known kw hop w m) (ha : Chooses kw .tIss "tiss") (i t d : ℕ) (s r : Option ℕ)
    (b : Bool) (e : ℝ) (hi : inForce kw [] "n_iter" (some (.int 20)) = some (.int i))
    (ht : inForce kw [] "n_taps" (some (.int 0)) = some (.int t)) (hd : inForce kw [] "n_delay" (some (.int 0)) = some (.int d))
    (hsrc : inForce kw [] "n_src" none = s.map .int) (hr : inForce kw [] "proj_back_mic" (some (.int 0)) = r.map .int)
    (hb : inForce kw [] "use_dmc" (some (.bool false)) = some (.bool b)) (he : inForceOr kw [] "eps" (.float 1e-5) = .float e) :
    ∃ obj, sepNew W.laplace known nFft kw = .ok obj ∧ ∀ (heap : M → σ) (reset : Bool) (C n : ℕ) (x : Fin C → Fin n → ℝ),
      sepRun W windowOf obj heap reset x = separated nFft hop (windowOf w nFft)
        (fun X => (tissForward ⟨i, t, d, r, b, e⟩ s X (W.source m _ _) (W.reset m)
          (if reset then W.reset m (heap m) else heap m)).map fun o => ⟨o.1, o.2.Y⟩) x := by
  have hn := new_sep W.laplace known nFft kw hs.names .tIss ha w hs.window hs.known hop hs.hop m hs.model
  simp only [chosen, buildSeparator, hi, ht, hd, hsrc, hr, hb] at hn
  rw [or_passed] at he
  have key : ∀ C F N : ℕ, _ := fun C F N => tiss_options (C := C) (F := F) (N := N) W [("n_iter", some (.int i)), ("n_taps", some (.int t)), ("n_delay", some (.int d)),
    ("n_src", s.map .int), ("model", some (.obj m)), ("proj_back_mic", r.map .int), ("use_dmc", some (.bool b)),
    ("eps", inForce kw [] "eps" (some (.float 1e-5)))] [] (by simp [Only]) (by simp [Only]) (by simp [List.lookup])
  obtain ⟨attrs, h1, -⟩ := key 0 0 0
  rw [h1] at hn
  refine ⟨_, hn, fun heap reset C n x => run_eq W windowOf _ heap reset x _ fun heap' X hh => ?_⟩
  obtain ⟨attrs', h2, h3⟩ := key C (nFft / 2 + 1) (stftFrames nFft (hopOf nFft hop) n)
  obtain rfl : attrs = attrs' := Except.ok.inj (h1.symm.trans h2)
  have := h3 i t d s r b e m (by simp [inForce, List.lookup]) (by simp [inForce, List.lookup]) (by simp [inForce, List.lookup])
    (by simp [inForce, List.lookup]) (by simp [inForceOr, List.lookup]) (by simp [inForce, List.lookup]) (by simp [inForce, List.lookup])
    (by simpa [inForceOr_one, List.lookup] using he) heap' X
  simp only [runSeparator]
  rw [this]
  dsimp only at hh
  rw [hh]

/-- **C126 (AuxIVA-IP2).** The same with `algo="ip2"`; the options `n_taps`, `n_delay`, `n_src`, `use_dmc` and `n_power_iter` are accepted and have no
effect. -/
theorem separator_ip2 (W : World M σ S) (known : String → Bool) (windowOf : String → ∀ k : ℕ, Fin k → ℝ) (nFft : ℕ) (kw : Kw M)
    (hop : Option ℕ) (w : String) (m : M) (hs : Shares W.laplace known kw hop w m) (ha : Chooses kw .auxivaIp2 "ip2") (i : ℕ) (r : Option ℕ)
    (e : ℝ) (hi : inForce kw [] "n_iter" (some (.int 20)) = some (.int i))
    (hr : inForce kw [] "proj_back_mic" (some (.int 0)) = r.map .int) (he : inForceOr kw [] "eps" (.float 1e-5) = .float e) :
    ∃ obj, sepNew W.laplace known nFft kw = .ok obj ∧ ∀ (heap : M → σ) (reset : Bool) (C n : ℕ) (x : Fin C → Fin n → ℝ),
      sepRun W windowOf obj heap reset x = separated nFft hop (windowOf w nFft)
        (fun X => (auxiva2Forward i (r.map fun r => (r : ℤ)) e X (W.source m _ _) (W.reset m)
          (if reset then W.reset m (heap m) else heap m)).map fun Y => ⟨2, Y⟩) x := by
  have hn := new_sep W.laplace known nFft kw hs.names .auxivaIp2 ha w hs.window hs.known hop hs.hop m hs.model
  simp only [chosen, buildSeparator, hi, hr] at hn
  rw [or_passed] at he
  have key : ∀ C F N : ℕ, _ := fun C F N => ip2_options (C := C) (F := F) (N := N) W [("n_iter", some (.int i)), ("model", some (.obj m)),
    ("proj_back_mic", r.map .int), ("eps", inForce kw [] "eps" (some (.float 1e-5)))] [] (by simp [Only]) (by simp [Only])
    (by simp [List.lookup])
  obtain ⟨attrs, h1, -⟩ := key 0 0 0
  rw [h1] at hn
  refine ⟨_, hn, fun heap reset C n x => run_eq W windowOf _ heap reset x _ fun heap' X hh => ?_⟩
  obtain ⟨attrs', h2, h3⟩ := key C (nFft / 2 + 1) (stftFrames nFft (hopOf nFft hop) n)
  obtain rfl : attrs = attrs' := Except.ok.inj (h1.symm.trans h2)
  have := h3 i r e m (by simp [inForce, List.lookup]) (by simp [inForceOr, List.lookup]) (by simp [inForce, List.lookup])
    (by simpa [inForceOr_one, List.lookup] using he) heap' X
  simp only [runSeparator]
  rw [this]
  dsimp only at hh
  rw [hh]

/-- **C126 (FIVE).** The same with `algo="five"`: one signal; only `n_iter`, `proj_back_mic` and `n_power_iter` have an effect. -/
theorem separator_five (W : World M σ S) (known : String → Bool) (windowOf : String → ∀ k : ℕ, Fin k → ℝ) (nFft : ℕ) (kw : Kw M)
    (hop : Option ℕ) (w : String) (m : M) (hs : Shares W.laplace known kw hop w m) (ha : Chooses kw .five "five") (i r : ℕ) (p : Option ℕ)
    (hi : inForce kw [] "n_iter" (some (.int 20)) = some (.int i)) (hr : inForce kw [] "proj_back_mic" (some (.int 0)) = some (.int r))
    (hp : inForce kw [] "n_power_iter" none = p.map .int) :
    ∃ obj, sepNew W.laplace known nFft kw = .ok obj ∧ ∀ (heap : M → σ) (reset : Bool) (C n : ℕ) [NeZero C] (hrC : r < C)
      (x : Fin C → Fin n → ℝ),
      sepRun W windowOf obj heap reset x = separated nFft hop (windowOf w nFft)
        (fun X => (fiveForward (W.solver C) i ⟨r, hrC⟩ p X (W.source m _ _) (W.reset m)
          (if reset then W.reset m (heap m) else heap m)).map fun Y => ⟨1, Y⟩) x := by
  have hn := new_sep W.laplace known nFft kw hs.names .five ha w hs.window hs.known hop hs.hop m hs.model
  simp only [chosen, buildSeparator, hi, hr, hp] at hn
  have key : ∀ C F N : ℕ, _ := fun C F N => five_options (C := C) (F := F) (N := N) W [("n_iter", some (.int i)), ("model", some (.obj m)),
    ("proj_back_mic", some (.int r)), ("eps", inForce kw [] "eps" (some (.float 1e-5))), ("n_power_iter", p.map .int)] [] (by simp [Only])
    (by simp [Only]) (by simp [List.lookup])
  obtain ⟨attrs, h1, -⟩ := key 0 0 0
  rw [h1] at hn
  refine ⟨_, hn, fun heap reset C n _ hrC x => run_eq W windowOf _ heap reset x _ fun heap' X hh => ?_⟩
  obtain ⟨attrs', h2, h3⟩ := key C (nFft / 2) (stftFrames nFft (hopOf nFft hop) n)
  obtain rfl : attrs = attrs' := Except.ok.inj (h1.symm.trans h2)
  have := (h3 i r p m (by simp [inForce, List.lookup]) (by simp [inForceOr, List.lookup]) (by simp [inForce, List.lookup])
    (by simp [inForce, List.lookup]) heap' X).1 hrC
  simp only [runSeparator]
  rw [this]
  dsimp only at hh
  rw [hh]

/-- **C126 (MVDR).** The same with `algo="mvdr"`: the model gives masks, the beamformer is that of relative transfer functions, and the reference
microphone is `proj_back_mic`. -/
theorem separator_mvdr (W : World M σ S) (known : String → Bool) (windowOf : String → ∀ k : ℕ, Fin k → ℝ) (nFft : ℕ) (kw : Kw M)
    (hop : Option ℕ) (w : String) (m : M) (hs : Shares W.laplace known kw hop w m) (ha : Chooses kw .mvdr "mvdr") (r : ℕ) (e : ℝ) (p : Option ℕ)
    (hr : inForce kw [] "proj_back_mic" (some (.int 0)) = some (.int r)) (he : inForce kw [] "eps" (some (.float 1e-5)) = some (.float e))
    (hp : inForce kw [] "n_power_iter" none = p.map .int) :
    ∃ obj, sepNew W.laplace known nFft kw = .ok obj ∧ ∀ (heap : M → σ) (reset : Bool) (C n : ℕ) [NeZero C] (hrC : r < C)
      (x : Fin C → Fin n → ℝ),
      sepRun W windowOf obj heap reset x = separated nFft hop (windowOf w nFft)
        (fun X => (mvdrForward (W.solver C) (W.mask m _ _) ⟨r, hrC⟩ e "rtf" p X).map fun Y => ⟨S, Y⟩) x := by
  have hn := new_sep W.laplace known nFft kw hs.names .mvdr ha w hs.window hs.known hop hs.hop m hs.model
  simp only [chosen, buildSeparator, hr, he, hp] at hn
  have key : ∀ C F N : ℕ, _ := fun C F N => mvdr_options (C := C) (F := F) (N := N) W (.obj m) [("ref_mic", some (.int r)),
    ("eps", some (.float e)), ("mvdr_type", some (.str "rtf")), ("n_power_iter", p.map .int)] [] (by simp [Only]) (by simp [Only])
  obtain ⟨attrs, h1, -⟩ := key 0 0 0
  rw [h1] at hn
  refine ⟨_, hn, fun heap reset C n _ hrC x => run_eq W windowOf _ heap reset x _ fun heap' X hh => ?_⟩
  obtain ⟨attrs', h2, h3⟩ := key C (nFft / 2 + 1) (stftFrames nFft (hopOf nFft hop) n)
  obtain rfl : attrs = attrs' := Except.ok.inj (h1.symm.trans h2)
  have := (h3 m r e "rtf" p (by simp [inForce, List.lookup]) (by simp [inForce, List.lookup]) (by simp [inForce, List.lookup])
    (by simp [inForce, List.lookup]) (by simp [inForce, List.lookup]) X).1 hrC
  simp only [runSeparator]
  rw [this]

/-- **C126 (MWF).** The same with `algo="mwf"`: the filter is time invariant, and `eps` has no effect. -/
theorem separator_mwf (W : World M σ S) (known : String → Bool) (windowOf : String → ∀ k : ℕ, Fin k → ℝ) (nFft : ℕ) (kw : Kw M)
    (hop : Option ℕ) (w : String) (m : M) (hs : Shares W.laplace known kw hop w m) (ha : Chooses kw .mwf "mwf") (r : ℕ)
    (hr : inForce kw [] "proj_back_mic" (some (.int 0)) = some (.int r)) :
    ∃ obj, sepNew W.laplace known nFft kw = .ok obj ∧ ∀ (e : ℝ) (heap : M → σ) (reset : Bool) (C n : ℕ) (hrC : r < C)
      (x : Fin C → Fin n → ℝ),
      sepRun W windowOf obj heap reset x = separated nFft hop (windowOf w nFft)
        (fun X => (mwfForward (W.mask m _ _) ⟨r, hrC⟩ e true X).map fun Y => ⟨S, Y⟩) x := by
  have hn := new_sep W.laplace known nFft kw hs.names .mwf ha w hs.window hs.known hop hs.hop m hs.model
  simp only [chosen, buildSeparator, hr] at hn
  have key : ∀ C F N : ℕ, _ := fun C F N => mwf_options (C := C) (F := F) (N := N) W (.obj m) [("ref_mic", some (.int r)),
    ("eps", inForce kw [] "eps" (some (.float 1e-5))), ("time_invariant", some (.bool true))] [] (by simp [Only]) (by simp [Only])
  obtain ⟨attrs, h1, -⟩ := key 0 0 0
  rw [h1] at hn
  refine ⟨_, hn, fun e heap reset C n hrC x => run_eq W windowOf _ heap reset x _ fun heap' X hh => ?_⟩
  obtain ⟨attrs', h2, h3⟩ := key C (nFft / 2 + 1) (stftFrames nFft (hopOf nFft hop) n)
  obtain rfl : attrs = attrs' := Except.ok.inj (h1.symm.trans h2)
  have := (h3 m r true (by simp [inForce, List.lookup]) (by simp [inForce, List.lookup]) (by simp [inForce, List.lookup]) X).1 hrC e
  simp only [runSeparator]
  rw [this]

/-- **C126 (GEV).** The same with `algo="gev"`; `eps` has no effect. -/
theorem separator_gev (W : World M σ S) (known : String → Bool) (windowOf : String → ∀ k : ℕ, Fin k → ℝ) (nFft : ℕ) (kw : Kw M)
    (hop : Option ℕ) (w : String) (m : M) (hs : Shares W.laplace known kw hop w m) (ha : Chooses kw .gev "gev") (r : ℕ)
    (hr : inForce kw [] "proj_back_mic" (some (.int 0)) = some (.int r)) :
    ∃ obj, sepNew W.laplace known nFft kw = .ok obj ∧ ∀ (heap : M → σ) (reset : Bool) (C n : ℕ) [NeZero C] (hrC : r < C)
      (x : Fin C → Fin n → ℝ),
      sepRun W windowOf obj heap reset x = separated nFft hop (windowOf w nFft)
        (fun X => (gevForward (W.solver C) (W.mask m _ _) ⟨r, hrC⟩ X).map fun Y => ⟨S, Y⟩) x := by
  have hn := new_sep W.laplace known nFft kw hs.names .gev ha w hs.window hs.known hop hs.hop m hs.model
  simp only [chosen, buildSeparator, hr] at hn
  have key : ∀ C F N : ℕ, _ := fun C F N => gev_options (C := C) (F := F) (N := N) W (.obj m) [("ref_mic", some (.int r)),
    ("eps", inForce kw [] "eps" (some (.float 1e-5)))] [] (by simp [Only]) (by simp [Only])
  obtain ⟨attrs, h1, -⟩ := key 0 0 0
  rw [h1] at hn
  refine ⟨_, hn, fun heap reset C n _ hrC x => run_eq W windowOf _ heap reset x _ fun heap' X hh => ?_⟩
  obtain ⟨attrs', h2, h3⟩ := key C (nFft / 2 + 1) (stftFrames nFft (hopOf nFft hop) n)
  obtain rfl : attrs = attrs' := Except.ok.inj (h1.symm.trans h2)
  have := (h3 m r (by simp [inForce, List.lookup]) (by simp [inForce, List.lookup]) X).1 hrC
  simp only [runSeparator]
  rw [this]

private lemma separated_fixed (nFft : ℕ) (hop : Option ℕ) (w : Fin nFft → ℝ) (s : ℕ)
    (sep : Sig C (nFft / 2 + 1) (stftFrames nFft (hopOf nFft hop) n) →
      Except Err (Sig s (nFft / 2 + 1) (stftFrames nFft (hopOf nFft hop) n))) (x : Fin C → Fin n → ℝ) :
    separated nFft hop w (fun X => (sep X).map fun Y => ⟨s, Y⟩) x = (separateRecording nFft hop w sep x).map fun y => ⟨s, y⟩ := by
  unfold separated separateRecording
  simp only [bind, Except.bind, Except.map, cut]
  rcases stftAll nFft hop w x with e | X
  · rfl
  dsimp only
  rcases sep X with e | Y
  · rfl
  dsimp only
  rcases istftAll nFft hop w Y with e | y <;> rfl

/-- **C126 (no exception).** With the window `hann`, a hop of at most half a frame and a recording longer than half a frame, `BSSSeparator` with T-ISS
returns for every recording, model and state of the model, and the number of signals is `n_src`, or that of the channels. -/
theorem separator_tiss_returns (W : World M σ S) (known : String → Bool) (windowOf : String → ∀ k : ℕ, Fin k → ℝ)
    (hw : ∀ k, windowOf "hann" k = hann k) (nFft : ℕ) (kw : Kw M)
    (hop : Option ℕ) (m : M) (hs : Shares W.laplace known kw hop "hann" m) (ha : Chooses kw .tIss "tiss") (i t d : ℕ) (s r : Option ℕ)
    (b : Bool) (e : ℝ) (hi : inForce kw [] "n_iter" (some (.int 20)) = some (.int i))
    (ht : inForce kw [] "n_taps" (some (.int 0)) = some (.int t)) (hd : inForce kw [] "n_delay" (some (.int 0)) = some (.int d))
    (hsrc : inForce kw [] "n_src" none = s.map .int) (hr : inForce kw [] "proj_back_mic" (some (.int 0)) = r.map .int)
    (hb : inForce kw [] "use_dmc" (some (.bool false)) = some (.bool b)) (he : inForceOr kw [] "eps" (.float 1e-5) = .float e)
    (he0 : 0 < e) (hf : 2 ≤ nFft) (hh0 : 0 < hopOf nFft hop) (hh : 2 * hopOf nFft hop ≤ nFft) :
    ∃ obj, sepNew W.laplace known nFft kw = .ok obj ∧ ∀ (heap : M → σ) (reset : Bool) (C n : ℕ) (x : Fin C → Fin n → ℝ),
      nFft / 2 < n → (∀ k, s = some k → k ≤ C) → (∀ k, r = some k → k < C) →
      ∃ y, sepRun W windowOf obj heap reset x = .ok ⟨s.getD C, y⟩ := by
  obtain ⟨obj, h1, h2⟩ := separator_tiss W known windowOf nFft kw hop "hann" m hs ha i t d s r b e hi ht hd hsrc hr hb he
  refine ⟨obj, h1, fun heap reset C n x hn hk hm => ?_⟩
  choose out hout using fun X : Sig C (nFft / 2 + 1) (stftFrames nFft (hopOf nFft hop) n) =>
    tiss_succeeds ⟨i, t, d, r, b, e⟩ he0 s X hk hm (W.source m _ _) (W.reset m) (if reset then W.reset m (heap m) else heap m)
  rw [h2]
  have e1 : (fun X : Sig C (nFft / 2 + 1) (stftFrames nFft (hopOf nFft hop) n) =>
      (tissForward ⟨i, t, d, r, b, e⟩ s X (W.source m _ _) (W.reset m) (if reset then W.reset m (heap m) else heap m)).map
        fun o => (⟨o.1, o.2.Y⟩ : Σ s : ℕ, Sig s (nFft / 2 + 1) (stftFrames nFft (hopOf nFft hop) n))) =
      fun X => (Except.ok (out X).Y).map fun Y => ⟨s.getD C, Y⟩ := funext fun X => by
    rw [hout X]; rfl
  rw [e1, separated_fixed, hw]
  obtain ⟨y, hy⟩ := recording_returns nFft hf hop hh0 hh hn (fun X => .ok (out X).Y) x fun X _ => ⟨_, rfl⟩
  rw [hy]
  exact ⟨y, rfl⟩

/-- **C126 (defaults).** `BSSSeparator(n_fft)(x)` is T-ISS with 20 iterations, the Laplace model, no taps, as many signals as channels, and projection
back to microphone 0 on the spectrogram with the window `hann` and a hop of a quarter of a frame; for frames of at least four samples, at least one
channel and recordings longer than half a frame it returns, and what it returns does not depend on the state of anything. -/
theorem separator_default (W : World M σ S) (known : String → Bool) (hk : known "hann" = true) (windowOf : String → ∀ k : ℕ, Fin k → ℝ)
    (hw : ∀ k, windowOf "hann" k = hann k) (nFft : ℕ) (hf : 4 ≤ nFft) :
    ∃ obj, sepNew W.laplace known nFft [] = .ok obj ∧ ∀ (heap : M → σ) (reset : Bool) (C n : ℕ) (x : Fin C → Fin n → ℝ),
      0 < C → nFft / 2 < n → ∃ y, sepRun W windowOf obj heap reset x = .ok ⟨C, y⟩ ∧
        separated nFft none (hann nFft) (fun X => (tissForward ⟨20, 0, 0, some 0, false, 1e-5⟩ none X
          (fun _ st Y => (laplaceForward 1e-5 Y, st)) id ()).map fun o => ⟨o.1, o.2.Y⟩) x = .ok ⟨C, y⟩ := by
  have hs : Shares W.laplace known ([] : Kw M) none "hann" W.laplace := ⟨by simp [Only], rfl, rfl, hk, rfl⟩
  obtain ⟨obj, h1, h2⟩ := separator_tiss W known windowOf nFft [] none "hann" W.laplace hs (Or.inl rfl) 20 0 0 none (some 0) false 1e-5
    rfl rfl rfl rfl rfl rfl rfl
  obtain ⟨obj', h1', h3⟩ := separator_tiss_returns W known windowOf hw nFft [] none W.laplace hs (Or.inl rfl) 20 0 0 none (some 0) false 1e-5
    rfl rfl rfl rfl rfl rfl rfl (by norm_num) (by omega) (show 0 < nFft / 4 by omega) (show 2 * (nFft / 4) ≤ nFft by omega)
  obtain rfl : obj = obj' := Except.ok.inj (h1.symm.trans h1')
  refine ⟨obj, h1, fun heap reset C n x hC hn => ?_⟩
  obtain ⟨y, hy⟩ := h3 heap reset C n x hn (by simp) (by simpa using hC)
  refine ⟨y, hy, ?_⟩
  rw [h2, hw] at hy
  refine Eq.trans ?_ hy
  congr 1
  funext X
  have hR : Indistinguishable (fun (_ : Unit) (_ : σ) => True)
      (fun _ st (Y : Sig _ (nFft / 2 + 1) (stftFrames nFft (hopOf nFft none) n)) => (laplaceForward 1e-5 Y, st)) (W.source W.laplace _ _) :=
    fun s _ st' Y _ => ⟨by rw [W.laplace_source], trivial⟩
  rcases tiss_model_use hR ⟨20, 0, 0, some 0, false, 1e-5⟩ none X id (W.reset W.laplace) ()
    (if reset then W.reset W.laplace (heap W.laplace) else heap W.laplace) trivial with ⟨o, o', e1, e2, s, Y, V, J, t, t', rfl, rfl, -⟩ | ⟨e, e1, e2⟩
  · rw [e1, e2]
    rfl
  · rw [e1, e2]
    rfl

/-- **C126 (what the constructor rejects).** An option that does not exist raises `TypeError`; a name that is none of `ip2`, `tiss`, `five`, `mvdr`, `mwf`
and `gev`, or an algorithm that is neither a name nor a member (for example `None`), raises `ValueError`. -/
theorem separator_rejects_options (lap : M) (known : String → Bool) (nFft : ℕ) (kw : Kw M) :
    ((∃ kv ∈ kw, kv.1 ∉ separatorOptions) → sepNew lap known nFft kw = .error .typeError) ∧
    (Only kw separatorOptions →
      ((∃ s, inForce kw [] "algo" (some (.algo .tIss)) = some (.str s) ∧ s ∉ ["ip2", "tiss", "five", "mvdr", "mwf", "gev"]) ∨
        inForce kw [] "algo" (some (.algo .tIss)) = none) → sepNew lap known nFft kw = .error .valueError) := by
  constructor
  · rintro ⟨kv, hkv, hn⟩
    unfold sepNew bindKw
    rw [if_neg]
    · rfl
    · intro h
      obtain ⟨s, hs, e⟩ := List.any_eq_true.1 (List.all_eq_true.1 h kv hkv)
      refine hn ?_
      rw [← (by simpa using e : s.1 = kv.1)]
      simp only [List.mem_cons, List.not_mem_nil, or_false] at hs
      rcases hs with rfl | rfl | rfl | rfl | rfl | rfl | rfl | rfl | rfl | rfl | rfl | rfl <;> simp [separatorOptions]
  · intro hkw ha
    obtain ⟨L, hL, a1, a2, a3, a4, a5, a6, a7, a8, a9, a10, a11, a12⟩ := sep_args kw hkw
    unfold sepNew
    rw [hL]
    dsimp only [bind, Except.bind]
    rw [a7]
    haveI : DecidableEq (PyArg M) := Classical.decEq _
    have : ∀ A g, sepInit (V := PyArg M) (algoArg (inForce kw [] "algo" (some (.algo .tIss)))) A g = .error .valueError := fun A g => by
      rcases ha with ⟨s, h, hn⟩ | h
      · rw [h]
        exact (separator_rejects A g).2 s hn
      · rw [h]; exact (separator_rejects A g).1
    rw [this]

/-- **C126 (violated part).** "`None` selects the default of an option": for `eps` this is so with T-ISS, AuxIVA-IP2 and FIVE (and MWF and GEV do not
use it), but with MVDR the object is built and then no call returns (`solve_loaded` multiplies `None` by a tensor). -/
theorem separator_eps_none_violated (W : World M σ S) (known : String → Bool) (hk : known "hann" = true)
    (windowOf : String → ∀ k : ℕ, Fin k → ℝ) (nFft : ℕ) (m : M) :
    ∃ obj, sepNew W.laplace known nFft [("algo", some (.str "mvdr")), ("source_model", some (.obj m)), ("eps", none)] = .ok obj ∧
      ∀ (heap : M → σ) (reset : Bool) (C n : ℕ) (x : Fin C → Fin n → ℝ) y, sepRun W windowOf obj heap reset x ≠ .ok y := by
  have hn := new_sep W.laplace known nFft [("algo", some (.str "mvdr")), ("source_model", some (.obj m)), ("eps", none)]
    (by simp [Only, separatorOptions]) .mvdr (Or.inr (by simp [inForce, List.lookup, SepAlgo.value])) "hann"
    (by simp [inForceOr, List.lookup]) hk none (by simp [inForce, List.lookup]) m (by simp [inForceOr, List.lookup])
  simp [chosen, buildSeparator, inForce, List.lookup] at hn
  obtain ⟨attrs, h, a1, a2, a3⟩ : ∃ attrs, newBf (some (.obj m)) [("ref_mic", some (.int 0)), ("eps", (none : Option (PyArg M)))] = .ok attrs ∧ _ :=
    bf_ok _ _ (by simp [Only])
  have h' : newMvdr (some (.obj m)) [("ref_mic", some (.int 0)), ("eps", none), ("mvdr_type", some (.str "rtf")), ("n_power_iter", none)] =
      .ok fun k => if k = "mvdr_type" then some (PyArg.str "rtf") else if k = "n_power_iter" then none else attrs k := by
    unfold newMvdr
    rw [bind_ok (by simp [Only])]
    simp only [bind, Except.bind, List.map, arg, List.lookup]
    simp [h]
  rw [h'] at hn
  refine ⟨_, hn, fun heap reset C n x y hy => ?_⟩
  rw [run_eq W windowOf _ heap reset x (fun _ => .error .typeError)] at hy
  · unfold separated at hy
    simp only [bind, Except.bind] at hy
    rcases hX : stftAll nFft none (windowOf "hann" nFft) x with e | X <;> simp [hX] at hy
  · intro heap' X _
    simp only [runSeparator]
    unfold mvdrCall
    rw [bind_ok (by simp [Only])]
    simp [bind, Except.bind, arg_none, setParams, a1, a2, a3, asNat, asReal, List.lookup]
    rfl

/-! ## Concrete cases -/

/-- A world with two models: the Laplace model, and one that counts its calls and returns weights that depend on their number. -/
private noncomputable def demoWorld : World Bool ℕ 2 where
  source m F N := fun _ k Y => if m then (laplaceForward 1e-5 Y, k) else (fun _ _ _ => 1 + k, k + 1)
  mask _ _ _ := fun _ => ⟨2, fun _ _ _ _ => 1⟩
  weights _ _ _ _ := fun k _ => (fun _ _ => 1 + k, k + 1)
  reset m k := if m then k else 0
  laplace := true
  laplace_source _ _ _ _ _ := by simp
  laplace_reset _ := by simp
  solver _ := fun _ => ⟨0, 0⟩

/-- Non-vacuity of `tiss_options`: an option from the call (over the constructor), two from the constructor (one of them `None`), the others by
default; the result is the computation with exactly these. -/
example (heap : Bool → ℕ) (X : Sig C F N) : ∃ attrs,
    newTiss demoWorld.laplace [("n_iter", some (.int 5)), ("proj_back_mic", none), ("model", some (.obj false))] = .ok attrs ∧
    tissCall demoWorld attrs heap [("n_iter", some (.int 7)), ("eps", some (.float 1e-3)), ("n_src", none)] X =
      tissForward ⟨7, 0, 0, none, false, 1e-3⟩ none X (demoWorld.source false F N) (demoWorld.reset false) (heap false) := by
  obtain ⟨attrs, h1, h2⟩ := tiss_options (C := C) (F := F) (N := N) demoWorld
    [("n_iter", some (.int 5)), ("proj_back_mic", none), ("model", some (.obj false))]
    [("n_iter", some (.int 7)), ("eps", some (.float 1e-3)), ("n_src", none)] (by simp [Only]) (by simp [Only])
    (fun v h => ⟨false, by simpa [List.lookup, eq_comm] using h⟩)
  exact ⟨attrs, h1, h2 7 0 0 none none false 1e-3 false (by simp [inForce, List.lookup]) (by simp [inForce, List.lookup])
    (by simp [inForce, List.lookup]) (by simp [inForce, List.lookup]) (by simp [inForceOr, List.lookup]) (by simp [inForce, List.lookup])
    (by simp [inForce, List.lookup]) (by simp [inForceOr, List.lookup]) heap X⟩

/-- Non-vacuity of `tiss_flag`: an integer as flag. -/
example (heap : Bool → ℕ) (X : Sig C F N) : ∃ attrs, newTiss demoWorld.laplace [("use_dmc", some (.int 1)), ("model", some (.obj false))] = .ok attrs ∧
    tissCall demoWorld attrs heap [] X =
      tissForward ⟨10, 0, 0, some 0, true, 1e-5⟩ none X (demoWorld.source false F N) (demoWorld.reset false) (heap false) := by
  obtain ⟨attrs, h1, h2⟩ := tiss_flag (C := C) (F := F) (N := N) demoWorld [("use_dmc", some (.int 1)), ("model", some (.obj false))]
    [] (by simp [Only]) (by simp [Only]) (fun v h => ⟨false, by simpa [List.lookup, eq_comm] using h⟩)
  exact ⟨attrs, h1, h2 10 0 0 none (some 0) (some (.int 1)) true 1e-5 false (by simp [inForce, List.lookup]) (by simp [inForce, List.lookup])
    (by simp [inForce, List.lookup]) (by simp [inForce, List.lookup]) (by simp [inForceOr, List.lookup]) (by simp [inForce, List.lookup])
    (by simp [inForce, List.lookup]) (by simp [Falsy]) (by simp [inForceOr, List.lookup]) heap X⟩

/-- Non-vacuity of `auxiva_options`. -/
example (heap : Bool → ℕ) (X : Sig C F N) : ∃ attrs, newIp demoWorld.laplace [("n_src", some (.int 2)), ("eps", none)] = .ok attrs ∧
    ipCall demoWorld attrs heap [("proj_back_mic", some (.int 1)), ("model", some (.obj false))] X =
      auxivaForward ⟨10, some 1, 1e-5⟩ (some 2) X (demoWorld.source false F N) (demoWorld.reset false) (heap false) := by
  obtain ⟨attrs, h1, h2⟩ := auxiva_options (C := C) (F := F) (N := N) demoWorld [("n_src", some (.int 2)), ("eps", none)]
    [("proj_back_mic", some (.int 1)), ("model", some (.obj false))] (by simp [Only]) (by simp [Only]) (by simp [List.lookup])
  exact ⟨attrs, h1, h2 10 (some 2) (some 1) 1e-5 false (by simp [inForce, List.lookup]) (by simp [inForce, List.lookup])
    (by simp [inForceOr, List.lookup]) (by simp [inForce, List.lookup]) (by simp [inForceOr, List.lookup]) heap X⟩

/-- Non-vacuity of `ip2_options`. -/
example (heap : Bool → ℕ) (X : Sig C F N) : ∃ attrs, newIp2 demoWorld.laplace [("n_iter", some (.int 4))] = .ok attrs ∧
    ip2Call demoWorld attrs heap [("proj_back_mic", some (.int 1))] X =
      auxiva2Forward 4 (some 1) 1e-5 X (demoWorld.source true F N) (demoWorld.reset true) (heap true) := by
  obtain ⟨attrs, h1, h2⟩ := ip2_options (C := C) (F := F) (N := N) demoWorld [("n_iter", some (.int 4))]
    [("proj_back_mic", some (.int 1))] (by simp [Only]) (by simp [Only]) (by simp [List.lookup])
  exact ⟨attrs, h1, h2 4 (some 1) 1e-5 true (by simp [inForce, List.lookup])
    (by simp [inForceOr, List.lookup]; rfl) (by simp [inForce, List.lookup]) (by simp [inForceOr, List.lookup]) heap X⟩

/-- Non-vacuity of `five_options`. -/
example (heap : Bool → ℕ) (X : Sig 3 (F + 1) N) : ∃ attrs, newFive demoWorld.laplace [("n_power_iter", some (.int 4))] = .ok attrs ∧
    fiveCall demoWorld attrs heap [("proj_back_mic", some (.int 2))] X =
      fiveForward (demoWorld.solver 3) 10 2 (some 4) X (demoWorld.source true F N) (demoWorld.reset true) (heap true) := by
  obtain ⟨attrs, h1, h2⟩ := five_options (C := 3) (F := F) (N := N) demoWorld [("n_power_iter", some (.int 4))]
    [("proj_back_mic", some (.int 2))] (by simp [Only]) (by simp [Only]) (by simp [List.lookup])
  exact ⟨attrs, h1, (h2 10 2 (some 4) true (by simp [inForce, List.lookup]) (by simp [inForceOr, List.lookup]; rfl)
    (by simp [inForce, List.lookup]) (by simp [inForce, List.lookup]) heap X).1 (by norm_num)⟩

/-- Non-vacuity of `wpe_options`: the default weights by default, and a model in a call. -/
example (heap : Bool → ℕ) (X : Sig C F N) : ∃ attrs, newWpe demoWorld.laplace [("n_taps", some (.int 8))] = .ok attrs ∧
    wpeCall demoWorld attrs heap [] X = wpeForward 3 8 3 1e-5 X (none : Option (WpeModel Unit C F N)) () := by
  obtain ⟨attrs, h1, h2⟩ := wpe_options (C := C) (F := F) (N := N) demoWorld [("n_taps", some (.int 8))] [] (by simp [Only]) (by simp [Only])
  exact ⟨attrs, h1, (h2 3 3 8 1e-5 (by simp [inForce, List.lookup]) (by simp [inForce, List.lookup])
    (by simp [inForce, List.lookup]) (by simp [inForceOr, List.lookup]) heap X).1 (by simp [inForce, List.lookup])⟩

/-- Non-vacuity of `mvdr_options`. -/
example (X : Sig 3 F N) : ∃ attrs, newMvdr (some (.obj false)) [("mvdr_type", some (.str "scm"))] = .ok attrs ∧
    mvdrCall demoWorld attrs [("ref_mic", some (.int 1)), ("mask_model", some (.obj true))] X =
      mvdrForward (demoWorld.solver 3) (demoWorld.mask true F N) 1 1e-5 "scm" none X := by
  obtain ⟨attrs, h1, h2⟩ := mvdr_options (C := 3) (F := F) (N := N) demoWorld (.obj false) [("mvdr_type", some (.str "scm"))]
    [("ref_mic", some (.int 1)), ("mask_model", some (.obj true))] (by simp [Only]) (by simp [Only])
  exact ⟨attrs, h1, (h2 true 1 1e-5 "scm" none (by simp [inForce, List.lookup]) (by simp [inForce, List.lookup])
    (by simp [inForce, List.lookup]) (by simp [inForce, List.lookup]) (by simp [inForce, List.lookup]) X).1 (by norm_num)⟩

/-- Non-vacuity of `mwf_options` and `gev_options`. -/
example (X : Sig 3 F N) : ∃ a b, newMwf (some (.obj false)) [("time_invariant", some (.bool false))] = .ok a ∧
    mwfCall demoWorld a [("ref_mic", some (.int 1))] X = mwfForward (demoWorld.mask false F N) 1 1e-5 false X ∧
    newGev (some (.obj false)) [("ref_mic", some (.int 2)), ("eps", none)] = .ok b ∧
    gevCall demoWorld b [] X = gevForward (demoWorld.solver 3) (demoWorld.mask false F N) 2 X := by
  obtain ⟨a, h1, h2⟩ := mwf_options (C := 3) (F := F) (N := N) demoWorld (.obj false) [("time_invariant", some (.bool false))]
    [("ref_mic", some (.int 1))] (by simp [Only]) (by simp [Only])
  obtain ⟨b, h3, h4⟩ := gev_options (C := 3) (F := F) (N := N) demoWorld (.obj false) [("ref_mic", some (.int 2)), ("eps", none)] []
    (by simp [Only]) (by simp [Only])
  exact ⟨a, b, h1, (h2 false 1 false (by simp [inForce, List.lookup]) (by simp [inForce, List.lookup]) (by simp [inForce, List.lookup]) X).1
    (by norm_num) 1e-5, h3, (h4 false 2 (by simp [inForce, List.lookup]) (by simp [inForce, List.lookup]) X).1 (by norm_num)⟩

/-- Non-vacuity of `tiss_options_either` and `tiss_call_none`: options that occur, without and with `None`. -/
example : Only ([("n_iter", some (.int 3)), ("n_src", some (.int 2))] : Kw Bool)
      ["n_iter", "n_taps", "n_delay", "n_src", "model", "proj_back_mic", "use_dmc", "eps"] ∧
    (∀ kv ∈ ([("n_iter", some (.int 3)), ("n_src", some (.int 2))] : Kw Bool), kv.2 ≠ none) ∧
    (([("n_iter", some (.int 3)), ("n_src", none)] : Kw Bool).map Prod.fst).Nodup := by
  refine ⟨by simp [Only], by simp, by simp⟩

/-- Non-vacuity of `separator_tiss` and `separator_tiss_returns`: an algorithm by name, a hop, a model with a state, taps and a delay, and `eps=None`. -/
example (heap : Bool → ℕ) (reset : Bool) (x : Fin 3 → Fin 1000 → ℝ) : ∃ obj,
    sepNew demoWorld.laplace (fun s => s = "hann") 64 [("algo", some (.str "tiss")), ("hop_length", some (.int 32)),
      ("source_model", some (.obj false)), ("n_taps", some (.int 4)), ("n_delay", some (.int 1)), ("n_src", some (.int 2)), ("eps", none)] = .ok obj ∧
    ∃ y, sepRun demoWorld (fun _ => hann) obj heap reset x = .ok ⟨2, y⟩ := by
  obtain ⟨obj, h1, h2⟩ := separator_tiss_returns demoWorld (fun s => s = "hann") (fun _ => hann) (fun _ => rfl) 64
    [("algo", some (.str "tiss")), ("hop_length", some (.int 32)), ("source_model", some (.obj false)), ("n_taps", some (.int 4)),
      ("n_delay", some (.int 1)), ("n_src", some (.int 2)), ("eps", none)] (some 32) false
    ⟨by simp [Only, separatorOptions], by simp [inForce, List.lookup], by simp [inForceOr, List.lookup], by simp,
      by simp [inForceOr, List.lookup]⟩ (Or.inr (by simp [inForce, List.lookup])) 20 4 1 (some 2) (some 0) false 1e-5
    (by simp [inForce, List.lookup]) (by simp [inForce, List.lookup]) (by simp [inForce, List.lookup]) (by simp [inForce, List.lookup])
    (by simp [inForce, List.lookup]) (by simp [inForce, List.lookup]) (by simp [inForceOr, List.lookup]) (by norm_num) (by norm_num)
    (by norm_num [hopOf]) (by norm_num [hopOf])
  exact ⟨obj, h1, h2 heap reset 3 1000 x (by norm_num) (by simp) (by simp)⟩

/-- Non-vacuity of `separator_ip2`, `separator_five`, `separator_mvdr`, `separator_mwf` and `separator_gev`: each is chosen by its name and by the
member of the enumeration. -/
example : Chooses ([("algo", some (.str "ip2"))] : Kw Bool) .auxivaIp2 "ip2" ∧ Chooses ([("algo", some (.algo .five))] : Kw Bool) .five "five" ∧
    Chooses ([("algo", some (.str "mvdr"))] : Kw Bool) .mvdr "mvdr" ∧ Chooses ([("algo", some (.algo .mwf))] : Kw Bool) .mwf "mwf" ∧
    Chooses ([("algo", some (.str "gev"))] : Kw Bool) .gev "gev" ∧
    Shares true (fun s => s = "hann" ∨ s = "hamming") ([("algo", some (.str "gev")), ("window", some (.str "hamming")), ("eps", none)] : Kw Bool)
      none "hamming" true := by
  refine ⟨Or.inr (by simp [inForce, List.lookup]), Or.inl (by simp [inForce, List.lookup]), Or.inr (by simp [inForce, List.lookup]),
    Or.inl (by simp [inForce, List.lookup]), Or.inr (by simp [inForce, List.lookup]), by simp [Only, separatorOptions],
    by simp [inForce, List.lookup], by simp [inForceOr, List.lookup], by simp, by simp [inForceOr, List.lookup]⟩

/-- Non-vacuity of `separator_rejects_options`: a misspelt option, and a misspelt algorithm. -/
example : sepNew true (fun _ => true) 64 [("niter", some (.int 5))] = .error .typeError ∧
    sepNew true (fun _ => true) 64 [("algo", some (.str "iva"))] = .error .valueError :=
  ⟨(separator_rejects_options _ _ _ _).1 ⟨_, List.mem_singleton.2 rfl, by simp [separatorOptions]⟩,
    (separator_rejects_options _ _ _ _).2 (by simp [Only, separatorOptions]) (Or.inl ⟨"iva", by simp [inForce, List.lookup], by simp⟩)⟩

/-- `separator_default` with frames of 4096 samples and one second of stereo sound. -/
example (heap : Bool → ℕ) (x : Fin 2 → Fin 16000 → ℝ) : ∃ obj y, sepNew demoWorld.laplace (· == "hann") 4096 [] = .ok obj ∧
    sepRun demoWorld (fun _ k => hann k) obj heap true x = .ok ⟨2, y⟩ := by
  obtain ⟨obj, h, h'⟩ := separator_default demoWorld (· == "hann") rfl (fun _ k => hann k) (fun _ => rfl) 4096 (by norm_num)
  obtain ⟨y, hy, -⟩ := h' heap true 2 16000 x (by norm_num) (by norm_num)
  exact ⟨obj, y, h, hy⟩

end Torchiva.Props
