import Verif.Proofs.TensorNetworks
import Verif.Props.Networks
import Verif.Props.TensorStft

/-!
# The neural source models treat a batch item by item in evaluation mode (C137)

The models flatten all dimensions before frequencies and frames, apply their layers and restore the dimensions.  In
evaluation mode every item gets the weights it gets alone; in training mode, the mode of loaded separators, it does not.
-/

namespace Torchiva.Props

open Torchiva

variable {F N K pool k M H S C n : ℕ} {b : Shape}

/-! ## The models -/

/-- `GLUMask` in evaluation mode, for one mixture: the weights of the sources and no state. -/
noncomputable def gluItem [NeZero pool] (logSpec : Bool) (net : GluNet F K F pool k) : SourceModel Unit F N :=
  fun _ _ Y => (gluMaskMag logSpec (fun x => (net.forward false (fun _ _ _ => true) x).1) Y, ())

/-- `GLUMask(mag_spec=False)` in evaluation mode, for one mixture. -/
noncomputable def gluReImItem [NeZero pool] (logSpec : Bool) (net : GluNet (F + F) K F pool k) : SourceModel Unit F N :=
  fun _ _ Y => (gluMaskReIm logSpec (fun x => (net.forward false (fun _ _ _ => true) x).1) Y, ())

/-- `BLSTMMask` in evaluation mode, for one mixture. -/
noncomputable def blstmItem (mel : Fin F → Fin M → ℝ) (logSpec : Bool) (net : BlstmNet F M H) : SourceModel Unit F N :=
  fun _ _ Y => (blstmForwardMag mel logSpec net false (fun _ _ _ _ => true) Y, ())

/-- `BLSTMMask(mag_spec=False)` in evaluation mode, for one mixture. -/
noncomputable def blstmReImItem (mel : Fin F → Fin M → ℝ) (net : BlstmNet F (M + M) H) : SourceModel Unit F N :=
  fun _ _ Y => (blstmForwardReIm mel net false (fun _ _ _ _ => true) Y, ())

/-- `SimpleModel`, for one mixture. -/
noncomputable def simpleItem (net : SimpleNet F M H) : SourceModel Unit F N := fun _ _ Y => (net.forward Y, ())

private theorem glu_ok [NeZero pool] (logSpec : Bool) (net : GluNet F K F pool k) (keep : ∀ B N, Fin B → Fin K → Fin N → Bool)
    (B N : ℕ) (x : Sig B F N) : gluForwardMag logSpec net false (keep B N) x =
      .ok (gluMaskMag logSpec (fun x => (net.forward false (fun _ _ _ => true) x).1) x, net) := by
  obtain ⟨w, hw⟩ := (glu_deterministic_partial (k := k) logSpec net
    ⟨⟨⟨fun _ _ _ => 0, fun _ => 0⟩, ⟨fun _ => 0, fun _ => 0, fun _ => 0, fun _ => 0⟩, ⟨fun _ _ _ => 0, fun _ => 0⟩,
      ⟨fun _ => 0, fun _ => 0, fun _ => 0, fun _ => 0⟩⟩, [], [], net.out, 0⟩ x).1
  rw [hw (keep B N), ← hw fun _ _ _ => true]
  have h := hw fun _ _ _ => true
  unfold gluForwardMag at h ⊢
  rw [if_neg (by simp)] at h ⊢
  rw [(Prod.mk.inj (Except.ok.inj h)).2]

private theorem gluReIm_ok [NeZero pool] (logSpec : Bool) (net : GluNet (F + F) K F pool k)
    (keep : ∀ B N, Fin B → Fin K → Fin N → Bool) (B N : ℕ) (x : Sig B F N) : gluForwardReIm logSpec net false (keep B N) x =
      .ok (gluMaskReIm logSpec (fun x => (net.forward false (fun _ _ _ => true) x).1) x, net) := by
  obtain ⟨w, hw⟩ := (glu_deterministic_partial (k := k) logSpec
    ⟨⟨⟨fun _ _ _ => 0, fun _ => 0⟩, ⟨fun _ => 0, fun _ => 0, fun _ => 0, fun _ => 0⟩, ⟨fun _ _ _ => 0, fun _ => 0⟩,
      ⟨fun _ => 0, fun _ => 0, fun _ => 0, fun _ => 0⟩⟩, [], [], net.out, 0⟩ net x).2
  rw [hw (keep B N), ← hw fun _ _ _ => true]
  have h := hw fun _ _ _ => true
  unfold gluForwardReIm at h ⊢
  rw [if_neg (by simp)] at h ⊢
  rw [(Prod.mk.inj (Except.ok.inj h)).2]

private def zeroNet (I : ℕ) (out : Conv K F k) : GluNet I K F pool k :=
  ⟨⟨⟨fun _ _ _ => 0, fun _ => 0⟩, ⟨fun _ => 0, fun _ => 0, fun _ => 0, fun _ => 0⟩, ⟨fun _ _ _ => 0, fun _ => 0⟩,
      ⟨fun _ => 0, fun _ => 0, fun _ => 0, fun _ => 0⟩⟩, [], [], out, 0⟩

private theorem glu_item_eq [NeZero pool] (logSpec : Bool) (net : GluNet F K F pool k) (B B' N : ℕ) (x : Sig B F N) (x' : Sig B' F N)
    (i i') (h : x i = x' i') :
    gluMaskMag logSpec (fun x => (net.forward false (fun _ _ _ => true) x).1) x i =
      gluMaskMag logSpec (fun x => (net.forward false (fun _ _ _ => true) x).1) x' i' :=
  (glu_items_partial logSpec net (zeroNet (F + F) net.out) x x' i i' h (fun _ _ _ => true) (fun _ _ _ => true) _ _ _ _ _ _ _ _
    (glu_ok logSpec net (fun _ _ _ _ _ => true) B N x) (glu_ok logSpec net (fun _ _ _ _ _ => true) B' N x')
    (gluReIm_ok logSpec (zeroNet (F + F) net.out) (fun _ _ _ _ _ => true) B N x)
    (gluReIm_ok logSpec (zeroNet (F + F) net.out) (fun _ _ _ _ _ => true) B' N x')).1

private theorem gluReIm_item_eq [NeZero pool] (logSpec : Bool) (net : GluNet (F + F) K F pool k) (B B' N : ℕ) (x : Sig B F N)
    (x' : Sig B' F N) (i i') (h : x i = x' i') :
    gluMaskReIm logSpec (fun x => (net.forward false (fun _ _ _ => true) x).1) x i =
      gluMaskReIm logSpec (fun x => (net.forward false (fun _ _ _ => true) x).1) x' i' :=
  (glu_items_partial logSpec (zeroNet F net.out) net x x' i i' h (fun _ _ _ => true) (fun _ _ _ => true) _ _ _ _ _ _ _ _
    (glu_ok logSpec (zeroNet F net.out) (fun _ _ _ _ _ => true) B N x)
    (glu_ok logSpec (zeroNet F net.out) (fun _ _ _ _ _ => true) B' N x')
    (gluReIm_ok logSpec net (fun _ _ _ _ _ => true) B N x) (gluReIm_ok logSpec net (fun _ _ _ _ _ => true) B' N x')).2

private def zeroLin (I O : ℕ) : Linear I O := ⟨fun _ _ => 0, fun _ => 0⟩

private def zeroBi (I H : ℕ) : BiLstm I H := ⟨⟨fun _ _ _ => 0, fun _ _ _ => 0, fun _ _ => 0⟩, ⟨fun _ _ _ => 0, fun _ _ _ => 0, fun _ _ => 0⟩⟩

private def zeroBlstm (F I H : ℕ) : BlstmNet F I H := ⟨⟨zeroBi I H, []⟩, zeroLin _ _, 0⟩

private def zeroSupport (F H S M : ℕ) : SupportNet F H S M := ⟨⟨zeroBi F H, []⟩, zeroLin _ _, zeroLin _ _, 0, 0⟩

private theorem blstm_ok (mel : Fin F → Fin M → ℝ) (logSpec : Bool) (net : BlstmNet F M H)
    (keep : ∀ B N, ℕ → Fin N → Fin B → Fin (H + H) → Bool) (B N : ℕ) (x : Sig B F N) :
    (.ok (blstmForwardMag mel logSpec net false (keep B N) x, net) : Except Err (Weights B F N × BlstmNet F M H)) =
      .ok (blstmForwardMag mel logSpec net false (fun _ _ _ _ => true) x, net) := by
  congr 2
  funext i
  exact (blstm_items_partial mel logSpec net (zeroBlstm _ _ _) (zeroSupport F H 1 M) x x i i rfl _ _).1

private theorem blstm_item_eq (mel : Fin F → Fin M → ℝ) (logSpec : Bool) (net : BlstmNet F M H) (B B' N : ℕ)
    (x : Sig B F N) (x' : Sig B' F N) (i i') (h : x i = x' i') :
    blstmForwardMag mel logSpec net false (fun _ _ _ _ => true) x i =
      blstmForwardMag mel logSpec net false (fun _ _ _ _ => true) x' i' :=
  (blstm_items_partial mel logSpec net (zeroBlstm _ _ _) (zeroSupport F H 1 M) x x' i i' h _ _).1

private theorem blstmReIm_ok (mel : Fin F → Fin M → ℝ) (net : BlstmNet F (M + M) H)
    (keep : ∀ B N, ℕ → Fin N → Fin B → Fin (H + H) → Bool) (B N : ℕ) (x : Sig B F N) :
    (.ok (blstmForwardReIm mel net false (keep B N) x, net) : Except Err (Weights B F N × BlstmNet F (M + M) H)) =
      .ok (blstmForwardReIm mel net false (fun _ _ _ _ => true) x, net) := by
  congr 2
  funext i
  exact (blstm_items_partial mel true (zeroBlstm _ _ _) net (zeroSupport F H 1 M) x x i i rfl _ _).2.1

private theorem blstmReIm_item_eq (mel : Fin F → Fin M → ℝ) (net : BlstmNet F (M + M) H) (B B' N : ℕ)
    (x : Sig B F N) (x' : Sig B' F N) (i i') (h : x i = x' i') :
    blstmForwardReIm mel net false (fun _ _ _ _ => true) x i = blstmForwardReIm mel net false (fun _ _ _ _ => true) x' i' :=
  (blstm_items_partial mel true (zeroBlstm _ _ _) net (zeroSupport F H 1 M) x x' i i' h _ _).2.1

private theorem simple_item_eq (net : SimpleNet F M H) (B B' N : ℕ) (x : Sig B F N) (x' : Sig B' F N) (i i')
    (h : x i = x' i') : net.forward x i = net.forward x' i' := by
  funext f n
  exact simple_items net x x' i i' n n (fun f => by rw [h]) f

/-! ## Seen from outside -/

/-- The model `T` called with `X` of shape `(..., F, N)` returns weights of the shape of `X`, is not modified (it is `t` before and after), and
`T(X)[γ] = T(X[γ])` for all indices `γ` of the other dimensions, batch dimensions and sources alike. -/
def TreatsItems {τ : Type} (T : TenModel τ) (t : τ) (X : Ten ℂ) (bs : Shape) : Prop :=
  ∃ w, T t X = .ok (w, t) ∧ w.shape = X.shape ∧
    ∀ γ, Inside γ bs → ∃ w1, T t (X.itemAt 2 γ) = .ok (w1, t) ∧ IsItem γ w w1

private theorem net_treats {τ : Type} {net : τ → ∀ B N, Sig B F N → Except Err (Weights B F N × τ)} {t : τ}
    {w : ∀ B N, Sig B F N → Weights B F N} (hnet : ∀ B N x, net t B N x = .ok (w B N x, t))
    (hw : ∀ B B' N (x : Sig B F N) (x' : Sig B' F N) i i', x i = x' i' → w B N x i = w B' N x' i')
    (hF : 0 < F) (hN : 0 < N) (X : Ten ℂ) {bs : Shape} (hX : X.shape = N :: F :: bs) :
    TreatsItems (fun t X => netT (net t) X) t X bs := by
  obtain ⟨r, e, hr, hv⟩ := netT_items hX hN hF hnet hw
  refine ⟨r, e, by rw [hr, hX], fun γ hγ => ?_⟩
  obtain ⟨r1, e1, hr1, hv1⟩ := netT_items (X := X.itemAt 2 γ) (bs := []) (by simp [Ten.itemAt, hX]) hN hF hnet hw
  refine ⟨r1, e1, ?_⟩
  have h2 : Rep2 bs F N r fun γ f n => w 1 N (fun _ f n => X.val ((n : ℕ) :: (f : ℕ) :: γ)) 0 f n :=
    ⟨hr, fun γ hγ f hf n hn => hv γ hγ 1 (fun _ f n => X.val ((n : ℕ) :: (f : ℕ) :: γ)) 0 (fun _ _ => rfl) ⟨f, hf⟩ ⟨n, hn⟩⟩
  have h3 : Rep2 [] F N r1 fun _ f n => w 1 N (fun _ f n => X.val ((n : ℕ) :: (f : ℕ) :: γ)) 0 f n :=
    ⟨hr1, fun δ hδ f hf n hn => by
      match δ, hδ with
      | [], h => exact hv1 [] h 1 (fun _ f n => X.val ((n : ℕ) :: (f : ℕ) :: γ)) 0 (fun _ _ => rfl) ⟨f, hf⟩ ⟨n, hn⟩⟩
  exact h2.isItem h3 hγ rfl

/-- **C137, `GLUMask` (partial: only after `.eval()`).**  For every shape of the dimensions before frequencies and frames, both
feature options, with and without logarithm. -/
theorem glu_batch_partial [NeZero pool] (logSpec : Bool) (net : GluNet F K F pool k) (net' : GluNet (F + F) K F pool k)
    (keep : ∀ B N, Fin B → Fin K → Fin N → Bool) (hF : 0 < F) (hN : 0 < N) (X : Ten ℂ) {bs : Shape}
    (hX : X.shape = N :: F :: bs) :
    TreatsItems (gluT logSpec false keep) net X bs ∧ TreatsItems (gluReImT logSpec false keep) net' X bs :=
  ⟨net_treats (net := fun net B N x => gluForwardMag logSpec net false (keep B N) x) (glu_ok logSpec net keep)
      (glu_item_eq logSpec net) hF hN X hX,
    net_treats (net := fun net B N x => gluForwardReIm logSpec net false (keep B N) x) (gluReIm_ok logSpec net' keep)
      (gluReIm_item_eq logSpec net') hF hN X hX⟩

/-- **C137, `BLSTMMask` (partial: only after `.eval()`).** -/
theorem blstm_batch_partial (mel : Fin F → Fin M → ℝ) (logSpec : Bool) (net : BlstmNet F M H) (net' : BlstmNet F (M + M) H)
    (keep : ∀ B N, ℕ → Fin N → Fin B → Fin (H + H) → Bool) (hF : 0 < F) (hN : 0 < N) (X : Ten ℂ) {bs : Shape}
    (hX : X.shape = N :: F :: bs) :
    TreatsItems (blstmT mel logSpec false keep) net X bs ∧ TreatsItems (blstmReImT mel false keep) net' X bs :=
  ⟨net_treats (net := fun net B N x => .ok (blstmForwardMag mel logSpec net false (keep B N) x, net))
      (blstm_ok mel logSpec net keep) (blstm_item_eq mel logSpec net) hF hN X hX,
    net_treats (net := fun net B N x => .ok (blstmForwardReIm mel net false (keep B N) x, net))
      (blstmReIm_ok mel net' keep) (blstmReIm_item_eq mel net') hF hN X hX⟩

example (mel : Fin 129 → Fin 40 → ℝ) (net : BlstmNet 129 40 100) (net' : BlstmNet 129 (40 + 40) 100) (X : Ten ℂ)
    (hX : X.shape = [50, 129, 4, 2, 3]) : TreatsItems (blstmT mel true false fun _ _ _ _ _ _ => true) net X [4, 2, 3] :=
  (blstm_batch_partial mel true net net' _ (by norm_num) (by norm_num) X hX).1

/-- **C137, `SimpleModel`,** in both modes. -/
theorem simple_batch (net : SimpleNet F M H) (hF : 0 < F) (hN : 0 < N) (X : Ten ℂ) {bs : Shape}
    (hX : X.shape = N :: F :: bs) : TreatsItems simpleT net X bs :=
  net_treats (net := fun (net : SimpleNet F M H) B N x => .ok (net.forward x, net)) (fun _ _ _ => rfl) (simple_item_eq net) hF hN X hX

/-- A batch of shape `(3, 2)` with four sources and a network with two sublayers. -/
example (l : GluSub 129 64 2) (m : GluSub 64 64 2) (o : Conv 64 129 3) (X : Ten ℂ) (hX : X.shape = [50, 129, 4, 2, 3]) :
    TreatsItems (gluT true false fun _ _ _ _ _ => true) ⟨l, [m, m], [m, m], o, 0.5⟩ X [4, 2, 3] :=
  (glu_batch_partial true _ (zeroNet _ o) _ (by norm_num) (by norm_num) X hX).1

/-! ## In the separators -/

/-- In evaluation mode `GLUMask` treats the items of a batch one by one, in the sense required by the batch theorems of T-ISS (C128), AuxIVA-IP
(C129), AuxIVA-IP2 (C133) and FIVE (C132). -/
theorem glu_per_item [NeZero pool] (logSpec : Bool) (net : GluNet F K F pool k) (keep : ∀ B N, Fin B → Fin K → Fin N → Bool)
    (hF : 0 < F) (hN : 0 < N) (b : Shape) (s : ℕ) :
    ModelRep b s F N (gluT logSpec false keep) (gluItem logSpec net) (fun ts _ => ts = net) ∧
    FiveModelRep b F N (gluT logSpec false keep) (gluItem logSpec net) fun ts _ => ts = net :=
  ⟨netT_rep (net := fun net B N x => gluForwardMag logSpec net false (keep B N) x) (glu_ok logSpec net keep)
      (glu_item_eq logSpec net) hN hF b s,
    netT_five (net := fun net B N x => gluForwardMag logSpec net false (keep B N) x) (glu_ok logSpec net keep)
      (glu_item_eq logSpec net) hN hF b⟩

example (net : GluNet 129 64 129 2 3) :
    ModelRep [2, 3] 4 129 50 (gluT true false fun _ _ _ _ _ => true) (gluItem true net) (fun ts _ => ts = net) :=
  (glu_per_item true net _ (by norm_num) (by norm_num) [2, 3] 4).1

theorem glu_reim_per_item [NeZero pool] (logSpec : Bool) (net : GluNet (F + F) K F pool k)
    (keep : ∀ B N, Fin B → Fin K → Fin N → Bool) (hF : 0 < F) (hN : 0 < N) (b : Shape) (s : ℕ) :
    ModelRep b s F N (gluReImT logSpec false keep) (gluReImItem logSpec net) (fun ts _ => ts = net) ∧
    FiveModelRep b F N (gluReImT logSpec false keep) (gluReImItem logSpec net) fun ts _ => ts = net :=
  ⟨netT_rep (net := fun net B N x => gluForwardReIm logSpec net false (keep B N) x) (gluReIm_ok logSpec net keep)
      (gluReIm_item_eq logSpec net) hN hF b s,
    netT_five (net := fun net B N x => gluForwardReIm logSpec net false (keep B N) x) (gluReIm_ok logSpec net keep)
      (gluReIm_item_eq logSpec net) hN hF b⟩

example (net : GluNet (129 + 129) 64 129 2 3) :
    ModelRep [2, 3] 4 129 50 (gluReImT true false fun _ _ _ _ _ => true) (gluReImItem true net) (fun ts _ => ts = net) :=
  (glu_reim_per_item true net _ (by norm_num) (by norm_num) [2, 3] 4).1

/-- The same for `BLSTMMask`. -/
theorem blstm_per_item (mel : Fin F → Fin M → ℝ) (logSpec : Bool) (net : BlstmNet F M H)
    (keep : ∀ B N, ℕ → Fin N → Fin B → Fin (H + H) → Bool) (hF : 0 < F) (hN : 0 < N) (b : Shape) (s : ℕ) :
    ModelRep b s F N (blstmT mel logSpec false keep) (blstmItem mel logSpec net) (fun ts _ => ts = net) ∧
    FiveModelRep b F N (blstmT mel logSpec false keep) (blstmItem mel logSpec net) fun ts _ => ts = net :=
  ⟨netT_rep (net := fun net B N x => .ok (blstmForwardMag mel logSpec net false (keep B N) x, net))
      (blstm_ok mel logSpec net keep) (blstm_item_eq mel logSpec net) hN hF b s,
    netT_five (net := fun net B N x => .ok (blstmForwardMag mel logSpec net false (keep B N) x, net))
      (blstm_ok mel logSpec net keep) (blstm_item_eq mel logSpec net) hN hF b⟩

example (mel : Fin 129 → Fin 40 → ℝ) (net : BlstmNet 129 40 100) :
    ModelRep [2, 3] 4 129 50 (blstmT mel true false fun _ _ _ _ _ _ => true) (blstmItem mel true net) (fun ts _ => ts = net) :=
  (blstm_per_item mel true net _ (by norm_num) (by norm_num) [2, 3] 4).1

theorem blstm_reim_per_item (mel : Fin F → Fin M → ℝ) (net : BlstmNet F (M + M) H)
    (keep : ∀ B N, ℕ → Fin N → Fin B → Fin (H + H) → Bool) (hF : 0 < F) (hN : 0 < N) (b : Shape) (s : ℕ) :
    ModelRep b s F N (blstmReImT mel false keep) (blstmReImItem mel net) (fun ts _ => ts = net) ∧
    FiveModelRep b F N (blstmReImT mel false keep) (blstmReImItem mel net) fun ts _ => ts = net :=
  ⟨netT_rep (net := fun net B N x => .ok (blstmForwardReIm mel net false (keep B N) x, net))
      (blstmReIm_ok mel net keep) (blstmReIm_item_eq mel net) hN hF b s,
    netT_five (net := fun net B N x => .ok (blstmForwardReIm mel net false (keep B N) x, net))
      (blstmReIm_ok mel net keep) (blstmReIm_item_eq mel net) hN hF b⟩

example (mel : Fin 129 → Fin 40 → ℝ) (net : BlstmNet 129 (40 + 40) 100) :
    ModelRep [2, 3] 4 129 50 (blstmReImT mel false fun _ _ _ _ _ _ => true) (blstmReImItem mel net) (fun ts _ => ts = net) :=
  (blstm_reim_per_item mel net _ (by norm_num) (by norm_num) [2, 3] 4).1

/-- The same for `SimpleModel`. -/
theorem simple_per_item (net : SimpleNet F M H) (hF : 0 < F) (hN : 0 < N) (b : Shape) (s : ℕ) :
    ModelRep b s F N simpleT (simpleItem net) (fun ts _ => ts = net) ∧
    FiveModelRep b F N simpleT (simpleItem net) fun ts _ => ts = net :=
  ⟨netT_rep (net := fun (net : SimpleNet F M H) B N x => .ok (net.forward x, net)) (fun _ _ _ => rfl) (simple_item_eq net) hN hF b s,
    netT_five (net := fun (net : SimpleNet F M H) B N x => .ok (net.forward x, net)) (fun _ _ _ => rfl) (simple_item_eq net) hN hF b⟩

example (net : SimpleNet 129 40 100) : ModelRep [2, 3] 4 129 50 simpleT (simpleItem net) (fun ts _ => ts = net) :=
  (simple_per_item net (by norm_num) (by norm_num) [2, 3] 4).1

/-- **C137.**  In evaluation mode `MaskMVDRSupport` computes for every item of a batch the masks it computes for the item alone, arranged as
source, mask, frequency, frame. -/
theorem support_per_item (net : SupportNet F H S M) (keep : ∀ B N, ℕ → Fin N → Fin B → Fin (H + H) → Bool) (hF : 0 < F)
    (hN : 0 < N) (hM : 0 < M) (hS : 0 < S) {b : Shape} (hb : ∃ β, Inside β b) :
    MaskRep b S F N M (supportT net false keep) fun x => ⟨M, net.forward false (keep 1 N) (fun _ => x) 0⟩ := by
  refine supportT_rep net false keep (fun B B' x x' i i' h => ?_) hN hF hM hS hb
  funext j n
  unfold SupportNet.features
  simp only
  rw [blstm_item net.blstm net.dropoutP _ (keep B' N) _ (fun n b f => Real.log (1 + ‖x' b f n‖)) i i' (fun n => by
    funext f
    simp only [h]) n]

/-- **C137, in T-ISS (partial: only after `.eval()`).**  A batch of recordings separated by T-ISS with `GLUMask`, both feature options, is
separated item by item. -/
theorem glu_recordings_batch_partial [NeZero pool] (nFft : ℕ) (hop : Option ℕ) (w : Fin nFft → ℝ) (p : TissParams)
    (nSrc : Option ℕ) (hs : nSrc.getD C ≤ C) (hs0 : 0 < nSrc.getD C) (logSpec : Bool)
    (net : GluNet (nFft / 2 + 1) K (nFft / 2 + 1) pool k)
    (net' : GluNet (nFft / 2 + 1 + (nFft / 2 + 1)) K (nFft / 2 + 1) pool k)
    (keep : ∀ B N, Fin B → Fin K → Fin N → Bool) (x : Ten ℝ) (hx : x.shape = n :: C :: b) (hb : ∃ β, Inside β b)
    (hmic : ∀ mic ∈ p.projBackMic, 0 < p.nIter → ¬ (nSrc.getD C ≤ mic ∧ mic < C ∧ b ≠ [])) :
    AsAlone b IsItem (separateT nFft hop w (fun X => tissForwardT p nSrc (gluT logSpec false keep) id net X >>= fun r => .ok r.Y) x)
      (fun β => separateT nFft hop w (fun X => tissForwardT p nSrc (gluT logSpec false keep) id net X >>= fun r => .ok r.Y)
        (x.itemAt 2 β)) ∧
    AsAlone b IsItem (separateT nFft hop w (fun X => tissForwardT p nSrc (gluReImT logSpec false keep) id net' X >>= fun r => .ok r.Y) x)
      (fun β => separateT nFft hop w (fun X => tissForwardT p nSrc (gluReImT logSpec false keep) id net' X >>= fun r => .ok r.Y)
        (x.itemAt 2 β)) := by
  have hN : 0 < stftFrames nFft (hopOf nFft hop) n := by unfold stftFrames; positivity
  have hF := Nat.succ_pos (nFft / 2)
  exact ⟨tiss_recordings_batch nFft hop w p nSrc hs hs0 (glu_per_item logSpec net keep hF hN b _).1
      (glu_per_item logSpec net keep hF hN [] _).1 id id net (fun _ => net) (fun _ => ()) rfl (fun _ => rfl) x hx hb hmic,
    tiss_recordings_batch nFft hop w p nSrc hs hs0 (glu_reim_per_item logSpec net' keep hF hN b _).1
      (glu_reim_per_item logSpec net' keep hF hN [] _).1 id id net' (fun _ => net') (fun _ => ()) rfl (fun _ => rfl) x hx hb hmic⟩

/-- **C137, in the beamformers (partial: only after `.eval()`).**  A batch of recordings beamformed with `MaskMVDRSupport` is beamformed item
by item. -/
theorem support_recordings_batch_partial (nFft : ℕ) (hop : Option ℕ) (w : Fin nFft → ℝ) [NeZero C] (hS : 0 < S) (hM : 0 < M)
    (net : SupportNet (nFft / 2 + 1) H S M) (keep : ∀ B N, ℕ → Fin N → Fin B → Fin (H + H) → Bool) (solver : Solver)
    (ref : Fin C) (eps : ℝ) (mvdrType : String) (nPower : Option ℕ) (timeInvariant : Bool) (x : Ten ℝ)
    (hx : x.shape = n :: C :: b) (hb : ∃ β, Inside β b) :
    AsAloneOk b IsItem (separateT nFft hop w (mvdrForwardT solver (supportT net false keep) ref eps mvdrType nPower) x)
      (fun β => separateT nFft hop w (mvdrForwardT solver (supportT net false keep) ref eps mvdrType nPower) (x.itemAt 2 β)) ∧
    AsAloneOk b IsItem (separateT nFft hop w (mwfForwardT (supportT net false keep) ref timeInvariant) x)
      (fun β => separateT nFft hop w (mwfForwardT (supportT net false keep) ref timeInvariant) (x.itemAt 2 β)) ∧
    AsAloneOk b IsItem (separateT nFft hop w (gevForwardT solver (supportT net false keep) ref) x)
      (fun β => separateT nFft hop w (gevForwardT solver (supportT net false keep) ref) (x.itemAt 2 β)) := by
  have hN : 0 < stftFrames nFft (hopOf nFft hop) n := by unfold stftFrames; positivity
  have hF := Nat.succ_pos (nFft / 2)
  exact beamformer_recordings_batch nFft hop w hS (support_per_item net keep hF hN hM hS hb)
    (support_per_item net keep hF hN hM hS ⟨[], trivial⟩) solver ref eps mvdrType nPower timeInvariant x hx hb

/-- Hypotheses met: six recordings with three channels, a network for frames of 256 samples. -/
example (l : GluSub 129 64 2) (l' : GluSub (129 + 129) 64 2) (m : GluSub 64 64 2) (o : Conv 64 129 3) (x : Ten ℝ)
    (hx : x.shape = [16000, 3, 2, 3]) :
    AsAlone [2, 3] IsItem (separateT 256 none (hann 256) (fun X => tissForwardT ⟨10, 2, 1, some 0, true, 1e-3⟩ (some 2)
        (gluT true false fun _ _ _ _ _ => true) id (⟨l, [m, m], [m, m], o, 0.5⟩ : GluNet 129 64 129 2 3) X >>= fun r => .ok r.Y) x) fun β =>
      separateT 256 none (hann 256) (fun X => tissForwardT ⟨10, 2, 1, some 0, true, 1e-3⟩ (some 2)
        (gluT true false fun _ _ _ _ _ => true) id (⟨l, [m, m], [m, m], o, 0.5⟩ : GluNet 129 64 129 2 3) X >>= fun r => .ok r.Y)
        (x.itemAt 2 β) :=
  (glu_recordings_batch_partial (C := 3) (n := 16000) 256 none (hann 256) _ (some 2) (by decide) (by decide) true
    (⟨l, [m, m], [m, m], o, 0.5⟩ : GluNet 129 64 129 2 3) ⟨l', [m, m], [m, m], o, 0.5⟩ _ x hx ⟨[0, 0], by simp [Inside]⟩ (by simp)).1

/-- Hypotheses met: masks for two sources, three masks each. -/
example (c : BiLstm 129 100) (d : BiLstm (100 + 100) 100) (f1 : Linear (100 + 100) (100 + 100)) (f2 : Linear (100 + 100) (3 * 2 * 129))
    (solver : Solver) (x : Ten ℝ) (hx : x.shape = [16000, 3, 2, 3]) :
    AsAloneOk [2, 3] IsItem (separateT 256 none (hann 256) (mvdrForwardT solver (supportT
        (⟨⟨c, [d, d]⟩, f1, f2, 0.5, 1e-3⟩ : SupportNet 129 100 2 3) false fun _ _ _ _ _ _ => true) (0 : Fin 3) 1e-5 "scm" none) x)
      (fun β => separateT 256 none (hann 256) (mvdrForwardT solver (supportT
        (⟨⟨c, [d, d]⟩, f1, f2, 0.5, 1e-3⟩ : SupportNet 129 100 2 3) false fun _ _ _ _ _ _ => true) (0 : Fin 3) 1e-5 "scm" none)
        (x.itemAt 2 β)) :=
  (support_recordings_batch_partial (n := 16000) 256 none (hann 256) (by norm_num) (by norm_num) _ _ solver (0 : Fin 3) 1e-5 "scm" none
    true x hx ⟨[0, 0], by simp [Inside]⟩).1

/-! ## Training mode -/

/-- **C137 is violated** in training mode, the mode of loaded separators: two batches of two recordings that have the first recording in common;
the weights of the first recording are different. -/
theorem glu_batch_violated (logSpec : Bool) : ∃ (net : GluNet 1 1 1 1 1) (X X' : Ten ℂ) (w w' : Ten ℝ) (t t' : GluNet 1 1 1 1 1),
    X.shape = [1, 1, 1, 2] ∧ X'.shape = [1, 1, 1, 2] ∧ IsItem [0] X (X'.itemAt 3 [0]) ∧
    gluT logSpec loadedTraining (fun _ _ _ _ _ => true) net X = .ok (w, t) ∧
    gluT logSpec loadedTraining (fun _ _ _ _ _ => true) net X' = .ok (w', t') ∧
    w.val [0, 0, 0, 0] ≠ w'.val [0, 0, 0, 0] := by
  obtain ⟨X, X', w, w', m, m', h0, h1, h2, h3⟩ := loaded_items_violated logSpec
  have key : ∀ (X : Sig 2 1 1) (w m), gluForwardMag logSpec Demo.unitNet loadedTraining (fun _ _ _ => true) X = .ok (w, m) →
      ∃ r t, gluT logSpec loadedTraining (fun _ _ _ _ _ => true) Demo.unitNet
        ⟨[1, 1, 1, 2], fun idx => X ⟨idx.getD 3 0 % 2, Nat.mod_lt _ (by norm_num)⟩ 0 0⟩ = .ok (r, t) ∧
        r.val [0, 0, 0, 0] = w 0 0 0 := by
    intro X w m h
    have hf : flatSig ⟨[1, 1, 1, 2], fun idx => X ⟨idx.getD 3 0 % 2, Nat.mod_lt _ (by norm_num)⟩ 0 0⟩ 1 1 [1, 2] = X := by
      funext i f n
      obtain rfl := Subsingleton.elim f 0
      obtain rfl := Subsingleton.elim n 0
      have hi : i.1 < 2 := i.2
      simp only [flatSig, unflatIdx, List.getD_cons_succ, List.getD_cons_zero]
      congr 1
      apply Fin.ext
      simp
      omega
    have := netT_val (X := ⟨[1, 1, 1, 2], fun idx => X ⟨idx.getD 3 0 % 2, Nat.mod_lt _ (by norm_num)⟩ 0 0⟩) (F := 1) (N := 1)
      (bs := [1, 2]) rfl (by norm_num) (by norm_num)
      fun B N x => gluForwardMag logSpec Demo.unitNet loadedTraining (fun _ _ _ => true) x
    rw [hf] at this
    have h' : gluForwardMag (B := numel [1, 2]) logSpec Demo.unitNet loadedTraining (fun _ _ _ => true) X = .ok (w, m) := h
    rw [h'] at this
    obtain ⟨r, e, -, hv⟩ := this
    exact ⟨r, m, e, hv [0, 0] (by simp [Inside]) 0 0⟩
  obtain ⟨r, t, e, hr⟩ := key X w m h1
  obtain ⟨r', t', e', hr'⟩ := key X' w' m' h2
  refine ⟨Demo.unitNet, _, _, r, r', t, t', rfl, rfl, ⟨rfl, fun idx h => ?_⟩, e, e', ?_⟩
  · match idx, h with
    | [a, b, c], h => exact (congrFun (congrFun h0 0) 0).symm
  · rw [hr, hr']
    intro h
    exact h3 (by
      funext f n
      obtain rfl := Subsingleton.elim f 0
      obtain rfl := Subsingleton.elim n 0
      exact h)

/-- **C137 (other inputs).**  Whatever the layers, a batch with another number of frequencies than that of the network raises `RuntimeError`. -/
theorem networks_other_frequencies {τ : Type} {F N f : ℕ} {bs : Shape} (X : Ten ℂ) (hX : X.shape = N :: f :: bs) (hN : 0 < N) (hf : 0 < f)
    (hF : f ≠ F) (net : ∀ B N, Sig B F N → Except Err (Weights B F N × τ)) : netT net X = .error .runtimeError := by
  obtain ⟨Xf, e, -, -⟩ := flatT_two hX hN hf
  unfold netT
  simp only [hX]
  rw [e, ok_bind']
  simp only [if_neg hF]

example (net : ∀ B N, Sig B 513 N → Except Err (Weights B 513 N × Unit)) (v : List ℕ → ℂ) :
    netT net ⟨[100, 257, 2, 4], v⟩ = .error .runtimeError :=
  networks_other_frequencies _ rfl (by norm_num) (by norm_num) (by norm_num) net

end Torchiva.Props
