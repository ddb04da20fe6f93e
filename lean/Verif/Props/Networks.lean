import Verif.Model.Networks
import Verif.Props.Models
import Verif.Props.Contrast

/-! # C117- : the neural source models with their layers -/

namespace Torchiva.Props

open Torchiva

variable {B B' N I O F K pool k : ℕ}

/-! ## Locality of the layers in evaluation mode -/

/-- Two sequences agree on the frames at distance at most `r` of frame `n`. -/
private def Agree (x x' : Fin I → Fin N → ℝ) (n r : ℕ) : Prop := ∀ i (m : Fin N), n ≤ m.1 + r → m.1 ≤ n + r → x i m = x' i m

private lemma Agree.mono {x x' : Fin I → Fin N → ℝ} {n r r' : ℕ} (h : Agree x x' n r') (hr : r ≤ r') : Agree x x' n r :=
  fun i m h1 h2 => h i m (by omega) (by omega)

private lemma conv_agree (c : Conv I O k) (t : Bool) (x x' : Fin I → Fin N → ℝ) (n r : ℕ) (h : Agree x x' n (r + k / 2)) :
    Agree (c.apply t x) (c.apply t x') n r := by
  intro o m h1 h2
  unfold Conv.apply
  refine congrArg (c.bias o + ·) (Finset.sum_congr rfl fun i _ => Finset.sum_congr rfl fun j _ => congrArg (c.weight i o j * ·) ?_)
  have hj := j.2
  unfold readZ
  split_ifs with ht hh hh
  · exact h i _ (by simp only; omega) (by simp only; omega)
  · rfl
  · exact h i _ (by simp only; omega) (by simp only; omega)
  · rfl

private lemma sub_agree [NeZero pool] (l : GluSub I O pool) (t : Bool) (x : Fin B → Fin I → Fin N → ℝ) (x' : Fin B' → Fin I → Fin N → ℝ)
    (b : Fin B) (b' : Fin B') (n r : ℕ) (h : Agree (x b) (x' b') n (r + 1)) :
    Agree ((l.forward t false x).1 b) ((l.forward t false x').1 b') n r := by
  have hg := conv_agree l.gate t (x b) (x' b') n r h
  have hl := conv_agree l.lin t (x b) (x' b') n r h
  intro o m h1 h2
  simp only [GluSub.forward, BatchNorm.forward, poolChannels]
  refine Finset.sup'_congr _ rfl fun p _ => ?_
  rw [hg _ m h1 h2, hl _ m h1 h2]
  rfl

private lemma sub_eval [NeZero pool] (l : GluSub I O pool) (t : Bool) (x : Fin B → Fin I → Fin N → ℝ) : (l.forward t false x).2 = l := rfl

private lemma layer_agree [NeZero pool] (l : GluLayer K pool) (x : Fin B → Fin K → Fin N → ℝ) (x' : Fin B' → Fin K → Fin N → ℝ)
    (b : Fin B) (b' : Fin B') (n r : ℕ) (h : Agree (x b) (x' b') n (r + l.length)) :
    Agree ((GluLayer.forward false l x).1 b) ((GluLayer.forward false l x').1 b') n r := by
  induction l generalizing x x' with
  | nil => exact h
  | cons s l ih =>
    unfold GluLayer.forward
    exact ih _ _ (sub_agree s false x x' b b' n _ (h.mono (by rw [List.length_cons]; omega)))

private lemma layer_eval [NeZero pool] (l : GluLayer K pool) (x : Fin B → Fin K → Fin N → ℝ) : (GluLayer.forward false l x).2 = l := by
  induction l generalizing x with
  | nil => rfl
  | cons s l ih =>
    unfold GluLayer.forward
    simp only [ih, sub_eval]

private lemma net_agree [NeZero pool] (net : GluNet I K F pool k) (keep keep') (x : Fin B → Fin I → Fin N → ℝ) (x' : Fin B' → Fin I → Fin N → ℝ)
    (b : Fin B) (b' : Fin B') (n r : ℕ) (h : Agree (x b) (x' b') n (r + (1 + net.second.length + net.third.length + k / 2))) :
    Agree ((net.forward false keep x).1 b) ((net.forward false keep' x').1 b') n r := by
  unfold GluNet.forward
  simp only [dropout, Bool.false_eq_true, if_false]
  refine conv_agree _ _ _ _ _ _ (layer_agree _ _ _ _ _ _ _ (layer_agree _ _ _ _ _ _ _ (sub_agree _ _ _ _ _ _ _ _ (h.mono (by omega)))))

private lemma net_eval [NeZero pool] (net : GluNet I K F pool k) (keep) (x : Fin B → Fin I → Fin N → ℝ) : (net.forward false keep x).2 = net := by
  unfold GluNet.forward
  simp only [layer_eval, sub_eval]

private lemma power_agree (logSpec : Bool) (X : Sig B F N) (X' : Sig B' F N) (b : Fin B) (b' : Fin B') (n r : ℕ)
    (hp : ∑ f, ∑ n, ‖X b f n‖ ^ 2 = ∑ f, ∑ n, ‖X' b' f n‖ ^ 2) (h : ∀ f (m : Fin N), n ≤ m.1 + r → m.1 ≤ n + r → X b f m = X' b' f m) :
    Agree (gluLog logSpec (gluPower X) b) (gluLog logSpec (gluPower X') b') n r := by
  intro f m h1 h2
  unfold gluLog gluPower
  simp only [magSq_eq, hp, h f m h1 h2]

private lemma reim_agree (logSpec : Bool) (X : Sig B F N) (X' : Sig B' F N) (b : Fin B) (b' : Fin B') (n r : ℕ)
    (hp : ∑ f, ∑ n, ‖X b f n‖ ^ 2 = ∑ f, ∑ n, ‖X' b' f n‖ ^ 2) (h : ∀ f (m : Fin N), n ≤ m.1 + r → m.1 ≤ n + r → X b f m = X' b' f m) :
    Agree (gluLog logSpec (gluReIm X) b) (gluLog logSpec (gluReIm X') b') n r := by
  intro i m h1 h2
  unfold gluLog gluReIm
  simp only [magSq_eq, hp, h _ m h1 h2]

/-! ## C117 the same recording, the same result -/

/-- **C117 (partial: only after `.eval()`).**  In evaluation mode `GLUMask` does not depend on the random draws and is not modified by being
used; it accepts every recording. -/
theorem glu_deterministic_partial [NeZero pool] (logSpec : Bool) (net : GluNet F K F pool k) (net' : GluNet (F + F) K F pool k) (X : Sig B F N) :
    (∃ w, ∀ keep, gluForwardMag logSpec net false keep X = .ok (w, net)) ∧
    (∃ w, ∀ keep, gluForwardReIm logSpec net' false keep X = .ok (w, net')) := by
  constructor
  · refine ⟨gluMaskMag logSpec (fun x => (net.forward false (fun _ _ _ => true) x).1) X, fun keep => ?_⟩
    unfold gluForwardMag
    rw [if_neg (by simp), net_eval]
    rfl
  · refine ⟨gluMaskReIm logSpec (fun x => (net'.forward false (fun _ _ _ => true) x).1) X, fun keep => ?_⟩
    unfold gluForwardReIm
    rw [if_neg (by simp), net_eval]
    rfl

/-! ## C118 items are treated independently -/

/-- **C118 (`GLUMask`, partial: only after `.eval()`).**  The mask of an item depends on that item only: wherever it is in a batch, and
whatever the batch (other recordings, or the other sources of the same recording), it gets the same mask. -/
theorem glu_items_partial [NeZero pool] (logSpec : Bool) (net : GluNet F K F pool k) (net' : GluNet (F + F) K F pool k)
    (X : Sig B F N) (X' : Sig B' F N) (b : Fin B) (b' : Fin B') (h : X b = X' b') (keep keep') (w w' v v' m m' u u')
    (hw : gluForwardMag logSpec net false keep X = .ok (w, m)) (hw' : gluForwardMag logSpec net false keep' X' = .ok (w', m'))
    (hv : gluForwardReIm logSpec net' false keep X = .ok (v, u)) (hv' : gluForwardReIm logSpec net' false keep' X' = .ok (v', u')) :
    w b = w' b' ∧ v b = v' b' := by
  unfold gluForwardMag at hw hw'
  unfold gluForwardReIm at hv hv'
  rw [if_neg (by simp)] at hw hw' hv hv'
  have hw := (Prod.mk.inj (Except.ok.inj hw)).1
  have hw' := (Prod.mk.inj (Except.ok.inj hw')).1
  have hv := (Prod.mk.inj (Except.ok.inj hv)).1
  have hv' := (Prod.mk.inj (Except.ok.inj hv')).1
  subst hw hw' hv hv'
  constructor <;> funext f n
  · unfold gluMaskMag
    simp only
    rw [net_agree net keep keep' _ _ b b' n.1 0 (power_agree logSpec X X' b b' _ _ (by rw [h]) fun f m _ _ => by rw [h]) f n (by omega) (by omega)]
  · unfold gluMaskReIm
    simp only
    rw [net_agree net' keep keep' _ _ b b' n.1 0 (reim_agree logSpec X X' b b' _ _ (by rw [h]) fun f m _ _ => by rw [h]) f n (by omega) (by omega)]

/-- The same recording alone, and second in a batch of two. -/
example [NeZero pool] (net : GluNet 1 K 1 pool k) (net' : GluNet (1 + 1) K 1 pool k) :
    ∃ w w', gluForwardMag true net false (fun _ _ _ => true) (fun (_ : Fin 1) _ (n : Fin 3) => (n.1 : ℂ)) = .ok (w, net) ∧
      gluForwardMag true net false (fun _ _ _ => true) (fun (b : Fin 2) _ (n : Fin 3) => (b.1 * n.1 : ℂ)) = .ok (w', net) ∧ w 0 = w' 1 := by
  obtain ⟨⟨w, hw⟩, ⟨v, hv⟩⟩ := glu_deterministic_partial true net net' (fun (_ : Fin 1) _ (n : Fin 3) => (n.1 : ℂ))
  obtain ⟨⟨w', hw'⟩, ⟨v', hv'⟩⟩ := glu_deterministic_partial true net net' (fun (b : Fin 2) _ (n : Fin 3) => (b.1 * n.1 : ℂ))
  exact ⟨w, w', hw _, hw' _, (glu_items_partial true net net' _ _ 0 1 (by funext f n; simp) (fun _ _ _ => true) (fun _ _ _ => true) _ _ _ _ _ _ _ _ (hw _) (hw' _) (hv _) (hv' _)).1⟩

/-- **C118 (`SimpleModel`).**  The mask of an item depends on that item only, and even its mask at a frame depends on that frame only. -/
theorem simple_items {M H : ℕ} (net : SimpleNet F M H) (X : Sig B F N) {N' : ℕ} (X' : Sig B' F N') (b : Fin B) (b' : Fin B') (n : Fin N) (n' : Fin N')
    (h : ∀ f, X b f n = X' b' f n') (f : Fin F) : net.forward X b f n = net.forward X' b' f n' := by
  unfold SimpleNet.forward simpleMask
  simp only [h]

/-- A frame that occurs in two different recordings. -/
example {M H : ℕ} (net : SimpleNet 1 M H) : net.forward (fun (_ : Fin 1) _ (n : Fin 2) => (n.1 : ℂ)) 0 0 1 =
    net.forward (fun (b : Fin 3) _ (_ : Fin 1) => (b.1 : ℂ)) 1 0 0 := simple_items net _ _ _ _ _ _ (fun f => by simp) 0

private lemma bi_item {H : ℕ} (l : BiLstm I H) (x : Fin N → Fin B → Fin I → ℝ) (x' : Fin N → Fin B' → Fin I → ℝ) (b : Fin B) (b' : Fin B')
    (h : ∀ n, x n b = x' n b') (n : Fin N) : l.apply x n b = l.apply x' n b' := by
  unfold BiLstm.apply
  simp only [h]

private lemma rest_item {H : ℕ} (p : ℝ) (ls : List (BiLstm (H + H) H)) (keep keep') (x : Fin N → Fin B → Fin (H + H) → ℝ)
    (x' : Fin N → Fin B' → Fin (H + H) → ℝ) (b : Fin B) (b' : Fin B') (h : ∀ n, x n b = x' n b') (n : Fin N) :
    blstmRest p false ls keep x n b = blstmRest p false ls keep' x' n b' := by
  induction ls generalizing x x' keep keep' with
  | nil => exact h n
  | cons l ls ih =>
    unfold blstmRest
    refine ih _ _ _ _ fun n => bi_item l _ _ b b' (fun n => ?_) n
    funext j
    simp only [Bool.false_eq_true, if_false, h]

lemma blstm_item {H : ℕ} (l : Blstm I H) (p : ℝ) (keep keep') (x : Fin N → Fin B → Fin I → ℝ) (x' : Fin N → Fin B' → Fin I → ℝ)
    (b : Fin B) (b' : Fin B') (h : ∀ n, x n b = x' n b') (n : Fin N) : l.apply p false keep x n b = l.apply p false keep' x' n b' :=
  rest_item p l.rest keep keep' _ _ b b' (bi_item l.first x x' b b' h) n

/-- **C117, C118 (recurrent models, partial: only after `.eval()`).**  In evaluation mode the masks of `BLSTMMask` (both feature options) and of
`MaskMVDRSupport` for an item depend on that item only, not on the rest of the batch nor on the random draws. -/
theorem blstm_items_partial {M H S : ℕ} (mel : Fin F → Fin M → ℝ) (logSpec : Bool) (net : BlstmNet F M H) (net' : BlstmNet F (M + M) H)
    (sup : SupportNet F H S M) (X : Sig B F N) (X' : Sig B' F N) (b : Fin B) (b' : Fin B') (h : X b = X' b') (keep keep') :
    blstmForwardMag mel logSpec net false keep X b = blstmForwardMag mel logSpec net false keep' X' b' ∧
    blstmForwardReIm mel net' false keep X b = blstmForwardReIm mel net' false keep' X' b' ∧
    sup.forward false keep X b = sup.forward false keep' X' b' := by
  refine ⟨?_, ?_, ?_⟩
  · funext f n
    unfold blstmForwardMag blstmMask BlstmNet.forward
    simp only
    rw [blstm_item net.blstm net.dropoutP keep keep' _ (fun n b i => melPower mel logSpec X' b i n) b b' (fun n => by
      funext i
      unfold melPower
      simp only [h]) n]
  · funext f n
    unfold blstmForwardReIm blstmMask BlstmNet.forward
    simp only
    rw [blstm_item net'.blstm net'.dropoutP keep keep' _ (fun n b i => melReIm mel X' b i n) b b' (fun n => by
      funext i
      unfold melReIm
      simp only [h]) n]
  · funext s m f n
    unfold SupportNet.forward maskMvdrSupport
    simp only
    rw [blstm_item sup.blstm sup.dropoutP keep keep' _ (fun n b f => Real.log (1 + ‖X' b f n‖)) b b' (fun n => by
      funext i
      simp only [h]) n]

/-- The same recording alone, and second in a batch of two. -/
example {M H : ℕ} (mel : Fin 1 → Fin M → ℝ) (net : BlstmNet 1 M H) (net' : BlstmNet 1 (M + M) H) (sup : SupportNet 1 H 2 M) :
    blstmForwardMag mel true net false (fun _ _ _ _ => true) (fun (_ : Fin 1) _ (n : Fin 3) => (n.1 : ℂ)) 0 =
    blstmForwardMag mel true net false (fun _ _ _ _ => false) (fun (b : Fin 2) _ (n : Fin 3) => (b.1 * n.1 : ℂ)) 1 :=
  (blstm_items_partial mel true net net' sup _ _ 0 1 (by funext f n; simp) _ _).1

/-! ## C119 how far a mask looks -/

/-- **C119.** In evaluation mode the mask of `GLUMask` at a frame depends on the frames at distance at most `1 + 2 n_sublayers +
kernel_size // 2`, and on the level of the whole recording. -/
theorem glu_receptive_field [NeZero pool] (logSpec : Bool) (net : GluNet F K F pool k) (net' : GluNet (F + F) K F pool k) (nSub : ℕ)
    (h2 : net.second.length = nSub ∧ net.third.length = nSub ∧ net'.second.length = nSub ∧ net'.third.length = nSub)
    (X X' : Sig B F N) (b : Fin B) (n : Fin N) (hp : ∑ f, ∑ m, ‖X b f m‖ ^ 2 = ∑ f, ∑ m, ‖X' b f m‖ ^ 2)
    (h : ∀ f m, n.1 ≤ m.1 + (1 + 2 * nSub + k / 2) → m.1 ≤ n.1 + (1 + 2 * nSub + k / 2) → X b f m = X' b f m)
    (keep keep') (w w' v v' m m' u u')
    (hw : gluForwardMag logSpec net false keep X = .ok (w, m)) (hw' : gluForwardMag logSpec net false keep' X' = .ok (w', m'))
    (hv : gluForwardReIm logSpec net' false keep X = .ok (v, u)) (hv' : gluForwardReIm logSpec net' false keep' X' = .ok (v', u')) :
    ∀ f, w b f n = w' b f n ∧ v b f n = v' b f n := by
  unfold gluForwardMag at hw hw'
  unfold gluForwardReIm at hv hv'
  rw [if_neg (by simp)] at hw hw' hv hv'
  have hw := (Prod.mk.inj (Except.ok.inj hw)).1
  have hw' := (Prod.mk.inj (Except.ok.inj hw')).1
  have hv := (Prod.mk.inj (Except.ok.inj hv)).1
  have hv' := (Prod.mk.inj (Except.ok.inj hv')).1
  subst hw hw' hv hv'
  intro f
  constructor
  · unfold gluMaskMag
    simp only
    rw [net_agree net keep keep' _ _ b b n.1 0 (power_agree logSpec X X' b b _ _ hp fun f m h1 h2 => h f m (by omega) (by omega)) f n (by omega) (by omega)]
  · unfold gluMaskReIm
    simp only
    rw [net_agree net' keep keep' _ _ b b n.1 0 (reim_agree logSpec X X' b b _ _ hp fun f m h1 h2 => h f m (by omega) (by omega)) f n (by omega) (by omega)]

/-- One sublayer, kernel size 3: frame 0 does not see whether the pulse is at frame 5 or at frame 6. -/
example [NeZero pool] (l : GluSub 1 K pool) (l' : GluSub (1 + 1) K pool) (s : GluSub K K pool) (c : Conv K 1 3) :
    ∃ w w', gluForwardMag true ⟨l, [s], [s], c, 1 / 2⟩ false (fun _ _ _ => true) (fun (_ : Fin 1) (_ : Fin 1) (n : Fin 7) => if n = 5 then (1 : ℂ) else 0) = .ok (w, ⟨l, [s], [s], c, 1 / 2⟩) ∧
      gluForwardMag true ⟨l, [s], [s], c, 1 / 2⟩ false (fun _ _ _ => true) (fun (_ : Fin 1) (_ : Fin 1) (n : Fin 7) => if n = 6 then (1 : ℂ) else 0) = .ok (w', ⟨l, [s], [s], c, 1 / 2⟩) ∧
      w 0 0 0 = w' 0 0 0 := by
  obtain ⟨⟨w, hw⟩, ⟨v, hv⟩⟩ := glu_deterministic_partial true ⟨l, [s], [s], c, 1 / 2⟩ ⟨l', [s], [s], c, 1 / 2⟩
    (fun (_ : Fin 1) (_ : Fin 1) (n : Fin 7) => if n = 5 then (1 : ℂ) else 0)
  obtain ⟨⟨w', hw'⟩, ⟨v', hv'⟩⟩ := glu_deterministic_partial true ⟨l, [s], [s], c, 1 / 2⟩ ⟨l', [s], [s], c, 1 / 2⟩
    (fun (_ : Fin 1) (_ : Fin 1) (n : Fin 7) => if n = 6 then (1 : ℂ) else 0)
  refine ⟨w, w', hw _, hw' _, (glu_receptive_field true ⟨l, [s], [s], c, 1 / 2⟩ ⟨l', [s], [s], c, 1 / 2⟩ 1 ⟨rfl, rfl, rfl, rfl⟩ _ _ 0 0 ?_ ?_ (fun _ _ _ => true) (fun _ _ _ => true) _ _ _ _ _ _ _ _
    (hw _) (hw' _) (hv _) (hv' _) 0).1⟩
  · simp only [apply_ite norm, norm_one, norm_zero, ite_pow, one_pow]
    simp
  · intro f m _ h
    have : m.1 ≤ 4 := by simpa using h
    rw [if_neg (fun e => by rw [e] at this; simp at this), if_neg (fun e => by rw [e] at this; simp at this)]

/-! ## The network of the witnesses: one frequency, one channel, all gates half open -/

namespace Demo

/-- The middle tap is one, the others are zero. -/
noncomputable def tap (k : ℕ) : Conv 1 1 k := ⟨fun _ _ j => if j.1 = k / 2 then 1 else 0, fun _ => 0⟩

/-- All taps have the same weight. -/
noncomputable def flat (k : ℕ) (w : ℝ) : Conv 1 1 k := ⟨fun _ _ _ => w, fun _ => 0⟩

noncomputable def unitBn : BatchNorm 1 := ⟨fun _ => 1, fun _ => 0, fun _ => 0, fun _ => 1⟩

noncomputable def unitSub (c : Conv 1 1 3) : GluSub 1 1 1 := ⟨c, unitBn, flat 3 0, unitBn⟩

/-- `GLUMask(1, 1, pool_size=1, kernel_size=1)`, with dropout of one half. -/
noncomputable def unitNet : GluNet 1 1 1 1 1 := ⟨unitSub (tap 3), [unitSub (tap 3)], [unitSub (tap 3)], tap 1, 1 / 2⟩

variable [NeZero B] [NeZero N]

lemma tap_apply (x : Fin 1 → Fin N → ℝ) (t : Bool) (k : ℕ) (hk : k % 2 = 1) (o : Fin 1) (n : Fin N) : (tap k).apply t x o n = x 0 n := by
  unfold Conv.apply tap
  simp only [Fin.sum_univ_one, zero_add]
  rw [Finset.sum_eq_single ⟨k / 2, by omega⟩]
  · simp only [if_true, one_mul]
    have e : (if t = true then (n : ℤ) + ((k / 2 : ℕ) : ℤ) - ((k / 2 : ℕ) : ℤ) else (n : ℤ) + ((k / 2 : ℕ) : ℤ) - ((k / 2 : ℕ) : ℤ)) = n := by
      split_ifs <;> ring
    rw [e]
    unfold readZ
    rw [dif_pos ⟨by omega, by have := n.2; omega⟩]
    rfl
  · intro j _ hj
    rw [if_neg (fun h => hj (Fin.ext h)), zero_mul]
  · intro h; exact absurd (Finset.mem_univ _) h

lemma count_ne : ((B : ℝ) * N) ≠ 0 := mul_ne_zero (Nat.cast_ne_zero.2 (NeZero.ne B)) (Nat.cast_ne_zero.2 (NeZero.ne N))

lemma batchMean_const (x : Fin B → Fin 1 → Fin N → ℝ) (a : ℝ) (h : ∀ b n, x b 0 n = a) : batchMean x 0 = a := by
  unfold batchMean
  simp only [h, Finset.sum_const, Finset.card_univ, Fintype.card_fin, nsmul_eq_mul]
  rw [← mul_assoc, mul_div_assoc, mul_comm, div_mul_cancel₀ _ count_ne]

lemma unitSub_train (x : Fin B → Fin 1 → Fin N → ℝ) (b : Fin B) (o : Fin 1) (n : Fin N) :
    ((unitSub (tap 3)).forward false true x).1 b o n = (x b 0 n - batchMean x 0) / √(batchVar x 0 + 1e-5) / 2 := by
  obtain rfl : o = 0 := Subsingleton.elim _ _
  have hg : (fun b => (unitSub (tap 3)).gate.apply false (x b)) = fun _ _ _ => 0 := by
    funext b o n
    simp [Conv.apply, unitSub, flat]
  have hl : (fun b => (unitSub (tap 3)).lin.apply false (x b)) = x := by
    funext b o n
    obtain rfl : o = (0 : Fin 1) := Subsingleton.elim (α := Fin 1) _ _
    exact tap_apply (x b) false 3 rfl 0 n
  unfold GluSub.forward
  simp only [hg, hl]
  unfold poolChannels
  have hm : batchMean (fun (_ : Fin B) (_ : Fin (1 * 1)) (_ : Fin N) => (0 : ℝ)) 0 = 0 := batchMean_const _ 0 fun _ _ => rfl
  simp only [BatchNorm.forward, if_true, unitSub, unitBn, mul_one, add_zero]
  have e : ∀ (g : Fin 1 → ℝ), Finset.univ.sup' Finset.univ_nonempty g = g 0 := fun g => le_antisymm
    (Finset.sup'_le _ _ fun p _ => by rw [Subsingleton.elim p 0]) (Finset.le_sup' g (Finset.mem_univ 0))
  rw [e]
  have i0 : (finProdFinEquiv ((0 : Fin 1), (0 : Fin 1)) : Fin (1 * 1)) = (0 : Fin 1) := Subsingleton.elim (α := Fin 1) _ _
  rw [i0, hm]
  unfold sigmoid
  norm_num
  ring

lemma unitSub_lt (x : Fin B → Fin 1 → Fin N → ℝ) (b b' : Fin B) (n n' : Fin N) (h : x b 0 n < x b' 0 n') :
    ((unitSub (tap 3)).forward false true x).1 b 0 n < ((unitSub (tap 3)).forward false true x).1 b' 0 n' := by
  rw [unitSub_train, unitSub_train]
  have hv : 0 < √(batchVar x 0 + 1e-5) := Real.sqrt_pos.2 (by
    have : 0 ≤ batchVar x 0 := div_nonneg (Finset.sum_nonneg fun _ _ => Finset.sum_nonneg fun _ _ => sq_nonneg _) (by positivity)
    linarith)
  gcongr

lemma unitSub_mean (x : Fin B → Fin 1 → Fin N → ℝ) : batchMean ((unitSub (tap 3)).forward false true x).1 0 = 0 := by
  have h : ∀ b n, ((unitSub (tap 3)).forward false true x).1 b 0 n = x b 0 n * (1 / √(batchVar x 0 + 1e-5) / 2) -
      batchMean x 0 * (1 / √(batchVar x 0 + 1e-5) / 2) := by
    intro b n
    rw [unitSub_train]
    ring
  conv_lhs => unfold batchMean
  simp only [h, Finset.sum_sub_distrib, ← Finset.sum_mul, Finset.sum_const, Finset.card_univ, Fintype.card_fin, nsmul_eq_mul]
  have e : (B * N : ℝ) * batchMean x 0 = ∑ b, ∑ n, x b 0 n := by
    unfold batchMean
    rw [mul_comm, div_mul_cancel₀ _ count_ne]
  rw [e, sub_self, zero_div]

lemma unitSub_const (x : Fin B → Fin 1 → Fin N → ℝ) (a : ℝ) (h : ∀ b n, x b 0 n = a) (b : Fin B) (n : Fin N) :
    ((unitSub (tap 3)).forward false true x).1 b 0 n = 0 := by
  rw [unitSub_train, batchMean_const x a h, h, sub_self, zero_div, zero_div]

lemma unitNet_out (keep) (x : Fin B → Fin 1 → Fin N → ℝ) (b : Fin B) (n : Fin N) :
    (unitNet.forward true keep x).1 b 0 n = ((unitSub (tap 3)).forward false true (dropout (1 / 2) true keep
      ((unitSub (tap 3)).forward false true ((unitSub (tap 3)).forward false true x).1).1)).1 b 0 n := by
  simp only [GluNet.forward, unitNet, GluLayer.forward]
  rw [tap_apply _ _ _ rfl]
  rfl

/-- Nothing dropped: the order of the entries is kept and their mean is zero. -/
lemma unitNet_keep (x : Fin B → Fin 1 → Fin N → ℝ) :
    (∀ b b' n n', x b 0 n < x b' 0 n' → (unitNet.forward true (fun _ _ _ => true) x).1 b 0 n < (unitNet.forward true (fun _ _ _ => true) x).1 b' 0 n') ∧
    (∑ b, ∑ n, (unitNet.forward true (fun _ _ _ => true) x).1 b 0 n = 0) ∧
    ((∃ a, ∀ b n, x b 0 n = a) → ∀ b n, (unitNet.forward true (fun _ _ _ => true) x).1 b 0 n = 0) := by
  refine ⟨fun b b' n n' h => ?_, ?_, fun ⟨a, h⟩ b n => ?_⟩
  · rw [unitNet_out, unitNet_out]
    refine unitSub_lt _ _ _ _ _ ?_
    simp only [dropout, if_true]
    exact div_lt_div_of_pos_right (unitSub_lt _ _ _ _ _ (unitSub_lt x b b' n n' h)) (by norm_num)
  · simp only [unitNet_out]
    have := unitSub_mean (dropout (1 / 2) true (fun _ _ _ => true)
      ((unitSub (tap 3)).forward false true ((unitSub (tap 3)).forward false true x).1).1)
    unfold batchMean at this
    exact (div_eq_zero_iff.1 this).resolve_right count_ne
  · rw [unitNet_out]
    refine unitSub_const _ 0 (fun b n => ?_) b n
    simp only [dropout, if_true]
    rw [unitSub_const _ 0 (fun b n => unitSub_const x a h b n), zero_div]

/-- Everything dropped: the input is forgotten. -/
lemma unitNet_drop (x : Fin B → Fin 1 → Fin N → ℝ) (b : Fin B) (n : Fin N) : (unitNet.forward true (fun _ _ _ => false) x).1 b 0 n = 0 := by
  rw [unitNet_out]
  exact unitSub_const _ 0 (fun b n => by simp [dropout]) b n

/-- Silence, then one. -/
noncomputable def onset : Sig 1 1 2 := fun _ _ n => if n = 0 then 0 else 1

lemma onset_features (logSpec : Bool) : gluLog logSpec (gluPower onset) 0 0 0 < gluLog logSpec (gluPower onset) 0 0 1 := by
  have h0 : gluPower onset 0 0 0 = 0 := by simp [gluPower, onset, magSq_eq]
  have h1 : gluPower onset 0 0 1 = 2 := by
    simp [gluPower, onset, magSq_eq, clampMin]
    norm_num
  unfold gluLog
  rw [h0, h1]
  cases logSpec
  · simp
  · simp only [if_true]
    refine Real.logb_lt_logb (by norm_num) (by norm_num) (by norm_num)

lemma sigmoid_zero : sigmoid 0 = 1 / 2 := by unfold sigmoid; norm_num

lemma sigmoid_lt {a b : ℝ} (h : a < b) : sigmoid a < sigmoid b := by
  unfold sigmoid
  have : Real.exp (-b) < Real.exp (-a) := Real.exp_lt_exp.2 (by linarith)
  exact one_div_lt_one_div_of_lt (by positivity) (by linarith)

/-- The weight of the second frame, with nothing and with everything dropped. -/
lemma onset_weights (logSpec : Bool) :
    (gluSource (N := 2) logSpec unitNet true false 1 () onset).1 0 0 1 = 1 / 2 * (1 - 1e-5) + 1e-5 ∧
    1 / 2 * (1 - 1e-5) + 1e-5 < (gluSource (N := 2) logSpec unitNet true true 1 () onset).1 0 0 1 := by
  constructor
  · simp only [gluSource, gluMaskMag]
    rw [unitNet_drop, sigmoid_zero]
  · simp only [gluSource, gluMaskMag]
    obtain ⟨h1, h2, -⟩ := unitNet_keep (gluLog logSpec (gluPower onset))
    have h3 := h1 0 0 0 1 (onset_features logSpec)
    rw [Fin.sum_univ_one, Fin.sum_univ_two] at h2
    have h4 := sigmoid_lt (show 0 < (unitNet.forward true (fun _ _ _ => true) (gluLog logSpec (gluPower onset))).1 0 0 1 by linarith)
    rw [sigmoid_zero] at h4
    linarith

end Demo

open Demo in
/-- **C117 is violated** for a separator returned by `load_separator`, which is never switched to evaluation mode: the dropout layer is
active.  Separating the same recording twice gives different results, here one iteration of T-ISS on one channel, for two draws of the
dropout layer, whatever the feature option. -/
theorem loaded_deterministic_violated (logSpec : Bool) : ∃ (o o' : TissOut Unit 1 1 1 2),
    tissForward ⟨1, 0, 1, none, false, 1e-5⟩ none onset (gluSource logSpec unitNet loadedTraining false) id () = .ok ⟨1, o⟩ ∧
    tissForward ⟨1, 0, 1, none, false, 1e-5⟩ none onset (gluSource logSpec unitNet loadedTraining true) id () = .ok ⟨1, o'⟩ ∧
    o.Y ≠ o'.Y := by
  have run : ∀ keep, ∃ o : TissOut Unit 1 1 1 2,
      tissForward ⟨1, 0, 1, none, false, 1e-5⟩ none onset (gluSource logSpec unitNet loadedTraining keep) id () = .ok ⟨1, o⟩ ∧
      o.Y 0 0 1 = 1 / ((√(1 / 2 * max ((gluSource (N := 2) logSpec unitNet loadedTraining keep 1 () onset).1 0 0 1 / 2) 1e-5) : ℝ) : ℂ) := by
    intro keep
    obtain ⟨o0, h0, hY0⟩ := tiss_zero_iterations ⟨0, 0, 1, none, false, 1e-5⟩ rfl (by norm_num) none (le_refl _) onset
      (gluSource logSpec unitNet loadedTraining keep) id ()
    obtain ⟨o, ho⟩ := tiss_succeeds ⟨1, 0, 1, none, false, 1e-5⟩ (by norm_num) none onset (fun k h => by cases h) (fun m h => by cases h)
      (gluSource logSpec unitNet loadedTraining keep) id ()
    refine ⟨o, ho, ?_⟩
    have hc := tiss_single_channel ⟨0, 0, 1, none, false, 1e-5⟩ (by norm_num) (by norm_num) rfl rfl onset
      (gluSource logSpec unitNet loadedTraining keep) id o0 o h0 ho 0 1
    have hX : o0.Y = onset := funext fun k => funext fun f => funext fun n => hY0 k f n
    rw [hc, hX]
    have hp : max ((∑ f : Fin 1, ∑ n : Fin 2, ‖onset 0 f n‖ ^ 2) / (((1 : ℕ) : ℝ) * ((2 : ℕ) : ℝ))) (1e-5 : ℝ) = 1 / 2 := by
      rw [Fin.sum_univ_one, Fin.sum_univ_two]
      norm_num [onset]
    have hq : (∑ n : Fin 2, (gluSource (N := 2) logSpec unitNet loadedTraining keep 1 () onset).1 0 0 n * ‖onset 0 0 n‖ ^ 2) / ((2 : ℕ) : ℝ) =
        (gluSource (N := 2) logSpec unitNet loadedTraining keep 1 () onset).1 0 0 1 / 2 := by
      rw [Fin.sum_univ_two]
      norm_num [onset]
    simp only [hp, hq]
    simp [onset]
  obtain ⟨o, ho, hY⟩ := run false
  obtain ⟨o', ho', hY'⟩ := run true
  refine ⟨o, o', ho, ho', fun h => ?_⟩
  rw [h, hY'] at hY
  obtain ⟨h1, h2⟩ := onset_weights logSpec
  have e : loadedTraining = true := rfl
  rw [e] at hY
  rw [h1] at hY
  have hY := Complex.ofReal_inj.1 (inv_inj.1 ((one_div _).symm.trans (hY.trans (one_div _))))
  rw [max_eq_left (by linarith), max_eq_left (by norm_num), Real.sqrt_inj (by linarith) (by norm_num)] at hY
  linarith

open Demo in
/-- **C117 is violated** also in that using a loaded separator modifies it: the running statistics of the batch normalisation change. -/
theorem loaded_unchanged_violated (keep : Fin 1 → Fin 1 → Fin 2 → Bool) :
    ∃ w net, gluForwardMag false unitNet loadedTraining keep onset = .ok (w, net) ∧ net ≠ unitNet := by
  refine ⟨_, _, if_neg (by simp), fun h => ?_⟩
  have h1 := congrFun (congrArg (fun n : GluNet 1 1 1 1 1 => n.first.linBn.runningMean) h) (0 : Fin 1)
  have hl : (fun b : Fin 1 => (unitSub (tap 3)).lin.apply false (gluLog false (gluPower onset) b)) = gluLog false (gluPower onset) := by
    funext b o n
    obtain rfl : o = (0 : Fin 1) := Subsingleton.elim (α := Fin 1) _ _
    exact tap_apply (gluLog false (gluPower onset) b) false 3 rfl 0 n
  have hm : batchMean (gluLog false (gluPower onset)) 0 = 1 := by
    unfold batchMean
    rw [Fin.sum_univ_one, Fin.sum_univ_two]
    have h0 : gluPower onset 0 0 0 = 0 := by simp [gluPower, onset, magSq_eq]
    have h1 : gluPower onset 0 0 1 = 2 := by
      simp [gluPower, onset, magSq_eq, clampMin]
      norm_num
    simp only [gluLog, h0, h1]
    norm_num
  simp only [GluNet.forward, unitNet, GluSub.forward, BatchNorm.forward, loadedTraining, if_true, Nat.lt_irrefl, decide_false] at h1
  rw [hl] at h1
  have h2 : (unitSub (tap 3)).linBn.runningMean (0 : Fin 1) = 0 := rfl
  have h3 : 0.9 * (unitSub (tap 3)).linBn.runningMean (0 : Fin 1) + 0.1 * batchMean (gluLog false (gluPower onset)) 0 = (unitSub (tap 3)).linBn.runningMean (0 : Fin 1) := h1
  rw [h2, hm] at h3
  norm_num at h3

open Demo in
/-- **C118 is violated** in training mode, the mode of loaded separators: the mask of an item changes with the other items of the batch (here
another recording that is silent or not). -/
theorem loaded_items_violated (logSpec : Bool) : ∃ (X X' : Sig 2 1 1) (w w' : Weights 2 1 1) (m m' : GluNet 1 1 1 1 1), X 0 = X' 0 ∧
    gluForwardMag logSpec unitNet loadedTraining (fun _ _ _ => true) X = .ok (w, m) ∧
    gluForwardMag logSpec unitNet loadedTraining (fun _ _ _ => true) X' = .ok (w', m') ∧ w 0 ≠ w' 0 := by
  let X : Sig 2 1 1 := fun _ _ _ => 1
  let X' : Sig 2 1 1 := fun b _ _ => if b = 0 then 1 else 0
  refine ⟨X, X', _, _, _, _, by funext f n; simp [X, X'], if_neg (by simp), if_neg (by simp), fun h => ?_⟩
  have hf : ∀ b, gluPower X b 0 0 = 1 := by
    intro b
    simp [gluPower, X, magSq_eq, clampMin]
    norm_num
  have hf0 : gluPower X' 0 0 0 = 1 := by
    simp [gluPower, X', magSq_eq, clampMin]
    norm_num
  have hf1 : gluPower X' 1 0 0 = 0 := by simp [gluPower, X', magSq_eq]
  have hz := (unitNet_keep (gluLog logSpec (gluPower X))).2.2 ⟨gluLog logSpec (gluPower X) 0 0 0, fun b n => by
    obtain rfl := Subsingleton.elim n 0
    simp only [gluLog, hf]⟩ 0 0
  obtain ⟨h1, h2, -⟩ := unitNet_keep (gluLog logSpec (gluPower X'))
  have h3 := h1 1 0 0 0 (by
    unfold gluLog
    rw [hf0, hf1]
    cases logSpec
    · simp
    · simp only [if_true]
      exact Real.logb_lt_logb (by norm_num) (by norm_num) (by norm_num))
  rw [Fin.sum_univ_two, Fin.sum_univ_one, Fin.sum_univ_one] at h2
  have h4 := sigmoid_lt (show 0 < (unitNet.forward true (fun _ _ _ => true) (gluLog logSpec (gluPower X'))).1 0 0 0 by linarith)
  have h5 := congrFun (congrFun h 0) 0
  simp only [gluMaskMag, loadedTraining, hz] at h5
  have h6 : sigmoid 0 = sigmoid ((unitNet.forward true (fun _ _ _ => true) (gluLog logSpec (gluPower X'))).1 0 0 0) := by linarith
  exact absurd h6 h4.ne

/-! ## C119: the distance cannot be smaller -/

namespace Demo

lemma flat_apply (k : ℕ) (hk0 : 0 < k) (t : Bool) (x : Fin 1 → Fin N → ℝ) (hx : ∀ m, 0 ≤ x 0 m) (o : Fin 1) (n : Fin N) :
    0 ≤ (flat k 1).apply t x o n ∧ ((∃ m : Fin N, n.1 ≤ m.1 ∧ m.1 ≤ n.1 + (k - 1 - k / 2) ∧ m.1 ≤ n.1 + k / 2 ∧ 0 < x 0 m) → 0 < (flat k 1).apply t x o n) ∧
    ((∀ m, x 0 m = 0) → (flat k 1).apply t x o n = 0) := by
  have hr : ∀ i, 0 ≤ readZ (x 0) i := by
    intro i
    unfold readZ
    split_ifs
    · exact hx _
    · exact le_refl _
  unfold Conv.apply flat
  simp only [Fin.sum_univ_one, zero_add, one_mul]
  refine ⟨Finset.sum_nonneg fun _ _ => hr _, fun ⟨m, h1, h2, h3, h4⟩ => ?_, fun h => Finset.sum_eq_zero fun j _ => ?_⟩
  · have hm := m.2
    refine Finset.sum_pos' (fun _ _ => hr _) ?_
    have hread : ∀ i : ℤ, i = m.1 → 0 < readZ (x 0) i := by
      rintro i rfl
      unfold readZ
      rw [dif_pos ⟨by omega, by omega⟩]
      exact h4
    cases t
    · exact ⟨⟨k / 2 + (m.1 - n.1), by omega⟩, Finset.mem_univ _, hread _ (by simp; omega)⟩
    · exact ⟨⟨k / 2 - (m.1 - n.1), by omega⟩, Finset.mem_univ _, hread _ (by simp; omega)⟩
  · unfold readZ
    split_ifs <;> first | exact h _ | rfl

lemma flatSub_apply (x : Fin 1 → Fin 1 → Fin N → ℝ) (o : Fin 1) (n : Fin N) :
    ((unitSub (flat 3 1)).forward false false x).1 0 o n = (flat 3 1).apply false (x 0) 0 n / √(1 + 1e-5) / 2 := by
  obtain rfl : o = 0 := Subsingleton.elim _ _
  have hg : (fun b => (unitSub (flat 3 1)).gate.apply false (x b)) = fun _ _ _ => 0 := by
    funext b o n
    simp [Conv.apply, unitSub, flat]
  unfold GluSub.forward
  simp only [hg]
  unfold poolChannels
  simp only [BatchNorm.forward, Bool.false_eq_true, if_false, unitSub, unitBn, mul_one, add_zero, sub_zero, zero_div]
  have e : ∀ (g : Fin 1 → ℝ), Finset.univ.sup' Finset.univ_nonempty g = g 0 := fun g => le_antisymm
    (Finset.sup'_le _ _ fun p _ => by rw [Subsingleton.elim p 0]) (Finset.le_sup' g (Finset.mem_univ 0))
  rw [e]
  have i0 : (finProdFinEquiv ((0 : Fin 1), (0 : Fin 1)) : Fin (1 * 1)) = (0 : Fin 1) := Subsingleton.elim (α := Fin 1) _ _
  rw [i0, sigmoid_zero]
  ring

/-- Non-negative, and positive on the `r` frames before frame `j` and at frame `j`. -/
def Reach (x : Fin 1 → Fin N → ℝ) (j r : ℕ) : Prop := (∀ m, 0 ≤ x 0 m) ∧ ∀ m : Fin N, j ≤ m.1 + r → m.1 ≤ j → 0 < x 0 m

lemma flat_reach (k : ℕ) (hk : k % 2 = 1) (t : Bool) (x : Fin 1 → Fin N → ℝ) (j r : ℕ) (hj : j < N) (h : Reach x j r) :
    Reach ((flat k 1).apply t x) j (r + k / 2) := by
  refine ⟨fun m => (flat_apply k (by omega) t x h.1 0 m).1, fun m h1 h2 => (flat_apply k (by omega) t x h.1 0 m).2.1 ?_⟩
  refine ⟨⟨min j (m.1 + k / 2), by omega⟩, ?_, ?_, ?_, h.2 _ ?_ ?_⟩ <;> simp only <;> omega

lemma flatSub_reach (x : Fin 1 → Fin 1 → Fin N → ℝ) (j r : ℕ) (hj : j < N) (h : Reach (x 0) j r) :
    Reach (((unitSub (flat 3 1)).forward false false x).1 0) j (r + 1) := by
  have hf := flat_reach 3 rfl false (x 0) j r hj h
  refine ⟨fun m => ?_, fun m h1 h2 => ?_⟩
  · rw [flatSub_apply]
    have := hf.1 m
    positivity
  · rw [flatSub_apply]
    have := hf.2 m h1 h2
    positivity

lemma flatLayer_reach (n : ℕ) (x : Fin 1 → Fin 1 → Fin N → ℝ) (j r : ℕ) (hj : j < N) (h : Reach (x 0) j r) :
    Reach ((GluLayer.forward false (List.replicate n (unitSub (flat 3 1))) x).1 0) j (r + n) := by
  induction n generalizing x r with
  | zero => exact h
  | succ n ih =>
    rw [List.replicate_succ]
    unfold GluLayer.forward
    rw [show r + (n + 1) = r + 1 + n by omega]
    exact ih _ _ (flatSub_reach x j r hj h)

lemma flatLayer_zero (n : ℕ) (x : Fin 1 → Fin 1 → Fin N → ℝ) (h : ∀ m, x 0 0 m = 0) (m : Fin N) :
    (GluLayer.forward false (List.replicate n (unitSub (flat 3 1))) x).1 0 0 m = 0 := by
  induction n generalizing x with
  | zero => exact h m
  | succ n ih =>
    rw [List.replicate_succ]
    unfold GluLayer.forward
    refine ih _ fun m => ?_
    rw [flatSub_apply, (flat_apply 3 (by norm_num) false (x 0) (fun m => (h m).ge) 0 m).2.2 h, zero_div, zero_div]

/-- `GLUMask(1, 1, pool_size=1, kernel_size=k, n_sublayers=nSub)` with all taps equal to one. -/
noncomputable def flatNet (nSub k : ℕ) : GluNet 1 1 1 1 k :=
  ⟨unitSub (flat 3 1), List.replicate nSub (unitSub (flat 3 1)), List.replicate nSub (unitSub (flat 3 1)), flat k 1, 1 / 2⟩

lemma flatNet_reach (nSub k : ℕ) (hk : k % 2 = 1) (keep) (x : Fin 1 → Fin 1 → Fin N → ℝ) (j : ℕ) (hj : j < N) (h : Reach (x 0) j 0) :
    Reach (((flatNet nSub k).forward false keep x).1 0) j (1 + 2 * nSub + k / 2) := by
  simp only [GluNet.forward, flatNet, dropout, Bool.false_eq_true, if_false, Nat.lt_irrefl, decide_false]
  have h1 := flatSub_reach x j 0 hj h
  have h2 := flatLayer_reach nSub _ j _ hj h1
  have h3 := flatLayer_reach nSub _ j _ hj h2
  have h4 := flat_reach k hk true _ j _ hj h3
  rw [show 1 + 2 * nSub + k / 2 = 0 + 1 + nSub + nSub + k / 2 by ring]
  exact h4

lemma flatNet_zero (nSub k : ℕ) (hk : k % 2 = 1) (keep) (x : Fin 1 → Fin 1 → Fin N → ℝ) (h : ∀ m, x 0 0 m = 0) (m : Fin N) :
    ((flatNet nSub k).forward false keep x).1 0 0 m = 0 := by
  simp only [GluNet.forward, flatNet, dropout, Bool.false_eq_true, if_false, Nat.lt_irrefl, decide_false]
  have h1 : ∀ m, ((unitSub (flat 3 1)).forward false false x).1 0 0 m = 0 := fun m => by
    rw [flatSub_apply, (flat_apply 3 (by norm_num) false (x 0) (fun m => (h m).ge) 0 m).2.2 h, zero_div, zero_div]
  have h3 := flatLayer_zero nSub _ (flatLayer_zero nSub _ h1)
  exact (flat_apply k (by omega) true _ (fun m => (h3 m).ge) 0 m).2.2 h3

/-- A pulse at frame `j`. -/
noncomputable def pulse (N j : ℕ) : Sig 1 1 N := fun _ _ n => if n.1 = j then 1 else 0

lemma pulse_level (N j : ℕ) (hj : j < N) : ∑ f : Fin 1, ∑ n : Fin N, ‖pulse N j 0 f n‖ ^ 2 = 1 := by
  rw [Fin.sum_univ_one, Finset.sum_eq_single ⟨j, hj⟩]
  · simp [pulse]
  · intro n _ hn
    have : n.1 ≠ j := fun h => hn (Fin.ext h)
    simp [pulse, this]
  · intro h; exact absurd (Finset.mem_univ _) h

lemma pulse_feature (N j : ℕ) (hj : j < N) (m : Fin N) :
    0 ≤ gluPower (pulse N j) 0 0 m ∧ (m.1 = j → 0 < gluPower (pulse N j) 0 0 m) ∧ (m.1 ≠ j → gluPower (pulse N j) 0 0 m = 0) := by
  unfold gluPower
  simp only [magSq_eq, pulse_level N j hj, clampMin]
  have hc : (0 : ℝ) < max (max (1 / ((1 : ℕ) * (N : ℝ))) 1e-5) 1e-7 := lt_of_lt_of_le (by norm_num) (le_max_right _ _)
  refine ⟨by positivity, fun h => ?_, fun h => ?_⟩
  · refine div_pos ?_ hc
    simp [pulse, h]
  · simp [pulse, h]

end Demo

open Demo in
/-- **C119.** The distance in `glu_receptive_field` cannot be smaller: for every number of sublayers and every odd kernel size there are a
network and two recordings of the same level that agree on all frames closer to frame 0 than `1 + 2 n_sublayers + kernel_size // 2`, and
whose masks differ at frame 0. -/
theorem glu_receptive_field_sharp (nSub k : ℕ) (hk : k % 2 = 1) :
    ∃ (N : ℕ) (hN : 0 < N) (net : GluNet 1 1 1 1 k) (X X' : Sig 1 1 N) (w w' : Weights 1 1 N) (m m' : GluNet 1 1 1 1 k), net.second.length = nSub ∧ net.third.length = nSub ∧
      ∑ f, ∑ n, ‖X 0 f n‖ ^ 2 = ∑ f, ∑ n, ‖X' 0 f n‖ ^ 2 ∧ (∀ f n, n.1 < 1 + 2 * nSub + k / 2 → X 0 f n = X' 0 f n) ∧
      gluForwardMag false net false (fun _ _ _ => true) X = .ok (w, m) ∧ gluForwardMag false net false (fun _ _ _ => true) X' = .ok (w', m') ∧
      w 0 0 ⟨0, hN⟩ ≠ w' 0 0 ⟨0, hN⟩ := by
  set R := 1 + 2 * nSub + k / 2 with hR
  refine ⟨R + 2, by omega, flatNet nSub k, pulse (R + 2) R, pulse (R + 2) (R + 1), _, _, _, _, by simp [flatNet], by simp [flatNet], ?_, ?_,
    if_neg (by simp), if_neg (by simp), fun h => ?_⟩
  · rw [pulse_level _ _ (by omega), pulse_level _ _ (by omega)]
  · intro f n hn
    simp only [pulse]
    rw [if_neg (by omega), if_neg (by omega)]
  · have h1 : 0 < ((flatNet nSub k).forward false (fun _ _ _ => true) (gluLog false (gluPower (pulse (R + 2) R)))).1 0 0 ⟨0, by omega⟩ := by
      refine (flatNet_reach nSub k hk _ _ R (by omega) ⟨fun m => ?_, fun m h1 h2 => ?_⟩).2 _ (by simp only; omega) (by simp only; omega)
      · simpa [gluLog] using (pulse_feature (R + 2) R (by omega) m).1
      · simpa [gluLog] using (pulse_feature (R + 2) R (by omega) m).2.1 (by omega)
    have h2 : ((flatNet nSub k).forward false (fun _ _ _ => true) (gluLog false (gluPower (pulse (R + 2) (R + 1))))).1 0 0 ⟨0, by omega⟩ = 0 := by
      rw [net_agree (flatNet nSub k) _ (fun _ _ _ => true) _ (fun (_ : Fin 1) _ _ => 0) 0 0 0 0 ?_ 0 _ (by simp) (by simp)]
      · exact flatNet_zero nSub k hk _ _ (fun _ => rfl) _
      · intro i m h3 h4
        obtain rfl : i = 0 := Subsingleton.elim _ _
        simp only [flatNet, List.length_replicate] at h4
        simpa [gluLog] using (pulse_feature (R + 2) (R + 1) (by omega) m).2.2 (by omega)
    have h3 := sigmoid_lt h1
    simp only [gluMaskMag, h2] at h
    linarith

/-- Three sublayers and kernels of size five: frames at distance eight or less do not decide. -/
example : ∃ (N : ℕ) (hN : 0 < N) (net : GluNet 1 1 1 1 5) (X X' : Sig 1 1 N) (w w' : Weights 1 1 N) (m m' : GluNet 1 1 1 1 5),
    (∀ f n, n.1 < 1 + 2 * 3 + 5 / 2 → X 0 f n = X' 0 f n) ∧
    gluForwardMag false net false (fun _ _ _ => true) X = .ok (w, m) ∧ gluForwardMag false net false (fun _ _ _ => true) X' = .ok (w', m') ∧
    w 0 0 ⟨0, hN⟩ ≠ w' 0 0 ⟨0, hN⟩ :=
  let ⟨N, hN, net, X, X', w, w', m, m', _, _, _, h⟩ := glu_receptive_field_sharp 3 5 rfl
  ⟨N, hN, net, X, X', w, w', m, m', h⟩

end Torchiva.Props
