import Verif.Props.Networks
import Verif.Props.Reorder

/-! # C122-C124: what the neural masks ignore, and how far they look -/

namespace Torchiva.Props

open Torchiva _root_.Spec

variable {B B' N N' I O F K pool k : ℕ}

/-! ## C122 phases -/

private lemma norm_magSq {z z' : ℂ} (h : ‖z‖ = ‖z'‖) : magSq z = magSq z' := by rw [magSq_eq, magSq_eq, h]

/-- **C122.** Two inputs with the same magnitudes get the same masks (and leave the same model behind, or fail in the same way) from `SimpleModel`,
from `MaskMVDRSupport`, and from `GLUMask` and `BLSTMMask` with `mag_spec=True`, in both modes and for all random draws. -/
theorem masks_ignore_phase {M H S : ℕ} [NeZero pool] (logSpec training : Bool) (X X' : Sig B F N) (h : ∀ b f n, ‖X b f n‖ = ‖X' b f n‖)
    (glu : GluNet F K F pool k) (keepG) (mel : Fin F → Fin M → ℝ) (blstm : BlstmNet F M H) (keepB) (sup : SupportNet F H S M) (simple : SimpleNet F M H) :
    gluForwardMag logSpec glu training keepG X = gluForwardMag logSpec glu training keepG X' ∧
    blstmForwardMag mel logSpec blstm training keepB X = blstmForwardMag mel logSpec blstm training keepB X' ∧
    sup.forward training keepB X = sup.forward training keepB X' ∧ simple.forward X = simple.forward X' := by
  have hm : ∀ b f n, magSq (X b f n) = magSq (X' b f n) := fun b f n => norm_magSq (h b f n)
  have hg : gluPower X = gluPower X' := by
    unfold gluPower
    simp only [hm]
  have hb : melPower mel logSpec X = melPower mel logSpec X' := by
    unfold melPower
    simp only [hm]
  refine ⟨?_, ?_, ?_, ?_⟩
  · unfold gluForwardMag gluMaskMag
    simp only [hg]
  · unfold blstmForwardMag blstmMask
    simp only [hb]
  · unfold SupportNet.forward maskMvdrSupport
    simp only [h]
  · unfold SimpleNet.forward simpleMask
    simp only [h]

/-- A signal and its conjugate rotated by a quarter turn. -/
example {M H S : ℕ} [NeZero pool] (glu : GluNet 2 K 2 pool k) (mel : Fin 2 → Fin M → ℝ) (blstm : BlstmNet 2 M H) (sup : SupportNet 2 H S M)
    (net : SimpleNet 2 M H) (X : Sig 1 2 3) : net.forward (fun b f n => Complex.I * star (X b f n)) = net.forward X :=
  (masks_ignore_phase true true _ X (fun b f n => by simp) glu (fun _ _ _ => true) mel blstm (fun _ _ _ _ => true) sup net).2.2.2

/-- **C122 (separation).** With `GLUMask(mag_spec=True)` as source model, in either mode, multiplying every channel of the mixture by unit-modulus
factors `u` (with taps: factors that advance by a constant phase from frame to frame) multiplies the separated sources by the same factors and
changes nothing else; one call fails iff the other does. -/
theorem glu_separation_phase {C s : ℕ} [NeZero pool] (u : Fin F → Fin N → ℂ) (hu : ∀ f n, ‖u f n‖ = 1) (p : TissParams)
    (hr : p.nTaps = 0 ∨ ∃ a b : Fin F → ℂ, (∀ f, ‖b f‖ = 1) ∧ ∀ f n, u f n = a f * b f ^ n.1) (nSrc : Option ℕ) (X : Sig C F N)
    (logSpec training keep : Bool) (net : GluNet F K F pool k) (reset : Unit → Unit) (o : TissOut Unit s C F N) :
    tissForward p nSrc X (gluSource logSpec net training keep) reset () = .ok ⟨s, o⟩ ↔
    tissForward p nSrc (fun c f n => u f n * X c f n) (gluSource logSpec net training keep) reset ()
      = .ok ⟨s, ⟨fun c f n => u f n * o.Y c f n, o.W, o.J, o.ms⟩⟩ := by
  have hm : Follows (⟨u, hu, 1, 1⟩ : Reorder F N) (gluSource logSpec net training keep) := by
    refine magnitude_models_follow _ rfl rfl _ fun s ms Y Y' h => ?_
    have hg : gluPower Y = gluPower Y' := by
      unfold gluPower
      simp only [fun b f n => norm_magSq (h b f n)]
    unfold gluSource gluMaskMag
    simp only [hg]
  have key := tiss_follows_convention (⟨u, hu, 1, 1⟩ : Reorder F N) p (hr.imp id fun h => ⟨rfl, h⟩) nSrc X (gluSource logSpec net training keep) hm
    reset () o
  rw [key]
  have e : (o.J.map fun J c f => J c ((1 : Equiv.Perm (Fin F)) f)) = o.J := by
    cases o.J <;> rfl
  rw [show (Reorder.mk u hu 1 1).freq = 1 from rfl, e]
  rfl

/-- Two channels, one iteration, a network of one channel per layer in training mode: both calls return. -/
example (u : Fin 1 → Fin 2 → ℂ) (hu : ∀ f n, ‖u f n‖ = 1) (X : Sig 2 1 2) (o : TissOut Unit 2 2 1 2)
    (h : tissForward ⟨1, 0, 0, none, false, 1e-5⟩ none X (gluSource false Demo.unitNet true true) id () = .ok ⟨2, o⟩) :
    tissForward ⟨1, 0, 0, none, false, 1e-5⟩ none (fun c f n => u f n * X c f n) (gluSource false Demo.unitNet true true) id ()
      = .ok ⟨2, ⟨fun c f n => u f n * o.Y c f n, o.W, o.J, o.ms⟩⟩ :=
  (glu_separation_phase u hu _ (Or.inl rfl) _ _ _ _ _ _ _ _).1 h

/-! ## C123 chunks -/

/-- Around frame `n` of `x` and frame `n'` of `x'`, up to distance `r`, both sequences exist and are the same. -/
private def Same (x : Fin I → Fin N → ℝ) (x' : Fin I → Fin N' → ℝ) (n n' r : ℕ) : Prop :=
  r ≤ n ∧ n + r < N ∧ r ≤ n' ∧ n' + r < N' ∧ ∀ i (m : Fin N) (m' : Fin N'), m.1 + n' = m'.1 + n → n ≤ m.1 + r → m.1 ≤ n + r → x i m = x' i m'

private lemma Same.mono {x : Fin I → Fin N → ℝ} {x' : Fin I → Fin N' → ℝ} {n n' r r' : ℕ} (h : Same x x' n n' r') (hr : r ≤ r') : Same x x' n n' r :=
  ⟨by have := h.1; omega, by have := h.2.1; omega, by have := h.2.2.1; omega, by have := h.2.2.2.1; omega,
    fun i m m' e h1 h2 => h.2.2.2.2 i m m' e (by omega) (by omega)⟩

private lemma conv_same (c : Conv I O k) (t : Bool) (x : Fin I → Fin N → ℝ) (x' : Fin I → Fin N' → ℝ) (n n' r : ℕ) (h : Same x x' n n' (r + k / 2)) :
    Same (c.apply t x) (c.apply t x') n n' r := by
  obtain ⟨a1, a2, a3, a4, h⟩ := h
  refine ⟨by omega, by omega, by omega, by omega, fun o m m' e h1 h2 => ?_⟩
  unfold Conv.apply
  refine congrArg (c.bias o + ·) (Finset.sum_congr rfl fun i _ => Finset.sum_congr rfl fun j _ => congrArg (c.weight i o j * ·) ?_)
  have hj := j.2
  have key : ∀ a a' : ℤ, a - n = a' - n' → (n : ℤ) ≤ a + (r + k / 2 : ℕ) → a ≤ n + (r + k / 2 : ℕ) → readZ (x i) a = readZ (x' i) a' := by
    intro a a' e h1 h2
    unfold readZ
    rw [dif_pos ⟨by omega, by omega⟩, dif_pos ⟨by omega, by omega⟩]
    exact h i _ _ (show a.toNat + n' = a'.toNat + n by omega) (show n ≤ a.toNat + _ by omega) (show a.toNat ≤ _ by omega)
  cases t
  · exact key _ _ (by simp only [Bool.false_eq_true, if_false]; omega) (by simp only [Bool.false_eq_true, if_false]; omega)
      (by simp only [Bool.false_eq_true, if_false]; omega)
  · exact key _ _ (by simp only [if_true]; omega) (by simp only [if_true]; omega) (by simp only [if_true]; omega)

private lemma sub_same [NeZero pool] (l : GluSub I O pool) (t : Bool) (x : Fin B → Fin I → Fin N → ℝ) (x' : Fin B' → Fin I → Fin N' → ℝ)
    (b : Fin B) (b' : Fin B') (n n' r : ℕ) (h : Same (x b) (x' b') n n' (r + 1)) :
    Same ((l.forward t false x).1 b) ((l.forward t false x').1 b') n n' r := by
  have hg := conv_same l.gate t (x b) (x' b') n n' r h
  have hl := conv_same l.lin t (x b) (x' b') n n' r h
  refine ⟨hg.1, hg.2.1, hg.2.2.1, hg.2.2.2.1, fun o m m' e h1 h2 => ?_⟩
  simp only [GluSub.forward, BatchNorm.forward, poolChannels]
  refine Finset.sup'_congr _ rfl fun p _ => ?_
  rw [hg.2.2.2.2 _ m m' e h1 h2, hl.2.2.2.2 _ m m' e h1 h2]
  rfl

private lemma layer_same [NeZero pool] (l : GluLayer K pool) (x : Fin B → Fin K → Fin N → ℝ) (x' : Fin B' → Fin K → Fin N' → ℝ)
    (b : Fin B) (b' : Fin B') (n n' r : ℕ) (h : Same (x b) (x' b') n n' (r + l.length)) :
    Same ((GluLayer.forward false l x).1 b) ((GluLayer.forward false l x').1 b') n n' r := by
  induction l generalizing x x' with
  | nil => exact h
  | cons s l ih =>
    unfold GluLayer.forward
    exact ih _ _ (sub_same s false x x' b b' n n' _ (h.mono (by rw [List.length_cons]; omega)))

private lemma net_same [NeZero pool] (net : GluNet I K F pool k) (keep keep') (x : Fin B → Fin I → Fin N → ℝ) (x' : Fin B' → Fin I → Fin N' → ℝ)
    (b : Fin B) (b' : Fin B') (n n' r : ℕ) (h : Same (x b) (x' b') n n' (r + (1 + net.second.length + net.third.length + k / 2))) :
    Same ((net.forward false keep x).1 b) ((net.forward false keep' x').1 b') n n' r := by
  unfold GluNet.forward
  simp only [dropout, Bool.false_eq_true, if_false]
  refine conv_same _ _ _ _ _ _ _ (layer_same _ _ _ _ _ _ _ _ (layer_same _ _ _ _ _ _ _ _ (sub_same _ _ _ _ _ _ _ _ _ (h.mono (by omega)))))

/-- **C123.** In evaluation mode a passage of a recording gets the same mask wherever it is, in whatever recording: if the frames at distance at
most `1 + 2 n_sublayers + kernel_size // 2` around frame `n` of one recording and around frame `n'` of another one are the same (and none of them
is missing), and the two recordings have the same mean power, then `GLUMask` gives the same mask at the two frames. -/
theorem glu_chunks [NeZero pool] (logSpec : Bool) (net : GluNet F K F pool k) (net' : GluNet (F + F) K F pool k) (nSub : ℕ)
    (h2 : net.second.length = nSub ∧ net.third.length = nSub ∧ net'.second.length = nSub ∧ net'.third.length = nSub)
    (X : Sig B F N) (X' : Sig B' F N') (b : Fin B) (b' : Fin B') (n : Fin N) (n' : Fin N')
    (hp : (∑ f, ∑ m, ‖X b f m‖ ^ 2) / (F * N) = (∑ f, ∑ m, ‖X' b' f m‖ ^ 2) / (F * N'))
    (R : ℕ) (hR : R = 1 + 2 * nSub + k / 2) (hn : R ≤ n.1 ∧ n.1 + R < N) (hn' : R ≤ n'.1 ∧ n'.1 + R < N')
    (h : ∀ f (m : Fin N) (m' : Fin N'), n.1 ≤ m.1 + R → m.1 ≤ n.1 + R → (m.1 : ℤ) - n.1 = m'.1 - n'.1 → X b f m = X' b' f m')
    (keep keep') (w w' v v' m m' u u')
    (hw : gluForwardMag logSpec net false keep X = .ok (w, m)) (hw' : gluForwardMag logSpec net false keep' X' = .ok (w', m'))
    (hv : gluForwardReIm logSpec net' false keep X = .ok (v, u)) (hv' : gluForwardReIm logSpec net' false keep' X' = .ok (v', u')) :
    ∀ f, w b f n = w' b' f n' ∧ v b f n = v' b' f n' := by
  subst hR
  unfold gluForwardMag at hw hw'
  unfold gluForwardReIm at hv hv'
  rw [if_neg (by simp)] at hw hw' hv hv'
  have hw := (Prod.mk.inj (Except.ok.inj hw)).1
  have hw' := (Prod.mk.inj (Except.ok.inj hw')).1
  have hv := (Prod.mk.inj (Except.ok.inj hv)).1
  have hv' := (Prod.mk.inj (Except.ok.inj hv')).1
  subst hw hw' hv hv'
  have hx : ∀ f (m : Fin N) (m' : Fin N'), m.1 + n'.1 = m'.1 + n.1 → n.1 ≤ m.1 + (1 + 2 * nSub + k / 2) → m.1 ≤ n.1 + (1 + 2 * nSub + k / 2) →
      X b f m = X' b' f m' := fun f m m' e h1 h2 => h f m m' h1 h2 (by omega)
  intro f
  constructor
  · unfold gluMaskMag
    simp only
    have s : Same (gluLog logSpec (gluPower X) b) (gluLog logSpec (gluPower X') b') n.1 n'.1 (1 + 2 * nSub + k / 2) :=
      ⟨hn.1, hn.2, hn'.1, hn'.2, fun i m m' e h1 h2 => by
        unfold gluLog gluPower
        simp only [magSq_eq, hp, hx i m m' e h1 h2]⟩
    rw [(net_same net keep keep' _ _ b b' n.1 n'.1 0 (s.mono (by omega))).2.2.2.2 f n n' (by omega) (by omega) (by omega)]
  · unfold gluMaskReIm
    simp only
    have s : Same (gluLog logSpec (gluReIm X) b) (gluLog logSpec (gluReIm X') b') n.1 n'.1 (1 + 2 * nSub + k / 2) :=
      ⟨hn.1, hn.2, hn'.1, hn'.2, fun i m m' e h1 h2 => by
        unfold gluLog gluReIm
        simp only [magSq_eq, hp, hx _ m m' e h1 h2]⟩
    rw [(net_same net' keep keep' _ _ b b' n.1 n'.1 0 (s.mono (by omega))).2.2.2.2 f n n' (by omega) (by omega) (by omega)]

/-- No sublayer beyond the first layer, kernel size 1: frame 1 of a recording of three frames is frame 2 of one of six frames. -/
example [NeZero pool] (l : GluSub 1 K pool) (l' : GluSub (1 + 1) K pool) (c : Conv K 1 1) :
    ∃ w w', gluForwardMag true ⟨l, [], [], c, 1 / 2⟩ false (fun _ _ _ => true) (fun (_ : Fin 1) (_ : Fin 1) (n : Fin 3) => if n = 0 then (1 : ℂ) else 0) = .ok (w, ⟨l, [], [], c, 1 / 2⟩) ∧
      gluForwardMag true ⟨l, [], [], c, 1 / 2⟩ false (fun _ _ _ => true) (fun (_ : Fin 1) (_ : Fin 1) (n : Fin 6) => if n = 1 ∨ n = 5 then (1 : ℂ) else 0) = .ok (w', ⟨l, [], [], c, 1 / 2⟩) ∧
      w 0 0 1 = w' 0 0 2 := by
  obtain ⟨⟨w, hw⟩, ⟨v, hv⟩⟩ := glu_deterministic_partial true ⟨l, [], [], c, 1 / 2⟩ ⟨l', [], [], c, 1 / 2⟩
    (fun (_ : Fin 1) (_ : Fin 1) (n : Fin 3) => if n = 0 then (1 : ℂ) else 0)
  obtain ⟨⟨w', hw'⟩, ⟨v', hv'⟩⟩ := glu_deterministic_partial true ⟨l, [], [], c, 1 / 2⟩ ⟨l', [], [], c, 1 / 2⟩
    (fun (_ : Fin 1) (_ : Fin 1) (n : Fin 6) => if n = 1 ∨ n = 5 then (1 : ℂ) else 0)
  refine ⟨w, w', hw _, hw' _, (glu_chunks true ⟨l, [], [], c, 1 / 2⟩ ⟨l', [], [], c, 1 / 2⟩ 0 ⟨rfl, rfl, rfl, rfl⟩ _ _ 0 0 1 2 ?_ 1 rfl (by decide) (by decide) ?_
    (fun _ _ _ => true) (fun _ _ _ => true) _ _ _ _ _ _ _ _ (hw _) (hw' _) (hv _) (hv' _) 0).1⟩
  · simp only [apply_ite norm, norm_one, norm_zero, ite_pow, one_pow, Fin.sum_univ_one]
    rw [Fin.sum_univ_three, Fin.sum_univ_six]
    norm_num [Fin.ext_iff]
  · intro f m m' _ _ e
    have h1 : m.1 < 3 := m.2
    have h2 : m'.1 = m.1 + 1 := by
      have : ((1 : Fin 3).1 : ℤ) = 1 ∧ ((2 : Fin 6).1 : ℤ) = 2 := ⟨rfl, rfl⟩
      omega
    simp only [Fin.ext_iff, h2]
    refine if_congr ?_ rfl rfl
    have : (5 : Fin 6).1 = 5 ∧ (1 : Fin 6).1 = 1 ∧ (0 : Fin 3).1 = 0 := ⟨rfl, rfl, rfl⟩
    omega

/-! ## C124 recurrent masks -/

private lemma tanhR_zero : tanhR 0 = 0 := by simp [tanhR]

private lemma tanhR_pos {x : ℝ} (h : 0 < x) : 0 < tanhR x := by
  have := Real.exp_lt_exp.2 (show -x < x by linarith)
  have := Real.exp_pos (-x)
  exact div_pos (by linarith) (by linarith)

private lemma tanhR_nonneg {x : ℝ} (h : 0 ≤ x) : 0 ≤ tanhR x := by
  rcases h.eq_or_lt with rfl | h
  · exact tanhR_zero.ge
  · exact (tanhR_pos h).le

private lemma tanhR_abs (x : ℝ) : |tanhR x| < 1 := by
  have h1 := Real.exp_pos x
  have h2 := Real.exp_pos (-x)
  unfold tanhR
  rw [abs_lt, lt_div_iff₀ (by linarith), div_lt_iff₀ (by linarith)]
  constructor <;> linarith

private lemma sigmoid_unit (x : ℝ) : 0 < sigmoid x ∧ sigmoid x < 1 := by
  have := Real.exp_pos (-x)
  unfold sigmoid
  exact ⟨by positivity, by rw [div_lt_one (by linarith)]; linarith⟩

private lemma sigmoid_le {x y : ℝ} (h : x ≤ y) : sigmoid x ≤ sigmoid y := by
  rcases h.eq_or_lt with rfl | h
  · exact le_rfl
  · exact (Demo.sigmoid_lt h).le

private lemma state_abs {H : ℕ} (l : LstmCell I H) (x : Fin N → Fin I → ℝ) (t : ℕ) (j : Fin H) : |(l.state x t).1 j| < 1 := by
  induction t with
  | zero => simp [LstmCell.state]
  | succ t ih =>
    unfold LstmCell.state
    split_ifs with h
    · simp only [LstmCell.step]
      rw [abs_mul, abs_of_pos (sigmoid_unit _).1]
      exact mul_lt_one_of_nonneg_of_lt_one_left (sigmoid_unit _).1.le (sigmoid_unit _).2 (tanhR_abs _).le
    · exact ih

private lemma bi_abs {H : ℕ} (l : BiLstm I H) (x : Fin N → Fin B → Fin I → ℝ) (n : Fin N) (b : Fin B) (j : Fin (H + H)) : |l.apply x n b j| < 1 := by
  unfold BiLstm.apply
  induction j using Fin.addCases with
  | left j => rw [Fin.append_left]; exact state_abs _ _ _ _
  | right j => rw [Fin.append_right]; exact state_abs _ _ _ _

private lemma rest_abs {H : ℕ} (p : ℝ) (training : Bool) (ls : List (BiLstm (H + H) H)) (keep) (x : Fin N → Fin B → Fin (H + H) → ℝ)
    (hx : ∀ n b j, |x n b j| < 1) (n : Fin N) (b : Fin B) (j : Fin (H + H)) : |blstmRest p training ls keep x n b j| < 1 := by
  induction ls generalizing x keep with
  | nil => exact hx n b j
  | cons l ls ih => exact ih _ _ fun n b j => bi_abs l _ n b j

/-- **C124 (range).** Whatever the input, the mode and the random draws, the masks of `BLSTMMask` at a frequency stay between two values set by the output
layer alone: at most the sum of the magnitudes of its weights is added to or taken from its bias. -/
theorem blstm_mask_interval {M H : ℕ} (mel : Fin F → Fin M → ℝ) (logSpec training : Bool) (net : BlstmNet F M H) (net' : BlstmNet F (M + M) H)
    (keep) (X : Sig B F N) (b : Fin B) (f : Fin F) (n : Fin N) :
    blstmForwardMag mel logSpec net training keep X b f n ∈
      Set.Icc (sigmoid (net.output.bias f - ∑ i, |net.output.weight f i|) * (1 - 1e-5) + 1e-5)
        (sigmoid (net.output.bias f + ∑ i, |net.output.weight f i|) * (1 - 1e-5) + 1e-5) ∧
    blstmForwardReIm mel net' training keep X b f n ∈
      Set.Icc (sigmoid (net'.output.bias f - ∑ i, |net'.output.weight f i|) * (1 - 1e-5) + 1e-5)
        (sigmoid (net'.output.bias f + ∑ i, |net'.output.weight f i|) * (1 - 1e-5) + 1e-5) := by
  have key : ∀ (l : Linear (H + H) F) (y : Fin (H + H) → ℝ), (∀ i, |y i| < 1) →
      sigmoid (l.apply y f) * (1 - 1e-5) + 1e-5 ∈ Set.Icc (sigmoid (l.bias f - ∑ i, |l.weight f i|) * (1 - 1e-5) + 1e-5)
        (sigmoid (l.bias f + ∑ i, |l.weight f i|) * (1 - 1e-5) + 1e-5) := by
    intro l y hy
    have hs : |∑ i, l.weight f i * y i| ≤ ∑ i, |l.weight f i| :=
      (Finset.abs_sum_le_sum_abs _ _).trans (Finset.sum_le_sum fun i _ => by
        rw [abs_mul]
        exact mul_le_of_le_one_right (abs_nonneg _) (hy i).le)
    obtain ⟨h1, h2⟩ := abs_le.1 hs
    unfold Linear.apply
    have e1 : sigmoid (l.bias f - ∑ i, |l.weight f i|) ≤ sigmoid (l.bias f + ∑ i, l.weight f i * y i) := sigmoid_le (by linarith)
    have e2 : sigmoid (l.bias f + ∑ i, l.weight f i * y i) ≤ sigmoid (l.bias f + ∑ i, |l.weight f i|) := sigmoid_le (by linarith)
    constructor <;> norm_num <;> linarith
  exact ⟨key _ _ fun i => rest_abs _ _ _ _ _ (fun n b j => bi_abs _ _ n b j) n b i,
    key _ _ fun i => rest_abs _ _ _ _ _ (fun n b j => bi_abs _ _ n b j) n b i⟩

/-- An output layer without weights and bias: the mask is one half (and 5e-6) everywhere. -/
example {M H : ℕ} (mel : Fin 1 → Fin M → ℝ) (l : Blstm M H) (l' : Blstm (M + M) H) (keep) (X : Sig 1 1 3) (n : Fin 3) :
    blstmForwardMag mel true ⟨l, ⟨fun _ _ => 0, fun _ => 0⟩, 1 / 2⟩ true keep X 0 0 n = 1 / 2 * (1 - 1e-5) + 1e-5 := by
  have h := (blstm_mask_interval mel true true ⟨l, ⟨fun _ _ => 0, fun _ => 0⟩, 1 / 2⟩ ⟨l', ⟨fun _ _ => 0, fun _ => 0⟩, 1 / 2⟩ keep X 0 0 n).1
  simp only [abs_zero, Finset.sum_const_zero, sub_zero, add_zero, Demo.sigmoid_zero, Set.Icc_self, Set.mem_singleton_iff] at h
  exact h

namespace Demo

/-- A cell that adds its inputs up, with weights `v`, and forgets half of the past at each step. -/
def sumCell (v : Fin I → ℝ) : LstmCell I 1 := ⟨fun g _ i => if g = 2 then v i else 0, fun _ _ _ => 0, fun _ _ => 0⟩

/-- Both directions of a layer of such cells. -/
def sumBi (v : Fin I → ℝ) : BiLstm I 1 := ⟨sumCell v, sumCell v⟩

/-- A network of such cells with `L + 1` layers. -/
noncomputable def sumNet (v : Fin I → ℝ) (L : ℕ) : BlstmNet 1 I 1 :=
  ⟨⟨sumBi v, List.replicate L (sumBi fun _ => 1)⟩, ⟨fun _ _ => 1, fun _ => 0⟩, 1 / 2⟩

lemma sumCell_step (v : Fin I → ℝ) (s : (Fin 1 → ℝ) × (Fin 1 → ℝ)) (x : Fin I → ℝ) (j : Fin 1) :
    ((sumCell v).step s x).2 j = 1 / 2 * s.2 j + 1 / 2 * tanhR (∑ i, v i * x i) ∧
    ((sumCell v).step s x).1 j = 1 / 2 * tanhR (1 / 2 * s.2 j + 1 / 2 * tanhR (∑ i, v i * x i)) := by
  simp [LstmCell.step, sumCell, sigmoid_zero]

lemma sumCell_zero (v : Fin I → ℝ) (x : Fin N → Fin I → ℝ) (hx : ∀ n, ∑ i, v i * x n i = 0) (t : ℕ) (j : Fin 1) :
    ((sumCell v).state x t).2 j = 0 ∧ ((sumCell v).state x t).1 j = 0 := by
  induction t generalizing j with
  | zero => exact ⟨rfl, rfl⟩
  | succ t ih =>
    unfold LstmCell.state
    split_ifs with h
    · rw [(sumCell_step _ _ _ _).1, (sumCell_step _ _ _ _).2, (ih j).1, hx]
      simp [tanhR_zero]
    · exact ih j

lemma sumCell_nonneg (v : Fin I → ℝ) (x : Fin N → Fin I → ℝ) (hx : ∀ n, 0 ≤ ∑ i, v i * x n i) (t : ℕ) (j : Fin 1) :
    0 ≤ ((sumCell v).state x t).2 j ∧ 0 ≤ ((sumCell v).state x t).1 j := by
  induction t generalizing j with
  | zero => exact ⟨le_rfl, le_rfl⟩
  | succ t ih =>
    unfold LstmCell.state
    split_ifs with h
    · rw [(sumCell_step _ _ _ _).1, (sumCell_step _ _ _ _).2]
      have h1 := (ih j).1
      have h2 := tanhR_nonneg (hx ⟨t, h⟩)
      exact ⟨by positivity, mul_nonneg (by norm_num) (tanhR_nonneg (by positivity))⟩
    · exact ih j

lemma sumCell_pos (v : Fin I → ℝ) (x : Fin N → Fin I → ℝ) (hx : ∀ n, 0 ≤ ∑ i, v i * x n i) (m : Fin N) (hm : 0 < ∑ i, v i * x m i) (t : ℕ) (ht : m.1 < t)
    (j : Fin 1) : 0 < ((sumCell v).state x t).2 j ∧ 0 < ((sumCell v).state x t).1 j := by
  induction t generalizing j with
  | zero => omega
  | succ t ih =>
    unfold LstmCell.state
    split_ifs with h
    · rw [(sumCell_step _ _ _ _).1, (sumCell_step _ _ _ _).2]
      have h1 := (sumCell_nonneg v x hx t j).1
      have h2 := tanhR_nonneg (hx ⟨t, h⟩)
      have hc : 0 < 1 / 2 * ((sumCell v).state x t).2 j + 1 / 2 * tanhR (∑ i, v i * x ⟨t, h⟩ i) := by
        rcases Nat.lt_or_ge m.1 t with hlt | hge
        · have := (ih hlt j).1
          positivity
        · have e : m = ⟨t, h⟩ := Fin.ext (show m.1 = t by omega)
          rw [e] at hm
          have := tanhR_pos hm
          positivity
      exact ⟨hc, mul_pos (by norm_num) (tanhR_pos hc)⟩
    · exact ih (by have := m.2; omega) j

lemma sumBi_zero (v : Fin I → ℝ) (x : Fin N → Fin B → Fin I → ℝ) (b : Fin B) (hx : ∀ n, ∑ i, v i * x n b i = 0) (n : Fin N) (j : Fin (1 + 1)) :
    (sumBi v).apply x n b j = 0 := by
  unfold BiLstm.apply
  induction j using Fin.addCases with
  | left j => rw [Fin.append_left]; exact (sumCell_zero v _ (fun n => hx n) _ _).2
  | right j => rw [Fin.append_right]; exact (sumCell_zero v _ (fun n => hx _) _ _).2

lemma sumBi_nonneg (v : Fin I → ℝ) (x : Fin N → Fin B → Fin I → ℝ) (b : Fin B) (hx : ∀ n, 0 ≤ ∑ i, v i * x n b i) (n : Fin N) (j : Fin (1 + 1)) :
    0 ≤ (sumBi v).apply x n b j := by
  unfold BiLstm.apply
  induction j using Fin.addCases with
  | left j => rw [Fin.append_left]; exact (sumCell_nonneg v _ (fun n => hx n) _ _).2
  | right j => rw [Fin.append_right]; exact (sumCell_nonneg v _ (fun n => hx _) _ _).2

/-- An input at frame `m` is heard at every frame `n`: forwards if it is earlier, backwards if it is later. -/
lemma sumBi_pos (v : Fin I → ℝ) (x : Fin N → Fin B → Fin I → ℝ) (b : Fin B) (hx : ∀ n, 0 ≤ ∑ i, v i * x n b i) (m : Fin N)
    (hm : 0 < ∑ i, v i * x m b i) (n : Fin N) : ∃ j, 0 < (sumBi v).apply x n b j := by
  unfold BiLstm.apply
  rcases le_total m.1 n.1 with h | h
  · refine ⟨Fin.castAdd 1 0, ?_⟩
    rw [Fin.append_left]
    exact (sumCell_pos v _ (fun n => hx n) m hm _ (by omega) _).2
  · refine ⟨Fin.natAdd 1 0, ?_⟩
    rw [Fin.append_right]
    exact (sumCell_pos v _ (fun n => hx _) m.rev (by rw [Fin.rev_rev]; exact hm) _ (by simp only [Fin.val_rev]; omega) _).2

lemma sumRest_zero (L : ℕ) (p : ℝ) (keep) (x : Fin N → Fin B → Fin (1 + 1) → ℝ) (b : Fin B) (hx : ∀ n i, x n b i = 0) (n : Fin N) (j) :
    blstmRest p false (List.replicate L (sumBi fun _ => 1)) keep x n b j = 0 := by
  induction L generalizing x keep with
  | zero => exact hx n j
  | succ L ih =>
    rw [List.replicate_succ]
    unfold blstmRest
    exact ih _ _ fun n i => sumBi_zero _ _ _ (fun n => by simp [hx]) n i

lemma sumRest_pos (L : ℕ) (p : ℝ) (keep) (x : Fin N → Fin B → Fin (1 + 1) → ℝ) (b : Fin B) (hx : ∀ n i, 0 ≤ x n b i)
    (hp : ∀ n, ∃ j, 0 < x n b j) (n : Fin N) :
    (∀ j, 0 ≤ blstmRest p false (List.replicate L (sumBi fun _ => 1)) keep x n b j) ∧
    ∃ j, 0 < blstmRest p false (List.replicate L (sumBi fun _ => 1)) keep x n b j := by
  induction L generalizing x keep with
  | zero => exact ⟨hx n, hp n⟩
  | succ L ih =>
    rw [List.replicate_succ]
    unfold blstmRest
    have h0 : ∀ n, 0 ≤ ∑ i, (1 : ℝ) * (if false = true then (if keep 0 n b i then x n b i / (1 - p) else 0) else x n b i) := fun n =>
      Finset.sum_nonneg fun i _ => by simpa using hx n i
    refine ih _ _ (fun n i => sumBi_nonneg _ _ _ h0 n i) fun n => ?_
    obtain ⟨i₀, hi⟩ := hp n
    exact sumBi_pos _ _ _ h0 n (Finset.sum_pos' (fun i _ => by simpa using hx n i) ⟨i₀, Finset.mem_univ _, by simpa using hi⟩) n

/-- The output layer adds the last layer up: nothing heard, or something. -/
lemma sumNet_zero (v : Fin I → ℝ) (L : ℕ) (keep) (x : Fin B → Fin I → Fin N → ℝ) (b : Fin B) (hx : ∀ n, ∑ i, v i * x b i n = 0) (n : Fin N) :
    (sumNet v L).forward false keep x b 0 n = 0 := by
  unfold BlstmNet.forward Linear.apply
  simp only [Blstm.apply, sumNet]
  rw [zero_add]
  exact Finset.sum_eq_zero fun i _ => by
    rw [sumRest_zero L _ _ _ b (fun n i => sumBi_zero v _ b hx n i) n i, mul_zero]

lemma sumNet_pos (v : Fin I → ℝ) (L : ℕ) (keep) (x : Fin B → Fin I → Fin N → ℝ) (b : Fin B) (hx : ∀ n, 0 ≤ ∑ i, v i * x b i n) (m : Fin N)
    (hm : 0 < ∑ i, v i * x b i m) (n : Fin N) : 0 < (sumNet v L).forward false keep x b 0 n := by
  obtain ⟨h1, j, h2⟩ := sumRest_pos L (1 / 2) keep ((sumBi v).apply fun n b i => x b i n) b (fun n i => sumBi_nonneg v _ b hx n i)
    (fun n => sumBi_pos v _ b hx m hm n) n
  unfold BlstmNet.forward Linear.apply
  simp only [Blstm.apply, sumNet]
  rw [zero_add]
  exact Finset.sum_pos' (fun i _ => by simpa using h1 i) ⟨j, Finset.mem_univ _, by simpa using h2⟩

end Demo

/-- **C124 (reach).** There is no limit to how far `BLSTMMask` looks, in either direction: for every number of frames, of further layers, and every two
frames `n` and `m`, there are weights for which the mask at frame `n` changes with the input at frame `m` alone (in evaluation mode). -/
theorem blstm_reach (L : ℕ) (n m : Fin N) : ∃ (net : BlstmNet 1 1 1) (X X' : Sig 1 1 N), net.blstm.rest.length = L ∧
    (∀ t, t ≠ m → X 0 0 t = X' 0 0 t) ∧ ∀ keep keep',
      blstmForwardMag (fun _ _ => 1) false net false keep X 0 0 n ≠ blstmForwardMag (fun _ _ => 1) false net false keep' X' 0 0 n := by
  refine ⟨Demo.sumNet (fun _ => 1) L, fun _ _ _ => 0, fun _ _ t => if t = m then 1 else 0, by simp [Demo.sumNet], fun t ht => by simp [ht],
    fun keep keep' => ?_⟩
  have e0 := Demo.sumNet_zero (fun _ => 1) L keep (melPower (fun (_ : Fin 1) (_ : Fin 1) => 1) false (fun (_ : Fin 1) _ (_ : Fin N) => (0 : ℂ))) 0
    (fun n => by simp [melPower, magSq_eq]) n
  have hx : ∀ t, ∑ i : Fin 1, (1 : ℝ) * melPower (fun (_ : Fin 1) (_ : Fin 1) => 1) false (fun (_ : Fin 1) _ (t : Fin N) => if t = m then (1 : ℂ) else 0) 0 i t
      = if t = m then 1 else 0 := fun t => by
    by_cases h : t = m <;> simp [melPower, magSq_eq, h]
  have e1 := Demo.sumNet_pos (fun _ => 1) L keep' (melPower (fun (_ : Fin 1) (_ : Fin 1) => 1) false (fun (_ : Fin 1) _ (t : Fin N) => if t = m then (1 : ℂ) else 0)) 0
    (fun t => by rw [hx]; split_ifs <;> norm_num) m (by rw [hx, if_pos rfl]; norm_num) n
  have h2 := Demo.sigmoid_lt e1
  unfold blstmForwardMag blstmMask
  beta_reduce
  rw [e0]
  exact ne_of_lt (by nlinarith)

/-- Three layers, as in `BLSTMMask`; the first of a hundred frames sees the last one. -/
example : ∃ (net : BlstmNet 1 1 1) (X X' : Sig 1 1 100), net.blstm.rest.length = 2 ∧ (∀ t, t ≠ 99 → X 0 0 t = X' 0 0 t) ∧ ∀ keep keep',
    blstmForwardMag (fun _ _ => 1) false net false keep X 0 0 0 ≠ blstmForwardMag (fun _ _ => 1) false net false keep' X' 0 0 0 := blstm_reach 2 0 99

/-- **C122 (violated with `mag_spec=False`).** A quarter turn of the phase of the input changes the masks of `BLSTMMask(mag_spec=False)`, for every number
of further layers: it reads the real and the imaginary part. -/
theorem reim_masks_phase_violated (L : ℕ) : ∃ (net : BlstmNet 1 (1 + 1) 1) (X : Sig 1 1 1), net.blstm.rest.length = L ∧ ∀ keep keep',
    blstmForwardReIm (fun _ (_ : Fin 1) => 1) net false keep (fun b f n => Complex.I * X b f n) 0 0 0 ≠
      blstmForwardReIm (fun _ (_ : Fin 1) => 1) net false keep' X 0 0 0 := by
  refine ⟨Demo.sumNet (Fin.append (fun _ => 0) (fun _ => 1)) L, fun _ _ _ => 1, by simp [Demo.sumNet], fun keep keep' => ?_⟩
  have e0 := Demo.sumNet_zero (Fin.append (fun _ : Fin 1 => 0) (fun _ : Fin 1 => 1)) L keep' (melReIm (fun (_ : Fin 1) (_ : Fin 1) => 1)
    (fun (_ : Fin 1) _ (_ : Fin 1) => (1 : ℂ))) 0 (fun n => by rw [Fin.sum_univ_add, Fin.sum_univ_one, Fin.sum_univ_one]; simp only [melReIm, Fin.append_left, Fin.append_right]; simp) 0
  have hx : ∀ t, ∑ i : Fin (1 + 1), Fin.append (fun _ : Fin 1 => (0 : ℝ)) (fun _ : Fin 1 => 1) i * melReIm (fun (_ : Fin 1) (_ : Fin 1) => 1)
      (fun (_ : Fin 1) _ (_ : Fin 1) => Complex.I * 1) 0 i t = 1 := fun t => by rw [Fin.sum_univ_add, Fin.sum_univ_one, Fin.sum_univ_one]; simp only [melReIm, Fin.append_left, Fin.append_right]; simp
  have e1 := Demo.sumNet_pos (Fin.append (fun _ : Fin 1 => 0) (fun _ : Fin 1 => 1)) L keep (melReIm (fun (_ : Fin 1) (_ : Fin 1) => 1)
    (fun (_ : Fin 1) _ (_ : Fin 1) => Complex.I * 1)) 0 (fun t => by rw [hx]; norm_num) 0 (by rw [hx]; norm_num) 0
  have h2 := Demo.sigmoid_lt e1
  unfold blstmForwardReIm blstmMask
  beta_reduce
  rw [e0]
  exact ne_of_gt (by nlinarith)

/-! ## C117 random masks of recurrent models -/

namespace Demo

lemma sumRest_keep (L : ℕ) (x : Fin N → Fin B → Fin (1 + 1) → ℝ) (b : Fin B) (hx : ∀ n i, 0 ≤ x n b i) (hp : ∀ n, ∃ j, 0 < x n b j) (n : Fin N) :
    (∀ j, 0 ≤ blstmRest (1 / 2) true (List.replicate L (sumBi fun _ => 1)) (fun _ _ _ _ => true) x n b j) ∧
    ∃ j, 0 < blstmRest (1 / 2) true (List.replicate L (sumBi fun _ => 1)) (fun _ _ _ _ => true) x n b j := by
  induction L generalizing x with
  | zero => exact ⟨hx n, hp n⟩
  | succ L ih =>
    rw [List.replicate_succ]
    unfold blstmRest
    simp only [if_true]
    have h0 : ∀ n, 0 ≤ ∑ i, (1 : ℝ) * (x n b i / (1 - 1 / 2)) := fun n =>
      Finset.sum_nonneg fun i _ => by have := hx n i; norm_num; positivity
    refine ih _ (fun n i => sumBi_nonneg _ _ _ h0 n i) fun n => ?_
    obtain ⟨i₀, hi⟩ := hp n
    exact sumBi_pos _ _ _ h0 n (Finset.sum_pos' (fun i _ => by have := hx n i; norm_num; positivity) ⟨i₀, Finset.mem_univ _, by norm_num; positivity⟩) n

lemma sumRest_drop (L : ℕ) (x : Fin N → Fin B → Fin (1 + 1) → ℝ) (b : Fin B) (n : Fin N) (j) :
    blstmRest (1 / 2) true (List.replicate (L + 1) (sumBi fun _ => 1)) (fun _ _ _ _ => false) x n b j = 0 := by
  induction L generalizing x with
  | zero =>
    unfold blstmRest
    exact sumBi_zero _ _ _ (fun n => by simp) n j
  | succ L ih =>
    rw [List.replicate_succ]
    unfold blstmRest
    exact ih _

end Demo

/-- **C117 (violated, recurrent models).** In the mode in which separators are loaded, two calls of `BLSTMMask` (three layers, or any number above one) on the
same recording can give different masks. -/
theorem loaded_blstm_random_violated (L : ℕ) (n : Fin N) : ∃ (net : BlstmNet 1 1 1) (X : Sig 1 1 N) (keep keep' : ℕ → Fin N → Fin 1 → Fin (1 + 1) → Bool),
    net.blstm.rest.length = L + 1 ∧ net.dropoutP = 1 / 2 ∧
    blstmForwardMag (fun _ _ => 1) false net loadedTraining keep X 0 0 n ≠ blstmForwardMag (fun _ _ => 1) false net loadedTraining keep' X 0 0 n := by
  refine ⟨Demo.sumNet (fun _ => 1) (L + 1), fun _ _ _ => 1, fun _ _ _ _ => false, fun _ _ _ _ => true, by simp [Demo.sumNet], rfl, ?_⟩
  have hx : ∀ t : Fin N, ∑ i : Fin 1, (1 : ℝ) * melPower (fun (_ : Fin 1) (_ : Fin 1) => 1) false (fun (_ : Fin 1) _ (_ : Fin N) => (1 : ℂ)) 0 i t = 1 := fun t => by
    simp [melPower, magSq_eq]
  obtain ⟨h1, j, h2⟩ := Demo.sumRest_keep (L + 1) ((Demo.sumBi fun _ : Fin 1 => 1).apply fun n b i =>
      melPower (fun (_ : Fin 1) (_ : Fin 1) => 1) false (fun (_ : Fin 1) _ (_ : Fin N) => (1 : ℂ)) b i n) 0
    (fun n i => Demo.sumBi_nonneg _ _ 0 (fun n => by rw [hx]; norm_num) n i) (fun n => Demo.sumBi_pos _ _ 0 (fun n => by rw [hx]; norm_num) n (by rw [hx]; norm_num) n) n
  have e0 : (Demo.sumNet (fun _ : Fin 1 => 1) (L + 1)).forward true (fun _ _ _ _ => false) (melPower (fun (_ : Fin 1) (_ : Fin 1) => 1) false (fun (_ : Fin 1) _ (_ : Fin N) => (1 : ℂ))) 0 0 n = 0 := by
    unfold BlstmNet.forward Linear.apply
    simp only [Blstm.apply, Demo.sumNet]
    rw [zero_add]
    exact Finset.sum_eq_zero fun i _ => by rw [Demo.sumRest_drop, mul_zero]
  have e1 : 0 < (Demo.sumNet (fun _ : Fin 1 => 1) (L + 1)).forward true (fun _ _ _ _ => true) (melPower (fun (_ : Fin 1) (_ : Fin 1) => 1) false (fun (_ : Fin 1) _ (_ : Fin N) => (1 : ℂ))) 0 0 n := by
    unfold BlstmNet.forward Linear.apply
    simp only [Blstm.apply, Demo.sumNet]
    rw [zero_add]
    exact Finset.sum_pos' (fun i _ => by simpa using h1 i) ⟨j, Finset.mem_univ _, by simpa using h2⟩
  have h3 := Demo.sigmoid_lt e1
  unfold blstmForwardMag blstmMask loadedTraining
  beta_reduce
  rw [e0]
  exact ne_of_lt (by nlinarith)

end Torchiva.Props
