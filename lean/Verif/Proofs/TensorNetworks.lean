import Verif.Model.TensorNetworks
import Verif.Spec.TensorBeamformer
import Verif.Spec.TensorFive
import Verif.Proofs.TensorStft

/-!
# Proofs for the neural source models on tensors
-/

namespace Torchiva

variable {F N K pool k M H S : ℕ} {b : Shape} {τ : Type}

/-- The flattened signals of a batch. -/
noncomputable def flatSig (X : Ten ℂ) (F N : ℕ) (bs : Shape) : Sig (numel bs) F N :=
  fun i f n => X.val ((n : ℕ) :: (f : ℕ) :: unflatIdx bs i)

/-- What `netT` computes, whatever the layers. -/
theorem netT_val {X : Ten ℂ} {bs : Shape} (hX : X.shape = N :: F :: bs) (hN : 0 < N) (hF : 0 < F)
    (net : ∀ B N, Sig B F N → Except Err (Weights B F N × τ)) :
    match net (numel bs) N (flatSig X F N bs) with
    | .error e => netT net X = .error e
    | .ok r => ∃ w, netT net X = .ok (w, r.2) ∧ w.shape = N :: F :: bs ∧ ∀ γ (hγ : Inside γ bs) (f : Fin F) (n : Fin N),
        w.val ((n : ℕ) :: (f : ℕ) :: γ) = r.1 ⟨flatIdx bs γ, flatIdx_lt hγ⟩ f n := by
  obtain ⟨Xf, e, hs, hv⟩ := flatT_two hX hN hF
  have hB : Xf.shape.getD 2 0 = numel bs := by simp [hs]
  have hsig : (fun (b : Fin (numel bs)) (f : Fin F) (n : Fin N) => Xf.val [(n : ℕ), (f : ℕ), (b : ℕ)]) = flatSig X F N bs := by
    funext b f n
    exact hv n f b n.2 f.2
  have key : netT net X = (do
      let r ← net (numel bs) N (flatSig X F N bs)
      let w ← (ofItems r.1).reshape (N :: F :: bs)
      .ok (w, r.2)) := by
    unfold netT
    simp only [hX]
    rw [e, ok_bind', ← hsig]
    simp only [if_true]
    generalize Xf.shape.getD 2 0 = B at hB
    subst hB
    rfl
  rw [key]
  cases h : net (numel bs) N (flatSig X F N bs) with
  | error e => rw [err_bind']
  | ok r =>
    rw [ok_bind']
    dsimp only
    obtain ⟨w, e, hw, hwv⟩ := reshape_two (t := ofItems r.1) (s := bs) rfl
    refine ⟨w, by rw [e, ok_bind'], hw, fun γ hγ f n => ?_⟩
    rw [hwv n f γ n.2 f.2 hγ]
    simp [ofItems, flatIdx_lt hγ]

/-- Layers that treat every item alike give a model that treats every item alike. -/
theorem netT_items {X : Ten ℂ} {bs : Shape} (hX : X.shape = N :: F :: bs) (hN : 0 < N) (hF : 0 < F)
    {net : ∀ B N, Sig B F N → Except Err (Weights B F N × τ)} {w : ∀ B N, Sig B F N → Weights B F N} {t : τ}
    (hnet : ∀ B N x, net B N x = .ok (w B N x, t))
    (hw : ∀ B B' N (x : Sig B F N) (x' : Sig B' F N) i i', x i = x' i' → w B N x i = w B' N x' i') :
    ∃ r, netT net X = .ok (r, t) ∧ r.shape = N :: F :: bs ∧ ∀ γ, Inside γ bs → ∀ B (x : Sig B F N) i,
      (∀ f n, x i f n = X.val ((n : ℕ) :: (f : ℕ) :: γ)) → ∀ (f : Fin F) (n : Fin N), r.val ((n : ℕ) :: (f : ℕ) :: γ) = w B N x i f n := by
  have h := netT_val hX hN hF net
  rw [hnet] at h
  obtain ⟨r, e, hr, hv⟩ := h
  refine ⟨r, e, hr, fun γ hγ B x i hx f n => ?_⟩
  rw [hv γ hγ f n]
  refine congrFun (congrFun (hw _ _ _ _ _ _ _ ?_) f) n
  funext f n
  rw [hx, flatSig, unflat_flat hγ]

theorem netT_rep {net : τ → ∀ B N, Sig B F N → Except Err (Weights B F N × τ)} {t : τ}
    {w : ∀ B N, Sig B F N → Weights B F N} (hnet : ∀ B N x, net t B N x = .ok (w B N x, t))
    (hw : ∀ B B' N (x : Sig B F N) (x' : Sig B' F N) i i', x i = x' i' → w B N x i = w B' N x' i')
    (hN : 0 < N) (hF : 0 < F) (b : Shape) (s : ℕ) :
    ModelRep b s F N (fun ts X => netT (net ts) X) (fun s (_ : Unit) Y => (w s N Y, ())) fun ts _ => ts = t := by
  rintro ts ms Y A rfl hY
  obtain ⟨r, e, hr, hv⟩ := netT_items hY.shape hN hF hnet hw
  refine ⟨_, e, ⟨hr, fun β hβ c hc f hf n hn => ?_⟩, rfl⟩
  exact hv (c :: β) ⟨hc, hβ⟩ s (A β) ⟨c, hc⟩ (fun f n => (hY.val β hβ c hc f f.2 n n.2).symm) ⟨f, hf⟩ ⟨n, hn⟩

theorem netT_five {net : τ → ∀ B N, Sig B F N → Except Err (Weights B F N × τ)} {t : τ}
    {w : ∀ B N, Sig B F N → Weights B F N} (hnet : ∀ B N x, net t B N x = .ok (w B N x, t))
    (hw : ∀ B B' N (x : Sig B F N) (x' : Sig B' F N) i i', x i = x' i' → w B N x i = w B' N x' i')
    (hN : 0 < N) (hF : 0 < F) (b : Shape) :
    FiveModelRep b F N (fun ts X => netT (net ts) X) (fun s (_ : Unit) Y => (w s N Y, ())) fun ts _ => ts = t := by
  rintro ts ms Y A rfl hY
  obtain ⟨r, e, hr, hv⟩ := netT_items hY.shape hN hF hnet hw
  refine ⟨_, e, ⟨hr, fun β hβ f hf n hn => ?_⟩, rfl⟩
  exact hv β hβ 1 (fun _ => A β) 0 (fun f n => (hY.val β hβ f f.2 n n.2).symm) ⟨f, hf⟩ ⟨n, hn⟩

/-- Rearranging the features of the masks. -/
theorem reshape_masks {t : Ten ℝ} {b : Shape} (h : t.shape = N :: (M * S * F) :: b) :
    ∃ r, t.reshape (N :: F :: M :: S :: b) = .ok r ∧ r.shape = N :: F :: M :: S :: b ∧
      ∀ n f m s β, n < N → f < F → m < M → s < S → Inside β b →
        r.val (n :: f :: m :: s :: β) = t.val (n :: ((s * M + m) * F + f) :: β) := by
  have hs : reshapeS t.shape (N :: F :: M :: S :: b) = .ok (N :: F :: M :: S :: b) := by
    rw [reshapeS, if_pos]
    simp only [h, numel, List.prod_cons]
    ring
  unfold Ten.reshape
  rw [hs, ok_bind']
  refine ⟨_, rfl, rfl, fun n f m s β hn hf hm hs hβ => ?_⟩
  dsimp only
  have h1 : s * M + m < M * S := by nlinarith
  have h2 : (s * M + m) * F + f < M * S * F := by nlinarith
  have e : flatIdx (N :: F :: M :: S :: b) (n :: f :: m :: s :: β) =
      flatIdx (N :: (M * S * F) :: b) (n :: ((s * M + m) * F + f) :: β) := by
    simp only [flatIdx]
    ring
  rw [h, e, unflat_flat (β := n :: ((s * M + m) * F + f) :: β) (b := N :: (M * S * F) :: b) ⟨hn, h2, hβ⟩]

/-- `MaskMVDRSupport` treats the items of a batch one by one when its layers do. -/
theorem supportT_rep (net : SupportNet F H S M) (training : Bool) (keep : ∀ B N, ℕ → Fin N → Fin B → Fin (H + H) → Bool)
    (hw : ∀ B B' (x : Sig B F N) (x' : Sig B' F N) i i', x i = x' i' →
      net.features training (keep B N) x i = net.features training (keep B' N) x' i')
    (hN : 0 < N) (hF : 0 < F) (hM : 0 < M) (hS : 0 < S) {b : Shape} (hb : ∃ β, Inside β b) :
    MaskRep b S F N M (supportT net training keep) fun x => ⟨M, net.forward training (keep 1 N) (fun _ => x) 0⟩ := by
  intro x A hx
  have hnb : 0 < numel b := by
    obtain ⟨β, hβ⟩ := hb
    have := flatIdx_lt hβ
    omega
  obtain ⟨Xf, e, hs, hv⟩ := flatT_two hx.shape hN hF
  have hB : Xf.shape.getD 2 0 = numel b := by simp [hs]
  unfold supportT
  simp only [hx.shape]
  rw [e, ok_bind']
  simp only [if_true]
  generalize Xf.shape.getD 2 0 = B at hB
  subst hB
  obtain ⟨r, e, hr, hrv⟩ := reshape_two (s := b) (t := ofItems (net.features training (keep (numel b) N)
    fun b f n => Xf.val [(n : ℕ), (f : ℕ), (b : ℕ)])) rfl
  rw [e, ok_bind', if_neg (by positivity)]
  have hq : numel r.shape / (N * M * S * numel b) = F := by
    have : numel r.shape = N * M * S * numel b * F := by simp [hr, numel]; ring
    rw [this, Nat.mul_div_cancel_left _ (by positivity)]
  rw [hq]
  obtain ⟨t, e, ht, htv⟩ := reshape_masks hr
  refine ⟨t, e, fun β s m f n => net.forward training (keep 1 N) (fun _ => A β) 0 s m f n, ⟨ht, fun β hβ s hs m hm f hf n hn => ?_⟩,
    fun β => rfl⟩
  have h1 : s * M + m < M * S := by nlinarith
  have h2 : (s * M + m) * F + f < M * S * F := by nlinarith
  rw [htv n f m s β hn hf hm hs hβ, hrv n _ β hn h2 hβ]
  have hc : flatIdx b β < numel b ∧ (s * M + m) * F + f < M * S * F ∧ n < N := ⟨flatIdx_lt hβ, h2, hn⟩
  simp only [ofItems, List.getD_cons_zero, List.getD_cons_succ, dif_pos hc]
  rw [hw (numel b) 1 _ (fun _ => A β) ⟨flatIdx b β, flatIdx_lt hβ⟩ 0 (by
    funext f n
    rw [hv n f _ n.2 f.2, unflat_flat hβ, hx.val β hβ f f.2 n n.2])]
  rfl

end Torchiva
