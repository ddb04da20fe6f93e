import Verif.Proofs.TensorStft
import Verif.Proofs.TensorBeamformer
import Verif.Props.TensorNmf
import Verif.Props.TensorFive
import Verif.Props.TensorBeamformer
import Verif.Props.TensorScaling
import Verif.Props.Pipeline

/-!
# The STFT and the separator of recordings treat a batch item by item (C136)

`stftT` and `istftT` flatten the batch dimensions and the channels into one dimension, transform, and restore the
dimensions; `separateT` is `BSSSeparator.forward` on a batch of recordings.
-/

namespace Torchiva.Props

open Torchiva

variable {b : Shape} {C S n : ℕ} {τ σ : Type}

private theorem rep2_item {x : Ten ℝ} (hx : x.shape = n :: C :: b) : Rep2 b C n x (item2 x C n) :=
  ⟨hx, fun _ _ _ _ _ _ => rfl⟩

/-- **C136.**  `STFT.forward` on a batch of recordings returns exactly when it returns for every recording, and then holds
the spectrograms of the recordings, channel by channel. -/
theorem stft_batch (nFft : ℕ) (hop : Option ℕ) (w : Fin nFft → ℝ) (x : Ten ℝ) (hx : x.shape = n :: C :: b) (hC : 0 < C)
    (hb : ∃ β, Inside β b) :
    Batched b (fun t (a : List ℕ → Sig C (nFft / 2 + 1) (stftFrames nFft (hopOf nFft hop) n)) => Rep3 b C _ _ t a)
      (stftT nFft hop w x) fun β => stftAll nFft hop w (item2 x C n β) :=
  stftT_rep nFft hop w (rep2_item hx) hC hb

example (x : Ten ℝ) (hx : x.shape = [16000, 2, 2, 3]) :
    Batched [2, 3] (fun t (a : List ℕ → Sig 2 (4096 / 2 + 1) (stftFrames 4096 (hopOf 4096 none) 16000)) => Rep3 [2, 3] 2 _ _ t a)
      (stftT 4096 none (hann 4096) x) fun β => stftAll 4096 none (hann 4096) (item2 x 2 16000 β) :=
  stft_batch 4096 none (hann 4096) x hx (by norm_num) ⟨[0, 0], by simp [Inside]⟩

/-- **C136**, seen from outside: `stft(x)[β] = stft(x[β])`, and when `stft(x)` raises, `stft(x[β])` raises the same exception. -/
theorem stft_batch_alone (nFft : ℕ) (hop : Option ℕ) (w : Fin nFft → ℝ) (x : Ten ℝ) (hx : x.shape = n :: C :: b)
    (hC : 0 < C) (hb : ∃ β, Inside β b) :
    AsAlone b IsItem (stftT nFft hop w x) fun β => stftT nFft hop w (x.itemAt 2 β) :=
  (stft_batch nFft hop w x hx hC hb).alone
    (fun β _ => stft_batch nFft hop w (x.itemAt 2 β) (by simp [Ten.itemAt, hx]) hC ⟨[], trivial⟩)
    (fun _ => rfl) fun _ _ _ _ _ hβ h h1 e => h.isItem h1 hβ e

example (x : Ten ℝ) (hx : x.shape = [16000, 2, 2, 3]) :
    AsAlone [2, 3] IsItem (stftT 4096 none (hann 4096) x) fun β => stftT 4096 none (hann 4096) (x.itemAt 2 β) :=
  stft_batch_alone 4096 none (hann 4096) x hx (by norm_num) ⟨[0, 0], by simp [Inside]⟩

/-- **C136.**  `STFT.inv` on a batch of spectrograms. -/
theorem istft_batch (nFft : ℕ) (hop : Option ℕ) (w : Fin nFft → ℝ) {N : ℕ} (Y : Ten ℂ)
    (hY : Y.shape = N :: (nFft / 2 + 1) :: S :: b) (hS : 0 < S) (hb : ∃ β, Inside β b) :
    Batched b (fun t (a : List ℕ → Fin S → Fin (istftLen nFft (hopOf nFft hop) N) → ℝ) => Rep2 b S _ t a)
      (istftT nFft hop w Y) fun β => istftAll nFft hop w (item3 Y S (nFft / 2 + 1) N β) :=
  istftT_rep nFft hop w ⟨hY, fun _ _ _ _ _ _ _ _ => rfl⟩ hS hb

example (Y : Ten ℂ) (hY : Y.shape = [16, 4096 / 2 + 1, 2, 2, 3]) :
    Batched [2, 3] (fun t (a : List ℕ → Fin 2 → Fin (istftLen 4096 (hopOf 4096 none) 16) → ℝ) => Rep2 [2, 3] 2 _ t a)
      (istftT 4096 none (hann 4096) Y) fun β => istftAll 4096 none (hann 4096) (item3 Y 2 (4096 / 2 + 1) 16 β) :=
  istft_batch 4096 none (hann 4096) Y hY (by norm_num) ⟨[0, 0], by simp [Inside]⟩

/-- **C136**, seen from outside: `stft.inv(Y)[β] = stft.inv(Y[β])`. -/
theorem istft_batch_alone (nFft : ℕ) (hop : Option ℕ) (w : Fin nFft → ℝ) {N : ℕ} (Y : Ten ℂ)
    (hY : Y.shape = N :: (nFft / 2 + 1) :: S :: b) (hS : 0 < S) (hb : ∃ β, Inside β b) :
    AsAlone b IsItem (istftT nFft hop w Y) fun β => istftT nFft hop w (Y.itemAt 3 β) :=
  (istft_batch nFft hop w Y hY hS hb).alone
    (fun β _ => istft_batch nFft hop w (Y.itemAt 3 β) (by simp [Ten.itemAt, hY]) hS ⟨[], trivial⟩)
    (fun _ => rfl) fun _ _ _ _ _ hβ h h1 e => h.isItem h1 hβ e

example (Y : Ten ℂ) (hY : Y.shape = [16, 4096 / 2 + 1, 2, 2, 3]) :
    AsAlone [2, 3] IsItem (istftT 4096 none (hann 4096) Y) fun β => istftT 4096 none (hann 4096) (Y.itemAt 3 β) :=
  istft_batch_alone 4096 none (hann 4096) Y hY (by norm_num) ⟨[0, 0], by simp [Inside]⟩

/-- The separator `sep` of spectrograms with `C` channels, `F` frequencies and `N` frames into `S` signals treats item `β` of a
batch of shape `b` as `sep1 β` does. -/
def SeparatesPerItem (b : Shape) (C S F N : ℕ) (sep : Ten ℂ → Except Err (Ten ℂ))
    (sep1 : List ℕ → Sig C F N → Except Err (Sig S F N)) : Prop :=
  ∀ X : Ten ℂ, X.shape = N :: F :: C :: b →
    Batched b (fun t (a : List ℕ → Sig S F N) => Rep3 b S F N t a) (sep X) fun β => sep1 β (item3 X C F N β)

/-- The same, up to which exception is raised. -/
def SeparatesPerItemOk (b : Shape) (C S F N : ℕ) (sep : Ten ℂ → Except Err (Ten ℂ))
    (sep1 : List ℕ → Sig C F N → Except Err (Sig S F N)) : Prop :=
  ∀ X : Ten ℂ, X.shape = N :: F :: C :: b →
    BatchedOk b (fun t (a : List ℕ → Sig S F N) => Rep3 b S F N t a) (sep X) fun β => sep1 β (item3 X C F N β)

private theorem rep3_item_eq {F N : ℕ} {X : Ten ℂ} {A : List ℕ → Sig C F N} (hX : Rep3 b C F N X A) (β : List ℕ)
    (hβ : Inside β b) : item3 X C F N β = A β := by
  funext c f m
  exact hX.val β hβ c c.2 f f.2 m m.2

/-- **C136.**  A separator that treats the items of a batch of spectrograms one by one gives a `BSSSeparator` that treats
the items of a batch of recordings one by one: `separate(x)` returns exactly when `separate(x[β])` returns for every
`β`, and holds the results of the recordings; when it raises, it raises what it raises for one of the recordings. -/
theorem recordings_batch (nFft : ℕ) (hop : Option ℕ) (w : Fin nFft → ℝ) {sep : Ten ℂ → Except Err (Ten ℂ)}
    {sep1 : List ℕ → Sig C (nFft / 2 + 1) (stftFrames nFft (hopOf nFft hop) n) →
      Except Err (Sig S (nFft / 2 + 1) (stftFrames nFft (hopOf nFft hop) n))}
    (hsep : SeparatesPerItem b C S _ _ sep sep1) (x : Ten ℝ) (hx : x.shape = n :: C :: b) (hC : 0 < C) (hS : 0 < S)
    (hb : ∃ β, Inside β b) :
    Batched b (fun t (a : List ℕ → Fin S → Fin n → ℝ) => Rep2 b S n t a) (separateT nFft hop w sep x) fun β =>
      separateRecording nFft hop w (sep1 β) (item2 x C n β) :=
  separateT_rep nFft hop w (fun X A hX => (hsep X hX.shape).congr fun β hβ => by rw [rep3_item_eq hX β hβ])
    (rep2_item hx) hC hS hb

/-- **C136** for separators whose exceptions differ (the beamformers). -/
theorem recordings_batch_ok (nFft : ℕ) (hop : Option ℕ) (w : Fin nFft → ℝ) {sep : Ten ℂ → Except Err (Ten ℂ)}
    {sep1 : List ℕ → Sig C (nFft / 2 + 1) (stftFrames nFft (hopOf nFft hop) n) →
      Except Err (Sig S (nFft / 2 + 1) (stftFrames nFft (hopOf nFft hop) n))}
    (hsep : SeparatesPerItemOk b C S _ _ sep sep1) (x : Ten ℝ) (hx : x.shape = n :: C :: b) (hC : 0 < C) (hS : 0 < S)
    (hb : ∃ β, Inside β b) :
    BatchedOk b (fun t (a : List ℕ → Fin S → Fin n → ℝ) => Rep2 b S n t a) (separateT nFft hop w sep x) fun β =>
      separateRecording nFft hop w (sep1 β) (item2 x C n β) := by
  unfold separateT separateRecording
  simp only [hx]
  refine (stftT_rep nFft hop w (rep2_item hx) hC hb).toOk.bind fun X a hX => ?_
  refine ((hsep X hX.shape).congr (y' := fun β => sep1 β (a β)) fun β hβ => by
    rw [rep3_item_eq hX β hβ]).bind fun Y a' hY => ?_
  refine (istftT_rep nFft hop w hY hS hb).toOk.bind fun y a'' hy => ?_
  exact (Batched.of_ok (fixLengthT_rep n hy)).toOk

/-- **C136**, seen from outside: `separate(x)[β] = separate(x[β])` for every batch index `β`, and when `separate(x)` raises,
`separate(x[β])` raises the same exception for some `β`.  `sepA β` is the separator with the source model that goes with
item `β`. -/
theorem recordings_batch_alone (nFft : ℕ) (hop : Option ℕ) (w : Fin nFft → ℝ) {sep : Ten ℂ → Except Err (Ten ℂ)}
    {sepA : List ℕ → Ten ℂ → Except Err (Ten ℂ)}
    {sep1 : List ℕ → Sig C (nFft / 2 + 1) (stftFrames nFft (hopOf nFft hop) n) →
      Except Err (Sig S (nFft / 2 + 1) (stftFrames nFft (hopOf nFft hop) n))}
    (hsep : SeparatesPerItem b C S _ _ sep sep1) (hsep1 : ∀ β, SeparatesPerItem [] C S _ _ (sepA β) fun _ => sep1 β)
    (x : Ten ℝ) (hx : x.shape = n :: C :: b) (hC : 0 < C) (hS : 0 < S) (hb : ∃ β, Inside β b) :
    AsAlone b IsItem (separateT nFft hop w sep x) fun β => separateT nFft hop w (sepA β) (x.itemAt 2 β) :=
  (recordings_batch nFft hop w hsep x hx hC hS hb).alone
    (fun β _ => recordings_batch nFft hop w (hsep1 β) (x.itemAt 2 β) (by simp [Ten.itemAt, hx]) hC hS ⟨[], trivial⟩)
    (fun _ => rfl) fun _ _ _ _ _ hβ h h1 e => h.isItem h1 hβ e

theorem recordings_batch_alone_ok (nFft : ℕ) (hop : Option ℕ) (w : Fin nFft → ℝ) {sep : Ten ℂ → Except Err (Ten ℂ)}
    {sepA : List ℕ → Ten ℂ → Except Err (Ten ℂ)}
    {sep1 : List ℕ → Sig C (nFft / 2 + 1) (stftFrames nFft (hopOf nFft hop) n) →
      Except Err (Sig S (nFft / 2 + 1) (stftFrames nFft (hopOf nFft hop) n))}
    (hsep : SeparatesPerItemOk b C S _ _ sep sep1) (hsep1 : ∀ β, SeparatesPerItemOk [] C S _ _ (sepA β) fun _ => sep1 β)
    (x : Ten ℝ) (hx : x.shape = n :: C :: b) (hC : 0 < C) (hS : 0 < S) (hb : ∃ β, Inside β b) :
    AsAloneOk b IsItem (separateT nFft hop w sep x) fun β => separateT nFft hop w (sepA β) (x.itemAt 2 β) :=
  (recordings_batch_ok nFft hop w hsep x hx hC hS hb).alone
    (fun β _ => recordings_batch_ok nFft hop w (hsep1 β) (x.itemAt 2 β) (by simp [Ten.itemAt, hx]) hC hS ⟨[], trivial⟩)
    (fun _ => rfl) fun _ _ _ _ _ hβ h h1 e => h.isItem h1 hβ e

/-- A separator that meets the hypotheses of the last four theorems: the one that returns the channels themselves. -/
example (x : Ten ℝ) (hx : x.shape = [16000, 2, 2, 3]) :
    AsAlone [2, 3] IsItem (separateT 4096 none (hann 4096) .ok x) (fun β => separateT 4096 none (hann 4096) .ok (x.itemAt 2 β)) ∧
    AsAloneOk [2, 3] IsItem (separateT 4096 none (hann 4096) .ok x) fun β => separateT 4096 none (hann 4096) .ok (x.itemAt 2 β) := by
  have h : ∀ (b : Shape) (F N : ℕ), SeparatesPerItem b 2 2 F N .ok fun _ => .ok := fun b F N X hX =>
    Batched.of_ok ⟨X, rfl, (⟨hX, fun _ _ _ _ _ _ _ _ => rfl⟩ : Rep3 b 2 F N X (item3 X 2 F N))⟩
  exact ⟨recordings_batch_alone 4096 none (hann 4096) (sepA := fun _ => .ok) (h _ _ _) (fun _ => h _ _ _) x hx (by norm_num) (by norm_num)
      ⟨[0, 0], by simp [Inside]⟩,
    recordings_batch_alone_ok 4096 none (hann 4096) (sepA := fun _ => .ok) (fun X hX => (h _ _ _ X hX).toOk)
      (fun _ X hX => (h _ _ _ X hX).toOk) x hx (by norm_num) (by norm_num) ⟨[0, 0], by simp [Inside]⟩⟩

/-! ## The separators of the library -/

/-- The signals of one mixture separated by T-ISS. -/
noncomputable def tissItem {F N : ℕ} (p : TissParams) (nSrc : Option ℕ) (hs : nSrc.getD C ≤ C) (m : SourceModel σ F N) (ms : σ)
    (X : Sig C F N) : Except Err (Sig (nSrc.getD C) F N) := tissCore hs p X m ms >>= fun o => .ok o.Y

theorem tiss_per_item (p : TissParams) (nSrc : Option ℕ) (hs : nSrc.getD C ≤ C) {F N : ℕ} {M : TenModel τ}
    {m : SourceModel σ F N} {R : τ → (List ℕ → σ) → Prop} (hM : ModelRep b (nSrc.getD C) F N M m R) (resetT : τ → τ)
    (reset : σ → σ) (ts : τ) (ms : List ℕ → σ) (hR : R (resetT ts) fun β => reset (ms β)) (hb : ∃ β, Inside β b)
    (hmic : ∀ mic ∈ p.projBackMic, 0 < p.nIter → ¬ (nSrc.getD C ≤ mic ∧ mic < C ∧ b ≠ [])) :
    SeparatesPerItem b C (nSrc.getD C) F N (fun X => tissForwardT p nSrc M resetT ts X >>= fun r => .ok r.Y) fun β =>
      tissItem p nSrc hs m (reset (ms β)) := by
  intro X hX
  unfold tissForwardT tissItem
  simp only [hX]
  rw [if_pos hs]
  exact (tissCoreT_rep hs p hM (⟨hX, fun _ _ _ _ _ _ _ _ => rfl⟩ : Rep3 b C F N X (item3 X C F N)) hR hmic hb).bind
    fun r a h => ⟨_, fun _ _ => rfl, h.Y⟩

/-- **C136** with T-ISS: `separate(x)[β] = separate(x[β])`. -/
theorem tiss_recordings_batch (nFft : ℕ) (hop : Option ℕ) (w : Fin nFft → ℝ) (p : TissParams) (nSrc : Option ℕ)
    (hs : nSrc.getD C ≤ C) (hs0 : 0 < nSrc.getD C) {M : TenModel τ}
    {m : SourceModel σ (nFft / 2 + 1) (stftFrames nFft (hopOf nFft hop) n)} {R R1 : τ → (List ℕ → σ) → Prop}
    (hM : ModelRep b (nSrc.getD C) _ _ M m R) (hM1 : ModelRep [] (nSrc.getD C) _ _ M m R1) (resetT : τ → τ)
    (reset : σ → σ) (ts : τ) (ts1 : List ℕ → τ) (ms : List ℕ → σ) (hR : R (resetT ts) fun β => reset (ms β))
    (hR1 : ∀ β, R1 (resetT (ts1 β)) fun _ => reset (ms β)) (x : Ten ℝ) (hx : x.shape = n :: C :: b)
    (hb : ∃ β, Inside β b) (hmic : ∀ mic ∈ p.projBackMic, 0 < p.nIter → ¬ (nSrc.getD C ≤ mic ∧ mic < C ∧ b ≠ [])) :
    AsAlone b IsItem (separateT nFft hop w (fun X => tissForwardT p nSrc M resetT ts X >>= fun r => .ok r.Y) x) fun β =>
      separateT nFft hop w (fun X => tissForwardT p nSrc M resetT (ts1 β) X >>= fun r => .ok r.Y) (x.itemAt 2 β) :=
  recordings_batch_alone nFft hop w (sepA := fun β X => tissForwardT p nSrc M resetT (ts1 β) X >>= fun r => .ok r.Y)
    (tiss_per_item p nSrc hs hM resetT reset ts ms hR hb hmic)
    (fun β => tiss_per_item p nSrc hs hM1 resetT reset (ts1 β) (fun _ => ms β) (hR1 β) ⟨[], trivial⟩ (by simp))
    x hx (by omega) hs0 hb

/-- **C136** with T-ISS and the NMF model: the model of the recording alone draws the numbers drawn for it in the batch. -/
theorem tiss_nmf_recordings_batch (nFft : ℕ) (hop : Option ℕ) (w : Fin nFft → ℝ) (p : TissParams) (nSrc : Option ℕ)
    (hs : nSrc.getD C ≤ C) (hs0 : 0 < nSrc.getD C) {K : ℕ} {eps : ℝ} (he : 0 < eps) (uT uV : List ℕ → ℝ)
    (hT : ∀ i, 0 ≤ uT i) (hV : ∀ i, 0 ≤ uV i) (st : Option NmfT) (st1 : List ℕ → Option NmfT) (x : Ten ℝ)
    (hx : x.shape = n :: C :: b) (hb : ∃ β, Inside β b)
    (hmic : ∀ mic ∈ p.projBackMic, 0 < p.nIter → ¬ (nSrc.getD C ≤ mic ∧ mic < C ∧ b ≠ [])) :
    AsAlone b IsItem (separateT nFft hop w (fun X => tissForwardT p nSrc (nmfT eps K) nmfResetT
        { freshNmf uT uV with st := st } X >>= fun r => .ok r.Y) x) fun β =>
      separateT nFft hop w (fun X => tissForwardT p nSrc (nmfT eps K) nmfResetT
        { freshNmfItem (nSrc.getD C) b uT uV β with st := st1 β } X >>= fun r => .ok r.Y) (x.itemAt 2 β) := by
  haveI : NeZero (stftFrames nFft (hopOf nFft hop) n) := ⟨by simp [stftFrames]⟩
  exact tiss_recordings_batch nFft hop w p nSrc hs hs0 (nmf_per_item b (nSrc.getD C) _ _ K he)
    (nmf_per_item [] (nSrc.getD C) _ _ K he) nmfResetT nmfItemReset { freshNmf uT uV with st := st }
    (fun β => { freshNmfItem (nSrc.getD C) b uT uV β with st := st1 β }) (itemState (nSrc.getD C) _ _ K b uT uV)
    (fresh_rep eps _ _ _ K b uT uV hT hV) (fun β => fresh_rep_item eps _ _ _ K b uT uV hT hV β) x hx hb hmic

/-- The signals of one mixture separated by AuxIVA-IP. -/
noncomputable def ipItem {F N : ℕ} (p : IpParams) (s : ℕ) (m : SourceModel σ F N) (reset : σ → σ) (ms : σ)
    (X : Sig C F N) : Except Err (Sig s F N) := do
  let o ← auxivaForward p (some s) X m reset ms
  .ok fun k f t => if h : k.1 < o.1 then o.2.Y ⟨k, h⟩ f t else 0

theorem ip_per_item (p : IpParams) (s : ℕ) {F N : ℕ} {M : TenModel τ}
    {m : SourceModel σ F N} {R : τ → (List ℕ → σ) → Prop} (hM : ModelRep b s F N M m R) (resetT : τ → τ)
    (reset : σ → σ) (ts : τ) (ms : List ℕ → σ) (hR : R (resetT ts) fun β => reset (ms β)) (hb : ∃ β, Inside β b)
    (hmic : ∀ mic ∈ p.projBackMic, mic < s) :
    SeparatesPerItem b C s F N (fun X => auxivaForwardT p (some s) M resetT ts X >>= fun r => .ok r.Y) fun β =>
      ipItem p s m reset (ms β) := by
  intro X hX
  unfold ipItem
  refine (auxiva_batch p (some s) hM resetT reset ts ms hR X hX hb fun mic h s' h' => by
    obtain rfl := Option.some.inj h'
    exact hmic mic h).bind (S := fun t (a : List ℕ → Sig s F N) => Rep3 b s F N t a) (k := fun r => .ok r.Y)
      (k' := fun _ o => .ok fun k f t => if h : k.1 < o.1 then o.2.Y ⟨k, h⟩ f t else 0) fun r a h => ?_
  obtain ⟨s', hs', A, hA, h⟩ := h
  obtain rfl := Option.some.inj hs'
  obtain rfl : a = fun β => ⟨s, A β⟩ := funext hA
  refine ⟨fun β => (A β).Y, fun β _ => ?_, h.Y⟩
  simp

/-- **C136** with AuxIVA-IP: `separate(x)[β] = separate(x[β])`. -/
theorem auxiva_recordings_batch (nFft : ℕ) (hop : Option ℕ) (w : Fin nFft → ℝ) (p : IpParams) (hC : 0 < C)
    (hS : 0 < S) {M : TenModel τ} {m : SourceModel σ (nFft / 2 + 1) (stftFrames nFft (hopOf nFft hop) n)}
    {R R1 : τ → (List ℕ → σ) → Prop} (hM : ModelRep b S _ _ M m R) (hM1 : ModelRep [] S _ _ M m R1) (resetT : τ → τ)
    (reset : σ → σ) (ts : τ) (ts1 : List ℕ → τ) (ms : List ℕ → σ) (hR : R (resetT ts) fun β => reset (ms β))
    (hR1 : ∀ β, R1 (resetT (ts1 β)) fun _ => reset (ms β)) (x : Ten ℝ) (hx : x.shape = n :: C :: b)
    (hb : ∃ β, Inside β b) (hmic : ∀ mic ∈ p.projBackMic, mic < S) :
    AsAlone b IsItem (separateT nFft hop w (fun X => auxivaForwardT p (some S) M resetT ts X >>= fun r => .ok r.Y) x)
      fun β => separateT nFft hop w (fun X => auxivaForwardT p (some S) M resetT (ts1 β) X >>= fun r => .ok r.Y)
        (x.itemAt 2 β) :=
  recordings_batch_alone nFft hop w
    (sepA := fun β X => auxivaForwardT p (some S) M resetT (ts1 β) X >>= fun r => .ok r.Y)
    (ip_per_item p S hM resetT reset ts ms hR hb hmic)
    (fun β => ip_per_item p S hM1 resetT reset (ts1 β) (fun _ => ms β) (hR1 β) ⟨[], trivial⟩ hmic) x hx hC hS hb

/-- **C136** with AuxIVA-IP2: `separate(x)[β] = separate(x[β])`. -/
theorem ip2_recordings_batch (nFft : ℕ) (hop : Option ℕ) (w : Fin nFft → ℝ) (nIter : ℕ) (pb : Option ℤ) (eps : ℝ)
    (hC : 0 < C) {M : TenModel τ} {m : SourceModel σ (nFft / 2 + 1) (stftFrames nFft (hopOf nFft hop) n)}
    {R R1 : τ → (List ℕ → σ) → Prop} (hM : ModelRep b 2 _ _ M m R) (hM1 : ModelRep [] 2 _ _ M m R1) (resetT : τ → τ)
    (reset : σ → σ) (ts : τ) (ts1 : List ℕ → τ) (ms : List ℕ → σ) (hR : R (resetT ts) fun β => reset (ms β))
    (hR1 : ∀ β, R1 (resetT (ts1 β)) fun _ => reset (ms β)) (x : Ten ℝ) (hx : x.shape = n :: C :: b)
    (hb : ∃ β, Inside β b) :
    AsAlone b IsItem (separateT nFft hop w (auxiva2ForwardT nIter pb eps M resetT ts) x) fun β =>
      separateT nFft hop w (auxiva2ForwardT nIter pb eps M resetT (ts1 β)) (x.itemAt 2 β) :=
  recordings_batch_alone nFft hop w (sepA := fun β => auxiva2ForwardT nIter pb eps M resetT (ts1 β))
    (sep1 := fun β X => auxiva2Forward nIter pb eps X m reset (ms β))
    (fun X hX => ip2_batch nIter pb eps hM resetT reset ts ms hR X hX hb)
    (fun β X hX => ip2_batch nIter pb eps hM1 resetT reset (ts1 β) (fun _ => ms β) (hR1 β) X hX ⟨[], trivial⟩)
    x hx hC (by norm_num) hb

/-- **C136** with FIVE: `extract(x)[β] = extract(x[β])`. -/
theorem five_recordings_batch (nFft : ℕ) (hop : Option ℕ) (w : Fin nFft → ℝ) (solver : Solver) (nIter : ℕ) [NeZero C]
    (ref : Fin C) (nPower : Option ℕ) {M : TenModel τ}
    {m : SourceModel σ (nFft / 2) (stftFrames nFft (hopOf nFft hop) n)}
    {R R1 : τ → (List ℕ → σ) → Prop} (hM : FiveModelRep b _ _ M m R) (hM1 : FiveModelRep [] _ _ M m R1)
    (resetT : τ → τ) (reset : σ → σ) (ts : τ) (ts1 : List ℕ → τ) (ms : List ℕ → σ)
    (hR : R (resetT ts) fun β => reset (ms β)) (hR1 : ∀ β, R1 (resetT (ts1 β)) fun _ => reset (ms β)) (x : Ten ℝ)
    (hx : x.shape = n :: C :: b) (hb : ∃ β, Inside β b) :
    AsAlone b IsItem (separateT nFft hop w (fiveForwardT solver nIter ref nPower M resetT ts) x) fun β =>
      separateT nFft hop w (fiveForwardT solver nIter ref nPower M resetT (ts1 β)) (x.itemAt 2 β) :=
  recordings_batch_alone nFft hop w (sepA := fun β => fiveForwardT solver nIter ref nPower M resetT (ts1 β))
    (sep1 := fun β X => fiveForward (solver C) nIter ref nPower X m reset (ms β))
    (fun X hX => five_batch solver nIter ref nPower hM resetT reset ts ms hR X hX hb)
    (fun β X hX => five_batch solver nIter ref nPower hM1 resetT reset (ts1 β) (fun _ => ms β) (hR1 β) X hX ⟨[], trivial⟩)
    x hx (Nat.pos_of_ne_zero (NeZero.ne C)) (by norm_num) hb

/-- **C136** with the three beamformers, up to which exception is raised. -/
theorem beamformer_recordings_batch (nFft : ℕ) (hop : Option ℕ) (w : Fin nFft → ℝ) {M : ℕ} [NeZero C] (hS : 0 < S)
    {mask : MaskT} {m : (Fin (nFft / 2 + 1) → Fin (stftFrames nFft (hopOf nFft hop) n) → ℂ) → MaskOut S _ _}
    (hm : MaskRep b S _ _ M mask m) (hm1 : MaskRep [] S _ _ M mask m) (solver : Solver) (ref : Fin C) (eps : ℝ)
    (mvdrType : String) (nPower : Option ℕ) (timeInvariant : Bool) (x : Ten ℝ) (hx : x.shape = n :: C :: b)
    (hb : ∃ β, Inside β b) :
    AsAloneOk b IsItem (separateT nFft hop w (mvdrForwardT solver mask ref eps mvdrType nPower) x)
      (fun β => separateT nFft hop w (mvdrForwardT solver mask ref eps mvdrType nPower) (x.itemAt 2 β)) ∧
    AsAloneOk b IsItem (separateT nFft hop w (mwfForwardT mask ref timeInvariant) x)
      (fun β => separateT nFft hop w (mwfForwardT mask ref timeInvariant) (x.itemAt 2 β)) ∧
    AsAloneOk b IsItem (separateT nFft hop w (gevForwardT solver mask ref) x)
      (fun β => separateT nFft hop w (gevForwardT solver mask ref) (x.itemAt 2 β)) :=
  have hC := Nat.pos_of_ne_zero (NeZero.ne C)
  ⟨recordings_batch_alone_ok nFft hop w (sepA := fun _ => mvdrForwardT solver mask ref eps mvdrType nPower)
      (sep1 := fun _ => mvdrForward (solver C) m ref eps mvdrType nPower)
      (fun X hX => mvdr_batch hm solver ref eps mvdrType nPower X hX hb)
      (fun β X hX => mvdr_batch hm1 solver ref eps mvdrType nPower X hX ⟨[], trivial⟩) x hx hC hS hb,
    recordings_batch_alone_ok nFft hop w (sepA := fun _ => mwfForwardT mask ref timeInvariant)
      (sep1 := fun _ => mwfForward m ref eps timeInvariant)
      (fun X hX => mwf_batch hm ref eps timeInvariant X hX hb)
      (fun β X hX => mwf_batch hm1 ref eps timeInvariant X hX ⟨[], trivial⟩) x hx hC hS hb,
    recordings_batch_alone_ok nFft hop w (sepA := fun _ => gevForwardT solver mask ref)
      (sep1 := fun _ => gevForward (solver C) m ref)
      (fun X hX => gev_batch hm solver ref X hX hb)
      (fun β X hX => gev_batch hm1 solver ref X hX ⟨[], trivial⟩) x hx hC hS hb⟩

/-- With the default window and a hop of at most half a frame, batches of recordings longer than half a frame are separated by
AuxIVA-IP2 whatever they contain: the result has the shape of the batch, and item `β` of the result is the result for
recording `β`. -/
theorem ip2_recordings_total (nFft : ℕ) (hf : 2 ≤ nFft) (hop : Option ℕ) (hh0 : 0 < hopOf nFft hop)
    (hh : 2 * hopOf nFft hop ≤ nFft) (hn : nFft / 2 < n) (nIter : ℕ) (mic : Option (Fin 2)) (eps : ℝ) (he : 0 < eps)
    {M : TenModel τ} {m : SourceModel σ (nFft / 2 + 1) (stftFrames nFft (hopOf nFft hop) n)}
    (hm : ∀ s ms Y k f t, 0 ≤ (m s ms Y).1 k f t)
    {R R1 : τ → (List ℕ → σ) → Prop} (hM : ModelRep b 2 _ _ M m R) (hM1 : ModelRep [] 2 _ _ M m R1) (resetT : τ → τ)
    (reset : σ → σ) (ts : τ) (ts1 : List ℕ → τ) (ms : List ℕ → σ) (hR : R (resetT ts) fun β => reset (ms β))
    (hR1 : ∀ β, R1 (resetT (ts1 β)) fun _ => reset (ms β)) (x : Ten ℝ) (hx : x.shape = n :: 2 :: b)
    (hb : ∃ β, Inside β b) :
    ∃ y, separateT nFft hop (hann nFft) (auxiva2ForwardT nIter (mic.map fun m => ((m.1 : ℕ) : ℤ)) eps M resetT ts) x = .ok y ∧
      y.shape = x.shape ∧ ∀ β, Inside β b → ∃ y1, separateT nFft hop (hann nFft)
        (auxiva2ForwardT nIter (mic.map fun m => ((m.1 : ℕ) : ℤ)) eps M resetT (ts1 β)) (x.itemAt 2 β) = .ok y1 ∧
          IsItem β y y1 := by
  have h := recordings_batch nFft hop (hann nFft)
    (sep1 := fun β X => auxiva2Forward nIter (mic.map fun m => ((m.1 : ℕ) : ℤ)) eps X m reset (ms β))
    (fun X hX => ip2_batch nIter _ eps hM resetT reset ts ms hR X hX hb) x hx (by norm_num) (by norm_num) hb
  obtain ⟨y, hy⟩ := h.total fun β _ => recording_returns nFft hf hop hh0 hh hn _ _ fun X _ =>
    ip2_succeeds nIter mic eps he _ m hm reset (ms β)
  refine ⟨y, hy, ?_, ?_⟩
  · rw [hy] at h
    obtain ⟨a, -, h⟩ := h
    rw [h.shape, hx]
  · have h2 := ip2_recordings_batch nFft hop (hann nFft) nIter (mic.map fun m => ((m.1 : ℕ) : ℤ)) eps (by norm_num) hM hM1
      resetT reset ts ts1 ms hR hR1 x hx hb
    rw [hy] at h2
    exact h2

/-! ## The hypotheses are met -/

/-- Six recordings of two channels and 16000 samples in a batch of shape `(3, 2)`, AuxIVA-IP2 with the Laplace model. -/
example (x : Ten ℝ) (hx : x.shape = [16000, 2, 2, 3]) :
    ∃ y, separateT 4096 (some 1024) (hann 4096) (auxiva2ForwardT 10 (some 0) (1e-5) (laplaceT 1e-5) id ()) x = .ok y ∧
      y.shape = x.shape ∧ ∀ β, Inside β [2, 3] → ∃ y1, separateT 4096 (some 1024) (hann 4096)
        (auxiva2ForwardT 10 (some 0) (1e-5) (laplaceT 1e-5) id ()) (x.itemAt 2 β) = .ok y1 ∧ IsItem β y y1 :=
  ip2_recordings_total (n := 16000) 4096 (by norm_num) (some 1024) (by norm_num [hopOf]) (by norm_num [hopOf]) (by norm_num) 10
    (some 0) 1e-5 (by norm_num) (m := laplaceModel 1e-5)
    (fun s ms Y k f t => by
      simp only [laplaceModel, laplaceForward]
      exact div_nonneg zero_le_one (le_trans (by norm_num) (le_max_right _ _)))
    (laplaceT_rep _ _ _ _ _) (laplaceT_rep _ _ _ _ _) id id () (fun _ => ()) (fun _ => ()) trivial (fun _ => trivial) x hx
    ⟨[0, 0], by simp [Inside]⟩

/-- Three channels, two sources, T-ISS with two taps. -/
example (x : Ten ℝ) (hx : x.shape = [16000, 3, 4]) :
    AsAlone [4] IsItem (separateT 4096 none (hann 4096) (fun X => tissForwardT ⟨10, 2, 1, some 0, true, 1e-3⟩ (some 2)
        (laplaceT 1e-5) id () X >>= fun r => .ok r.Y) x) fun β =>
      separateT 4096 none (hann 4096) (fun X => tissForwardT ⟨10, 2, 1, some 0, true, 1e-3⟩ (some 2)
        (laplaceT 1e-5) id () X >>= fun r => .ok r.Y) (x.itemAt 2 β) :=
  tiss_recordings_batch (C := 3) (n := 16000) 4096 none (hann 4096) _ (some 2) (by decide) (by decide)
    (laplaceT_rep _ _ _ _ _) (laplaceT_rep _ _ _ _ _) id id () (fun _ => ()) (fun _ => ()) trivial (fun _ => trivial) x hx
    ⟨[0], by simp [Inside]⟩ (by simp)

/-- The NMF model in the same separator. -/
example (x : Ten ℝ) (hx : x.shape = [16000, 3, 4]) :
    AsAlone [4] IsItem (separateT 4096 none (hann 4096) (fun X => tissForwardT ⟨10, 2, 1, some 0, true, 1e-3⟩ (some 2)
        (nmfT 1e-3 4) nmfResetT (freshNmf (fun _ => 1 / 2) fun _ => 1 / 3) X >>= fun r => .ok r.Y) x) fun β =>
      separateT 4096 none (hann 4096) (fun X => tissForwardT ⟨10, 2, 1, some 0, true, 1e-3⟩ (some 2) (nmfT 1e-3 4) nmfResetT
        (freshNmfItem 2 [4] (fun _ => 1 / 2) (fun _ => 1 / 3) β) X >>= fun r => .ok r.Y) (x.itemAt 2 β) :=
  tiss_nmf_recordings_batch (C := 3) (n := 16000) 4096 none (hann 4096) _ (some 2) (by decide) (by decide) (by norm_num)
    _ _ (by norm_num) (by norm_num) none (fun _ => none) x hx ⟨[0], by simp [Inside]⟩ (by simp)

/-- AuxIVA-IP and FIVE on four channels. -/
example (x : Ten ℝ) (hx : x.shape = [16000, 4, 5]) (solver : Solver) :
    AsAlone [5] IsItem (separateT 4096 none (hann 4096) (fun X => auxivaForwardT ⟨10, some 0, 1e-3⟩ (some 2)
        (laplaceT 1e-5) id () X >>= fun r => .ok r.Y) x) (fun β =>
      separateT 4096 none (hann 4096) (fun X => auxivaForwardT ⟨10, some 0, 1e-3⟩ (some 2)
        (laplaceT 1e-5) id () X >>= fun r => .ok r.Y) (x.itemAt 2 β)) ∧
    AsAlone [5] IsItem (separateT 4096 none (hann 4096) (fiveForwardT solver 10 (1 : Fin 4) none (laplaceT 1e-5) id ()) x)
      fun β => separateT 4096 none (hann 4096) (fiveForwardT solver 10 (1 : Fin 4) none (laplaceT 1e-5) id ()) (x.itemAt 2 β) :=
  ⟨auxiva_recordings_batch (C := 4) (S := 2) (n := 16000) 4096 none (hann 4096) _ (by norm_num) (by norm_num)
      (laplaceT_rep _ _ _ _ _) (laplaceT_rep _ _ _ _ _) id id () (fun _ => ()) (fun _ => ()) trivial (fun _ => trivial)
      x hx ⟨[0], by simp [Inside]⟩ (by simp),
    five_recordings_batch (n := 16000) 4096 none (hann 4096) solver 10 (1 : Fin 4) none (laplaceT_five _ _ _ _)
      (laplaceT_five _ _ _ _) id id () (fun _ => ()) (fun _ => ()) trivial (fun _ => trivial) x hx
      ⟨[0], by simp [Inside]⟩⟩

/-- The MVDR beamformer with two masks that depend on the recording. -/
example (x : Ten ℝ) (hx : x.shape = [16000, 4, 5]) (solver : Solver) :
    AsAloneOk [5] IsItem (separateT 4096 none (hann 4096) (mvdrForwardT solver
        (pointMaskT 2 2 fun s i z => if (s + i) % 2 = 0 then ‖z‖ else 1) (1 : Fin 4) 1e-5 "rtf" none) x)
      (fun β => separateT 4096 none (hann 4096) (mvdrForwardT solver
        (pointMaskT 2 2 fun s i z => if (s + i) % 2 = 0 then ‖z‖ else 1) (1 : Fin 4) 1e-5 "rtf" none) (x.itemAt 2 β)) :=
  (beamformer_recordings_batch (n := 16000) 4096 none (hann 4096) (by norm_num) (pointMask_rep _ _ _ _ _ _)
    (pointMask_rep _ _ _ _ _ _) solver (1 : Fin 4) 1e-5 "rtf" none true x hx ⟨[0], by simp [Inside]⟩).1

end Torchiva.Props
