import Verif.Model.Dataset

/-! # What a training sample is, independently of how it is drawn -/

namespace Torchiva.Spec

/-- `out` is cut out of the files of the room `r`: channel `ch` of the mixture is microphone `p[ch]`, all references are microphone `mic`
and sample `t` of everything is sample `start + t` of the file.  `p` lists every microphone once, `mic` is the microphone that the
mixture holds at position `ref_mic` unless the reference is drawn at random.  The mixture is the one without noise exactly if
`noiseless` is set, the references are the reverberant images exactly if `ref_is_reverb` is set. -/
structure IsSample (c : DataCfg) (r : Room) (out : Audio × Audio) (p : List ℕ) (mic start : ℕ) : Prop where
  perm : p.Perm (List.range (r.mixFile c).1.chans)
  chans : out.1.chans = (r.mixFile c).1.chans
  inside : ∀ t < out.1.len, start + t < (r.mixFile c).1.len
  mix : ∀ ch m, p[ch]? = some m → ∀ t < out.1.len, out.1.val ch t = (r.mixFile c).1.val m (start + t)
  refs : out.2.chans = (r.refFiles c).length
  insideRef : ∀ f ∈ r.refFiles c, ∀ t < out.2.len, start + t < f.1.len
  ref : ∀ k f, (r.refFiles c)[k]? = some f → ∀ t < out.2.len, out.2.val k t = f.1.val mic (start + t)
  lens : (∀ f ∈ r.refFiles c, f.1.len = (r.mixFile c).1.len) → out.2.len = out.1.len
  mem : mic ∈ p
  refMic : c.shuffleRef = false → 0 ≤ c.refMic → p[c.refMic.toNat]? = some mic
  refMicEnd : c.shuffleRef = false → c.refMic < 0 → ∃ i : ℕ, (i : ℤ) = p.length + c.refMic ∧ p[i]? = some mic
  plain : c.shuffleChannels = false → p = List.range (r.mixFile c).1.chans
  noiseless : c.noiseless = true → r.mixFile c = r.mixNoiseless
  noisy : c.noiseless = false → r.mixFile c = r.mixNoisy
  reverb : c.refIsReverb = true → r.refFiles c = r.refsReverb
  anechoic : c.refIsReverb = false → r.refFiles c = r.refsAnechoic

/-- The random numbers are what the generators promise. -/
structure ValidDraw (d : Draw) : Prop where
  perm : ∀ n, (d.perm n).Perm (List.range n)
  ref : ∀ n, 0 < n → d.ref n < n
  next : ∀ n, 0 < n → d.next n < n

/-- The sequence of indices that are tried. -/
def triedIndex (n : ℕ) (idx : ℤ) (draws : ℕ → Draw) : ℕ → ℤ
  | 0 => idx
  | k + 1 => (draws k).next n

/-- Reference `k` of the sample has only zeros. -/
def Silent (a : Audio) (k : ℕ) : Prop := ∀ t < a.len, a.val k t = 0

end Torchiva.Spec
