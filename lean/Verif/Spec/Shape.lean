import Verif.Model.ShapeAlgos

/-!
# Specification vocabulary for shapes

The documentation writes shapes as `(..., n_chan, n_freq, n_frames)`.  `Spec.dims` takes the list in
that order; the shape model lists sizes from the last dimension.
-/

namespace Torchiva.Spec

/-- A shape written in the order of the documentation. -/
def dims (l : List ℕ) : Shape := l.reverse

/-- `(..., n_chan, n_freq, n_frames)`, with the batch dimensions `batch` in place of the dots. -/
def sig (batch : List ℕ) (c f n : ℕ) : Shape := dims (batch ++ [c, f, n])

/-- `(..., n_freq, n_frames)`. -/
def spec (batch : List ℕ) (f n : ℕ) : Shape := dims (batch ++ [f, n])

/-- `(..., n_chan, n_samples)`. -/
def wave (batch : List ℕ) (c n : ℕ) : Shape := dims (batch ++ [c, n])

/-- A source model takes `(..., n_freq, n_frames)` and returns weights of the same shape (non-empty
spectrograms). -/
def ShapePreserving (m : ShapeModel) : Prop :=
  ∀ batch f n, 0 < f → 0 < n → m (spec batch f n) = .ok (spec batch f n)

/-- A mask model takes `(..., n_freq, n_frames)` and returns `n_masks` masks for each of `n_src` sources,
`(..., n_src, n_masks, n_freq, n_frames)`. -/
def MaskModel (m : ShapeModel) (nSrc nMasks : ℕ) : Prop :=
  ∀ batch f n, (∀ k ∈ batch, 0 < k) → 0 < f → 0 < n →
    m (spec batch f n) = .ok (dims (batch ++ [nSrc, nMasks, f, n]))

end Torchiva.Spec
