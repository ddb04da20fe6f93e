# Formal model of fakufaku/torchiva in Lean 4

## Layout

* `lean/Verif/Model/*.lean` - the model, one file per source file of `/repo`.
  Each definition cites the lines it models and states its simplifications.
* `lean/Verif/Spec/*.lean` - small specifications that do not mention the model.
* `lean/Verif/Proofs/*.lean` - helper lemmas.
* `lean/Verif/Props/*.lean` - the property theorems and, beside each, an
  `example` showing that a concrete non-trivial case meets the hypotheses.
* `properties.jsonl` - the properties in English. `MANIFEST.json` - property -> theorems.
* `seeded/LOG.jsonl` - record of wrong-program experiments.

## Trusted base

1. Lean 4.33.0's kernel; Mathlib definitions used in statements.
2. Axioms: only `propext`, `Classical.choice`, `Quot.sound` (checked per theorem by vcheck).
3. The correspondence between the Python source and `Verif/Model` (by reading; each
   definition cites file and lines).
4. Idealisations (documented at each definition):
   * floating point is replaced by exact real/complex arithmetic: no rounding,
     no overflow, no NaN propagation. A division that could be by zero is either
     guarded in the code (then proved positive) or modelled as an explicit error outcome.
   * tensors are functions on finite index types, one batch item at a time, except
     where the code mixes batch items (those have an explicit batch index).
     Shapes and broadcasting errors for arbitrary batch shapes are in a separate shape model.
   * LAPACK routines are parameters with a contract: `linalg.solve` fails exactly on
     singular matrices and otherwise returns the solution; `eigh` returns *some* orthonormal
     eigenbasis with ascending eigenvalues. FFT routines are the exact DFT.
   * Python exceptions are values of an error type; RNG draws are parameters.
   * neural-network bodies in modules other than Networks, audio file IO, autograd, plotting and timing are
     not modelled: where they occur they are arbitrary functions (universally quantified).
   * memory (Model/Memory*, C140-C142): every tensor expression makes a new storage, basic indexing and `as_strided` make
     views, `clone` and `cat` copy. For autograd, what an operation records is taken from PyTorch's derivative formulas:
     products, einsum and division record their operands, `clamp` and `mag_sq` their operand, sums, differences, copies
     and assignments nothing. Temporaries without a name are not storages, a group of operations between two named
     tensors is one operation, and gradients themselves are not computed.
   * dtypes (Model/DType, C143-C145): a tensor is (complex?, precision, has some value been held in single precision?).
     Torch's rules are trusted: element-wise operations promote, matrix products, contractions and `solve` need equal
     dtypes, `einsum` works from the left, `torch.stft`/`istft` promote with the window, assignment keeps the dtype of the
     tensor written to, `clamp` refuses complex tensors, allocation without a dtype uses the default dtype (a parameter).
     Half precision and integers are not considered. Model/Stored adds the values: `eigh_2x2` with an arbitrary
     function applied where the eigenvalues are stored; all other arithmetic stays exact.

## Plan per property

| id | model | proof idea |
|---|---|---|
| C01 | `solveLoaded` over `Matrix (Fin n) (Fin n) C`, solve = `Except` | PSD + positive multiple of I is PD, hence a unit |
| C02 | `solveLoadedGeneral`, row weights | normal equations; completing the square |
| C03 | `inv2x2` on shape-tagged input | adjugate identity, case split on the clamp |
| C04 | `eigh2x2 A (some B)` literal transcription | characteristic polynomial, field algebra |
| C05 | `eigh2x2 A none` | correct for real off-diagonal (`_partial`); negation with witness [[2,i],[-i,2]] |
| C06 | `eighGen` with eigensolver contract | B^{-1/2} congruence |
| C07 | scalars tagged real/complex | case analysis |
| C08 | strided storage model | index arithmetic |
| C09 | pad + hankel + slice on lists | list indexing |
| C10 | ISS state machine (Y, W, H, J), stateful source model | invariant by induction over steps and iterations |
| C11 | both loops | C10 gives equality of the states at each iteration |
| C12 | `forward` with n_iter = 0 | unfolding of every path, both dmc settings |
| C13 | per-step cost | completing the square per row, det of a rank-one update |
| C14 | `projectionBackWeights` | C02 |
| C15 | `forward` front end + shape model | case analysis |
| C16 | `backgroundUpdate` | C02; witness for taps |
| C17 | forward on zero | induction |
| C18 | shape model of projection_back_weights | case analysis on batch rank |
| C19-C22 | AuxIVA-IP model | C02, algebra |
| C23-C25 | AuxIVA-IP2 model | C03, C04 |
| C26-C31 | FIVE model with eigensolver contract | spectral algebra; witnesses |
| C32-C35 | WPE model | C09, C01, completing the square |
| C36-C41 | beamformer model | Cauchy-Schwarz / completing the square, dispatch |
| C42-C47 | scaling model | completing the square, MM inequality |
| C48-C51 | source models | positivity, IS-NMF MM inequality |
| C52 | DFT-based convolution | circular = linear convolution when padded |
| C53 | argsort + gather on lists | sorting lemmas |
| C54-C58 | object state machines | case analysis, induction over call histories |
| C59-C61 | file-system + network state machine with crash points | induction over histories; witnesses |
| C62-C64 | CLI option record | case analysis; witnesses |
| C65-C68 | example utilities | list induction |
| C69-C70 | finite tables, name resolution | case analysis |

| C71 | determinant of the demixing matrix in the T-ISS state machine | determinant of a row operation, induction over iterations |
| C72-C73 | `auxivaForward`, `auxiva2Forward` | totality of the loaded solve; unfolding for n_iter = 0; witness |
| C74 | `ip2Update` | AM-GM on the two generalised eigenvalues: global minimum of the auxiliary cost |
| C75 | `wpeRun` | induction over iterations, one frequency at a time |
| C76 | `mdWeights` | tangent inequality of the power function; witness for other q |
| C77 | `laplaceForward`, `gaussForward` | tangent inequalities of the square root and of the logarithm |
| C78-C79 | `gluMaskShape`, `gluPower` | arithmetic of convolution lengths; scaling |
| C80, C91 | `stftForward`, `stftInv` on exact DFT frames | overlap-add algebra, positivity of the Hann envelope; witness for hop = n_fft; exact criterion from the convexity of sin^4 on the overlap (Props/StftHop) |
| C81-C82 | `computeInterval`, `ensembleState` | linear integer arithmetic; list sums |
| C83-C90 | shape model (`Model/Shape.lean`, `Model/ShapeAlgos.lean`): shapes are lists of dimensions, last first; every tensor operation of the functions is transcribed as a partial operation on shapes | broadcasting algebra, induction over iterations |
| C92 | T-ISS loop + `laplaceForward`/`gaussForward` | C13 and C77 composed, with the source scaling accounted for exactly |
| C93 | last iteration of T-ISS | weighted power after the row update |
| C94 | IP2 loop + source models | C74 and C77 composed; the clamps are kept inactive by `Spec.Ip2Regular` |
| C95 | `wpeRun` with default weights | C33 and concavity of the logarithm; counterexample to a decrease in every iteration: one microphone, four frames, computed exactly in units of `√eps` |
| C96 | `rtfVector`, `mvdrRtf` with power iterations | closed form by induction on the iterations; moments of `L⁻¹ Rt` in the `L` inner product are log-convex |
| C97 | forward passes of T-ISS, AuxIVA-IP, AuxIVA-IP2, FIVE, WPE | every step commutes with the change of convention (`Spec.Reorder`); delayed taps pick up a factor per tap that the filters absorb; the inverse change gives the converse |
| C98 | `trainSep`, `exportConfig`, `reloadSep` | the bound arguments and the state dictionary of the rebuilt separator computed key by key |
| C99 | `reloadSep` on any state dictionary | inversion of a successful strict load |
| C100 | `sampleOnce`, `getItem` with arbitrary random draws | inversion of a successful pass; induction on the recursion depth |
| C101 | `getItem` | as C100; counterexample by induction on the recursion depth |
| C102 | forward passes of the three beamformers and WPE | covariance matrices, solves and filters commute with a relabelling of rows and columns (`Spec.relabel`); for eigenvectors, `Spec.UniqueBest` makes the result independent of the solver's choice; counterexample with diagonal covariance matrices |
| C103 | T-ISS backward pass, with and without `use_dmc` | automatic differentiation as the derivative of the computation with detached values held constant; chain rule by induction over the checkpointed iterations; counterexample with `NMFModel`, whose state moves between the forward pass and the recomputation |
| C104 | T_ISS and AuxIVA_IP on recordings whose channels never overlap | invariant over all updates: filter k reads channel k only, the background filter vanishes, the diagonal does not; loaded solves with diagonal matrices keep supports; small specification `Spec.Apart` |
| C105 | a gain, per frequency, of the recording through the three beamformers and WPE | loaded solves of multiples of a matrix (the load is proportional only if some entry is at least one), scale-invariance of the eigenvector and of the covariance ratios, Cauchy-Schwarz bound for the MVDR denominator, induction over WPE iterations; violations on one-channel constants |
| C106 | `compute_metrics`, training and validation steps | the permutation-invariant loss by contract; reindexing of the minimum over assignments; the strongest channels are a set, so the order of the sort does not matter |
| C107 | `validation_epoch_end` over batches of a data loader | sum over chunks; counterexample losses for every uneven last batch |
| C108 | data module: reading of the options, data sets, loaders | folds over dictionaries; permutation of the interleaved chunks (with C66); violation by definition of the data sets |
| C109 | `on_after_backward` | gradient clipping of C65, scaling of norms |
| C110 | loop, limit and summary of examples/test.py | induction over the items; violation for every limit |
| C111 | result rows, saved signals, tables | scorer by contract; permutations; uniqueness of sorted lists |
| C112 | folder names of an evaluation | injectivity by cases; collisions |
| C113 | `load_model` | reasoning on substrings of paths |
| C114 | `write_wav` | truncation to 16 bits as modular arithmetic; bounds from the peak |
| C115 | make_mix.py without the room simulator | the same bounds, triangle inequality over the sources |
| C116 | `make_batch_array`, `read_audio` | maxima of lists, `mapM` in the error monad |
| C117 | layers of `GLUMask`, `BLSTMMask`, `MaskMVDRSupport` in training and evaluation mode, dropout draws as parameters | evaluation mode ignores the draws; two draws with different T-ISS outputs and changed running statistics as witnesses |
| C118 | the same layers with an explicit batch index | induction over layers and time steps; a batch of two as witness |
| C119 | convolutions of `GLUMask` | induction on agreement within a radius; a network that carries a pulse over exactly that distance |
| C122 | features of the neural masks; T-ISS with `GLUMask` | equality of the features; C97 applied to the mask; a recurrent network that reads the imaginary part |
| C123 | convolutions of `GLUMask` | induction on agreement of two sequences around two positions |
| C124 | `nn.LSTM` by torch's equations | bounds of the gates; cells that add their inputs up |
| C125 | the constructors and calls with keyword arguments (Model/Classes), on the computations of the other files | unfolding; `inForce` is the specification |
| C126 | `BSSSeparator` from its keyword arguments to the recordings (Model/Classes) | unfolding, then C125, C120 and C15; `eps=None` with MVDR violates it |
| C127 | the algorithms with two models | a simulation through the iterations |
| C128 | T-ISS on tensors with any number of batch dimensions (Model/Tensor, Model/TensorTIss): every slice, einsum, broadcast, reduction and solve is transcribed on shapes and values | each function on the batch is compared with the formula for one item; a relation `Batched` carries values and exceptions through the iterations; `permute` with three dimensions violates it |
| C129 | AuxIVA-IP on tensors with any number of batch dimensions (Model/TensorAuxIva): covariances, sources updated one after the other at all frequencies together, orthogonal constraint, projection back | as C128; the sweep over the sources at all frequencies together is related to one sweep per frequency by commuting the two loops, which needs that the only exception in the loop is the one of a singular system |
| C130 | WPE on tensors with any number of batch dimensions (Model/TensorLinalg, Model/TensorWpe): weights, the covariances with channels and taps flattened by `reshape` in memory order, the loaded solve, the filtering | as C128; frequencies are treated as a further batch dimension for the solve; the flattened system is related to the one indexed by (channel, tap) by renaming its rows |
| C131 | MVDR, MWF and GEV beamformers on tensors with any number of batch dimensions (Model/TensorEigh, Model/TensorBeamformer): `eigh`, `eigh_2x2`, `bmm`, the masked covariances, the filters of all sources and frequencies at once, transposes and index insertions as written | every function is proved to compute the item formula for a generic batch shape; sources and frequencies (and frames) are further batch dimensions; the comparison `BatchedOk` does not say which failure is reported when several sources fail in different ways |
| C132 | FIVE on tensors with any number of batch dimensions (Model/TensorFive): covariances, whitening with flipped eigenvalues, both eigenvector methods, projection back, zero first bin | as C128; the normalisation over the frequency axis is one division per item, the whitening and the loaded inverse one per frequency |
| C133 | AuxIVA-IP2 on tensors with any number of batch dimensions (Model/TensorIp2): covariances, generalised `eigh_2x2`, scaling of the eigenvectors, `inv_2x2`, projection back | as C128 |
| C134 | `projection_back`, `minimum_distortion_l2`, `minimum_distortion_l2_phase` on tensors (Model/TensorScaling): argsort, gather, flattening of all systems, reshape | as C128; lemmas on memory order for the flattening |
| C135 | `NMFModel` on tensors (Model/TensorNmf): flattening, `bmm`, attributes kept between calls, random draws as a function of the position | invariant on the attributes over every sequence of calls; then C128, C129 and C133 apply |
| C136 | `STFT.forward`, `STFT.inv` and `BSSSeparator.forward` on tensors (Model/TensorStft): flattening, transform, restored dimensions, padding or truncation | index arithmetic of the flattening; then the batch theorems of the separators (C128, C129, C131 to C133, C135) compose |
| C137 | The neural models on tensors (Model/TensorNetworks): flattening, layers, restored dimensions, rearrangement of the masks | the layers treat items alike in evaluation mode (C118), index arithmetic for the rest; a counterexample in training mode |
| C138 | `solveLoadedS`, `solveLoadedGeneralS`, `invLoadedS`, `eighFullS` (Model/Shape) | evaluation of the shape rules for symbolic sizes; the four corner cases as counterexamples |
| C139 | `minimum_distortion` on tensors with any number of batch dimensions (Model/TensorMinDist): errors, weights, updates, stopping rule over the whole tensor | induction over the iterations with the batch flattened in memory order; C44 and C46 then carry over, with the counterexample of C46 as a tensor |
| C140 | storages, references, views, in-place writes, versions (Model/Memory*): `iss_updates_with_H`, `T_ISS`, `AuxIVA_IP`, `AuxIVA_IP2`, `WPE`, `FIVE`, `eigh_2x2` (Model/MemoryLinalg), Laplace and Gauss models, a source model as a contract; user programs as sequences of calls | Hoare-style rules for heap programs; loop invariants "what is written is private and not recorded"; refinement to the functional models |
| C141 | the same heap; a result is fresh when its storage was created during the call | from the same invariants; a concrete heap on which overwriting the result of `AuxIVA_IP2(n_iter=0)` overwrites the input |
| C142 | what autograd records, as (storage, version) pairs; checkpointing (`use_dmc`) discards what the first run recorded and records its inputs | invariant: every recorded pair is still current |
| C143 | the dtype of every intermediate tensor of every algorithm, scaling function, STFT and `BSSSeparator.forward` (Model/DType) | invariant "same kind and precision as the input" through every operation, induction over the iterations |
| C144 | the same model, with one bit that single precision taints; `eigh_2x2` with a rounding function at its store (Model/Stored) | the same invariant with the bit clear; the bit set after one iteration for AuxIVA_IP2; for values: a matrix whose stored pair is not an eigenpair, and the relative error bound |
| C145 | the same model with the state of the source model kept between calls | the state after a single-precision call has single-precision factors, on which the next call raises |
| C146 | T-ISS (Model/TIss) with `nmfModel` (Model/TensorNmf) as source model; Spec/Ilrma | majorisation of the update of each factor applied to signals scaled so that the mean of abs(Y)^2/R is one, then the product form of the descent of the demixing updates (C92) |
| C147 | the same | violated on a 1x1x1 input by computing two iterations exactly; bound on the increase from C146 |
| C148 | processes as program counters over a shared folder, one step at a time under a schedule | invariant over all schedules: every byte of a file is right or still ahead of a writer; explicit schedules for the violations |
| C149 | `ipSweep`, `auxivaForward` (C19, C72) + the source models | each row update maximises the determinant for its weighted energy up to the angle between the solution of the loaded and of the exact system (`Proofs/IpDescent.lean`); that angle is bounded by `κ` and `μ` (`Spec.IpRegular`); the mean inequality over frequencies and C77 / C146 turn this into the objective; `auxiva_laplace_increase` solves the two 2x2 systems of the first iteration for two almost identical microphones, where the loading turns both rows the wrong way |
| C150 | `auxiva2Forward` (C94), `auxiva2ModelState` (the source model after the call) + `nmfModel` | C94's inequality for one update with arbitrary weights (`ip2_step_free`), then the majorisation step of the NMF factors of C146; the factors stay admissible by induction over the iterations |
| C151 | `adjustGlobalScale` | expand the squared distance as a quadratic in the scale and complete the square; below the clamp the scale is the optimal one times a factor less than one |
| C152 | `tissForward` (C92) for every number of iterations | linear independence bounds each demixing row by the mean norm of its output, the determinant is at most `C!` times the product of the norms of its rows, so the objective is bounded below; monotone convergence |
| C153 | `collate6` on top of `collate` (C67); Python numbers tagged as `int` or `float`, integer tensors truncate | entry by entry: truncation moves a number by less than one and keeps whole numbers; counterexample with two rooms |
| C154 | `auxiva2Forward` (C94) for every number of iterations up to `K` | descent of C94, the bound of C152 without taps, the demixing matrices are unique because the channels are linearly independent, telescoping sum |
| C155 | `Model/Device.lean`: the device of every tensor the algorithms allocate and combine; mixing devices raises `RuntimeError`; Torch's default device is a parameter | every tensor is on the device of the input; invariants of the loops over iterations, sources and taps; source models are specified by `KeepsDevice` |
| C156 | `wpeForward` of `Model/Device.lean` with the state the source model had before the call | violated: factors left by a call on another device; holds when the answer of the model does not depend on its state |
| C157 | `fiveForward` with `laplaceModel` and `gaussModel` | two successive results belong to one run (`five_next`, from `five_run`); each is a multiple of a unit-power signal; the extractor has the least weighted energy (C31); tangent of the square root, arithmetic and geometric means |
| C120 | `separateRecording`: STFT, any separator, inverse STFT | linearity of both transforms and the round trip; C24 with a lower bound on the determinant (C74 against a diagonal demixing matrix); zeros after the last complete hop as counterexample |
| C121 | `separateRecording` with GEV and MWF | linearity of both transforms applied to C97 and C105 |

Where the code does not satisfy a property the negation is proved with a concrete witness
(`_violated` theorems) and the part that does hold is proved under the suffix `_partial`.

## What is modelled

| Source file | Model file | Functions |
|---|---|---|
| torchiva/t_iss.py (backward pass) | Checkpoint | gradient of the main loop with respect to the input and the parameters of the source model, `use_dmc` on and off |
| torchiva/linalg.py | Linalg, Hankel | all functions; float32 allocation in `eigh_2x2` is not modelled |
| torchiva/t_iss.py | TIss | all update functions, checkpointed and plain loops, `forward` |
| torchiva/auxiva_ip.py, auxiva_ip2.py | AuxIva, Ip2State | all functions; the `verbose` cost only in the shape model |
| torchiva/five.py | Five, GlobalScale | all functions (`adjust_global_scale` is called nowhere in the library) |
| torchiva/wpe.py | Wpe | all |
| torchiva/beamformer.py | Beamformer | all covariance, filter and dispatch code |
| torchiva/scaling.py | Scaling | all |
| torchiva/models/*.py | Models | classic models completely; neural models: everything around the network layers (the layers are arbitrary functions) and the arithmetic of their shapes |
| t_iss.py, linalg.py (`divide`, `mag_sq`, `solve_loaded_general`, `hankel_view`), models.py (`LaplaceModel`, `GaussModel`) on tensors | Tensor, TensorTIss | a tensor is a shape and a value per index, batch dimensions included; dtypes are not modelled (real tensors are complex where torch promotes); the Hankel view is modelled by its values, not its strides; `torch.linalg.solve` raises when one matrix of the batch is singular |
| auxiva_ip.py on tensors | TensorAuxIva | as above |
| wpe.py, linalg.py (`solve_loaded`, `inv_loaded`) on tensors | TensorLinalg, TensorWpe | as above; `reshape` is modelled by memory order; an unguarded division by zero is reported as `nonFinite` for the whole tensor |
| beamformer.py, linalg.py (`eigh`, `eigh_2x2`, `hermite`, `bmm`) on tensors | TensorEigh, TensorBeamformer | `torch.linalg.eigh` is a parameter that decomposes one matrix at a time; real masks are used in products with complex tensors; complex inputs only |
| five.py on tensors | TensorFive | as above; a reference microphone is given (`None` is in the shape model); division by the number of frames 0 gives 0 as in Five |
| auxiva_ip2.py, linalg.py (`inv_2x2`) on tensors | TensorIp2 | as above; the rescaled `X` of line 203 is overwritten and not computed |
| scaling.py on tensors | TensorScaling | complex signals; `gather` does not check the range of indices that come from `argsort` |
| scaling.py `minimum_distortion`, `lp_norm`, `lpq_norm` on tensors | TensorMinDist | as above; the signal has at least three dimensions; a division by a zero norm makes the stopping test false |
| models/classic.py `NMFModel` on tensors | TensorNmf | complex signals; the draws of `uniform_()` are given as a function of the position; division by zero is an error |
| stft.py and nn.py `BSSSeparator.forward` on tensors | TensorStft | exact transforms; at least one channel and one source |
| models/glu.py, blstm.py, simple.py on tensors | TensorNetworks | complex signals; at least one frequency and one frame |
| the classes of t_iss.py, auxiva_ip.py, auxiva_ip2.py, five.py, wpe.py, beamformer.py, base.py, nn.py | Classes | constructors and calls with keyword arguments; `BSSSeparator` from construction to recordings |
| torchiva/nn.py, stft.py | Pipeline | `BSSSeparator.forward` for one item with the concrete transforms |
| torchiva/models/glu.py, simple.py, blstm.py | Networks | the network layers: convolutions, batch normalisation, gated units, dropout, linear layers, bidirectional LSTM; `nn.LSTM` by torch's documented equations, the mel filters are an arbitrary matrix |
| torchiva/stft.py | Stft | constructor, `forward`, `inv` (exact DFT) |
| torchiva/fftconvolve.py | FftConv | one pair of signals |
| torchiva/base.py, nn.py | Objects | parameter resolution, model reset, `BSSSeparator` construction and call |
| torchiva/loader.py | Loader, LoaderConc | cache directory, download with crash points, configuration merge; interleaved processes that load the same model |
| torchiva/separate.py | Cli | argument validation, folder walk, channel selection, output names |
| torchiva/utils.py, dtypes.py | Utils | all |
| examples/autoclip_module.py, dataloader.py, test.py | Examples, Collate6 | AutoClipper, InterleavedLoaders, collator, collator_6ch, compute_interval, ensemble average |
| examples/dataloader.py | Dataset | `WSJ1SpatialDataset`; file names and decoding are not modelled |
| examples/separation_model.py, data_module.py, test.py, example.py, samples/*.py | Training | loss, validation and clipping logs, data sets and loaders, evaluation loop, tables, folders, checkpoints, sound files, example mixtures |
| examples/separation_model.py, export_model.py; nn.py, loader.py | Export | construction of the separator, exported configuration, state dictionary, reload |
| linalg.py, models/classic.py, t_iss.py, auxiva_ip.py, auxiva_ip2.py, wpe.py, five.py, beamformer.py, scaling.py, stft.py, base.py, nn.py | DType | dtypes only |
| linalg.py, models/classic.py, t_iss.py, auxiva_ip.py, auxiva_ip2.py, wpe.py, five.py, beamformer.py, scaling.py, stft.py, nn.py, separate.py:41-72, 210-211 | Device | devices only |

Automatic differentiation is modelled (module Checkpoint, C103) by its contract: the gradient is the derivative of
the computation in which detached values are constants, and torch.utils.checkpoint runs a call again on its saved
inputs before differentiating it. Gradients of the other algorithms are not modelled.

Not modelled: initialisation of network parameters, rounding errors of single operations, audio file
formats, plotting, timing, the scripts' argument parsers, `examples/train.py` and the main parts of `examples/example.py`,
`examples/example_dnn.py`. External libraries in the example scripts (permutation-invariant loss, BSS evaluation, data loaders with
their samplers, room simulation) are parameters, the first two with the contracts `PitContract` and `BssEvalContract`.

An empty time axis (`N = 0`) makes every mean in the code a nan; the model's division by zero gives 0 there. The
theorems whose conclusion depends on it assume at least one frame.

## Findings: properties the code does not satisfy

Each is proved by the theorem named.

* `eigh_2x2(A)` returns conjugated eigenvectors for complex matrices (C05), which breaks the FIVE whitening with
  two complex channels (C27).
* `diagonal_loading` always raises (C07).
* T-ISS: the background update uses the wrong sign with dereverberation taps (C16); with a batch dimension,
  `n_src < n_chan` and `ref_mic >= n_src` it raises (C18).
* AuxIVA_IP: the documented `n_src=None` raises (C20); `n_iter=0` with projection back zeroes all channels but one
  (C73); `proj_back_mic >= n_src` repeats the batch dimensions (C84); `verbose=True` raises with a batch (C85).
* FIVE: the output depends on the arbitrary phase of the eigensolver with `n_iter=0`, and with any number of iterations
  when eigenvalues coincide or the source model sees phases (C28); `n_power_iter=1` raises, and the
  initial normalisation runs over the frequency axis, so constant weights give 0/0 (C29); `proj_back_mic=None`
  gives two extra dimensions (C30).
* MWF ignores the user's `eps` when a reference is given (C38).
* `minimum_distortion`: the stopping rule couples batch items (C46); the weights are wrong for q other than 1 and
  2 (C76); with a model, the weights of item 0 and frequency 0 are used for all (C87).
* `BSSSeparator` resets the model even with `reset=False` (C56); its default model cannot be used by the
  beamformers (C90).
* STFT: custom windows raise (C57); `hop_length` within n_fft/1800 of `n_fft` cannot be inverted (C91).
* The loader's cache is keyed by the last URL component (C59) and keeps truncated files (C60); of two processes that load a new model at the same time, one can read an incomplete file (C148).
* The command line ignores `--n_iter` without a neural model (C62), merges equal basenames (C63), can overwrite
  its input (C63) and feeds only the first min(src, mic) channels (C64).
* WPE rejects all source models of the library for two or more channels (C86).
* GLUMask raises for every even kernel size (C78).
* The exported configuration omits the algorithm and the number of sources (C98); a `window` argument given at load
  time is ignored (C99).
* The training data set rejects items whose references have zero mean, not only silent ones (C101).
* MVDR with power iterations starts from the first microphone: its result depends on the order of the microphones and can be undefined for a reference that works in another order (C102).
* With `use_dmc=True` and `NMFModel`, the backward pass recomputes every iteration with factors that have moved on since the forward pass: the gradient is that of another computation (C103).
* The level of the recording changes more than the level of the output: the diagonal load of `solve_loaded` has an absolute floor (MWF and WPE on quiet recordings), and the denominator guard of the MVDR attenuates loud recordings (C105).
* The validation loss is not the average over the items when the last batch is smaller (C107); the numbers of channels in the data configuration do not restrict the channels (C108).
* `--limit n` processes n + 1 items (C110); evaluations of different models share folders (C112); the last incomplete hop of a separated recording is zero (C120); `write_wav` ignores its file name (C114).
* `load_separator` never switches the separator to evaluation mode, and neither does torchiva/separate.py: with a neural source model the result is random and using the separator modifies it (C117), and items of a batch influence each other (C118). examples/test.py does switch.
* `eps=None`, which selects the default everywhere else, makes every call of a `BSSSeparator` with `algo="mvdr"` raise (C126).
* Double-precision input is rounded to single precision in the middle of AuxIVA_IP2, of GEV and MVDR with two microphones and in the default STFT (C144); a WPE with an NMF model that has seen single-precision data refuses double-precision data for ever (C145).
* T-ISS rescales the sources in every iteration but not the factors that `NMFModel` keeps, so that the likelihood of the model can increase from one iteration to the next (C147); up to the scale of the sources it does not (C146).
* A `KeyError` while the training script builds its source model is swallowed: training goes on without a source model (C98, `train_source_keyerror`).
* AuxIVA-IP can make its objective worse: for two microphones whose correlation is close enough to one for the loading `eps`, the first iteration mixes the channels further instead of separating them (C149, `auxiva_laplace_increase`, `auxiva_gauss_increase`).
* `collator_6ch` stores the geometry in the dtype of the first item of the batch: integer coordinates there truncate those of all other items (C153).
* A later iteration of WPE with the default weights can increase the likelihood objective, because of the diagonal loading, although all frames are above `eps` (C95, `wpe_later_increase`).
* A WPE with an NMF model that has been called on one device raises on every other device: the factors are not reset and do not move with the module (C156).
