{"id": "C01", "title": "Loaded solve never fails on covariance matrices", "statement": "linalg.solve_loaded(A, b, load) with A Hermitian positive semi-definite and load > 0 never raises a singular-matrix error, and the x it returns satisfies (A + l*I) x = b where l = max(load * max_ij |A_ij|, load).", "quantifier": "every size n >= 1, every Hermitian PSD A, every right-hand side, every load > 0", "why_tests_cant": "singularity is a measure-zero event a random test never hits; rank-deficient inputs of every size and scale are needed", "anchors": ["torchiva/linalg.py:solve_loaded"]}
{"id": "C02", "title": "General loaded solve is a row-normalised ridge regression", "statement": "linalg.solve_loaded_general(A, b, load, eps) with load > 0 never raises, for any (even singular or rectangular-in-rows) A, and returns the unique minimiser of the row-normalised residual plus load*||x||^2; if an exact solution x0 of A x = b exists, the row-normalised residual of the returned x is at most load*||x0||^2.", "quantifier": "every A, b, load > 0, eps > 0", "why_tests_cant": "optimality is a statement over all competing x; singular A are not sampled by tests", "anchors": ["torchiva/linalg.py:solve_loaded_general"]}
{"id": "C03", "title": "inv_2x2 inverts", "statement": "linalg.inv_2x2(W) returns the exact inverse of W whenever |det W| >= eps, returns a finite matrix equal to adj(W)/eps when |det W| < eps, and rejects inputs that are not 2x2.", "quantifier": "every complex 2x2 matrix, every eps > 0, every input shape", "why_tests_cant": "only a handful of matrices can be sampled and the threshold case is measure zero", "anchors": ["torchiva/linalg.py:inv_2x2"]}
{"id": "C04", "title": "Generalised 2x2 eigendecomposition", "statement": "linalg.eigh_2x2(A, B) for Hermitian A, B returns ascending eigenvalues and columns v_k with A v_k = lambda_k B v_k, each column of unit norm unless it degenerates to the zero vector, whenever the discriminant and det B are above the eps clamps.", "quantifier": "every pair of Hermitian 2x2 matrices above the clamp thresholds", "why_tests_cant": "equality must hold for the continuum of Hermitian pairs; tests sample random generic ones and miss the degenerate column", "anchors": ["torchiva/linalg.py:eigh_2x2"]}
{"id": "C05", "title": "Plain 2x2 eigendecomposition", "statement": "linalg.eigh_2x2(A) for Hermitian A returns ascending eigenvalues and eigenvectors: A v_k = lambda_k v_k. (The code satisfies this only for matrices with a real off-diagonal entry; for complex ones it returns eigenvectors of the conjugate matrix.)", "quantifier": "every Hermitian 2x2 matrix, real or complex", "why_tests_cant": "the repository test compares with a non-conjugated transpose and so accepts the conjugated eigenvectors", "anchors": ["torchiva/linalg.py:eigh_2x2", "tests/test_linalg.py:test_eigh_2x2"]}
{"id": "C06", "title": "Generalised eigendecomposition for three or more channels", "statement": "linalg.eigh(A, B) with n >= 3, Hermitian A and Hermitian B whose eigenvalues are all at least 1e-5 returns ascending eigenvalues and vectors with A v_k = lambda_k B v_k.", "quantifier": "every n >= 3, every Hermitian A, every B above the clamp, every orthonormal eigenbasis LAPACK may return", "why_tests_cant": "the result must hold for every admissible (sign, phase, multiplicity) choice of the eigensolver", "anchors": ["torchiva/linalg.py:eigh", "torchiva/linalg.py:eigh_wrapper"]}
{"id": "C07", "title": "Complex helper arithmetic", "statement": "linalg.multiply, mag_sq, mag, bmm, hermite and divide compute the product (for every real/complex operand mix), |x|^2, |x|, the complex matrix product, the conjugate transpose, and division by max(denom, eps).", "quantifier": "every operand and every real/complex combination", "why_tests_cant": "identities over a continuum and every mix of dtypes", "anchors": ["torchiva/linalg.py:multiply", "torchiva/linalg.py:mag_sq", "torchiva/linalg.py:mag", "torchiva/linalg.py:bmm", "torchiva/linalg.py:hermite", "torchiva/linalg.py:divide"]}
{"id": "C08", "title": "Hankel view is in bounds and reads x[i+j]", "statement": "linalg.hankel_view(x, n_rows) on any strided tensor view that is itself within its storage returns a view that stays within the storage and whose entry (..., i, j) is x[..., i+j]; it has len-n_rows+1 columns, and n_rows > len+1 is rejected.", "quantifier": "every storage, offset, stride vector, batch index, n_rows", "why_tests_cant": "as_strided bypasses bounds logic; the property must hold for every memory layout", "anchors": ["torchiva/linalg.py:hankel_view"]}
{"id": "C09", "title": "Delayed-tap tensor has exactly the documented delays", "statement": "The delayed signal used by T_ISS and WPE has n_taps rows; row t at frame n is the input at frame n - (n_delay + n_taps - t), or zero before the start, so that only frames at least n_delay+1 in the past are used.", "quantifier": "every input length, n_taps, n_delay", "why_tests_cant": "must hold for all combinations including zero taps, zero delay and signals shorter than the filter", "anchors": ["torchiva/t_iss.py:T_ISS.forward", "torchiva/wpe.py:WPE.forward", "torchiva/linalg.py:hankel_view"]}
{"id": "C10", "title": "T-ISS output is always the demixing filter applied to the input", "statement": "At every iteration of T_ISS the carried signal estimate equals W X - H Xbar for the carried W and H, for determined and over-determined problems.", "quantifier": "every input, source model (also stateful), number of sources/channels/taps/iterations, eps", "why_tests_cant": "invariant over all iteration counts and all source models", "anchors": ["torchiva/t_iss.py:iss_updates_with_H", "torchiva/t_iss.py:over_iss_t_one_iter", "torchiva/t_iss.py:demix_derev"]}
{"id": "C11", "title": "Demixing-matrix checkpointing does not change the result", "statement": "T_ISS(...)(X, use_dmc=True) returns the same separated signal as use_dmc=False.", "quantifier": "every input, source model (also stateful), all dimensions, iteration counts and parameters", "why_tests_cant": "equality over all inputs and iteration counts; the test compares one sample within tolerance", "anchors": ["torchiva/t_iss.py:T_ISS.forward", "torchiva/t_iss.py:over_iss_t_one_iter_dmc"]}
{"id": "C12", "title": "Zero iterations returns the first channels", "statement": "T_ISS with n_iter=0 returns the first n_src channels of the input unchanged, whatever the other parameters (unless an argument check rejects the call).", "quantifier": "every input and every parameter combination", "why_tests_cant": "all combinations of the other parameters", "anchors": ["torchiva/t_iss.py:T_ISS.forward"]}
{"id": "C13", "title": "ISS updates never increase the auxiliary cost", "statement": "With the source weights fixed and nonnegative and 0 < eps <= 1, every separation, background and dereverberation step of T-ISS leaves the cost sum_c mean_n w|y|^2 - 2 log|det W| no larger.", "quantifier": "every signal, every nonnegative weight tensor, every step of every sweep, including clamped denominators", "why_tests_cant": "monotonicity over all inputs including the clamped branches", "anchors": ["torchiva/t_iss.py:iss_block_update_type_1", "torchiva/t_iss.py:iss_block_update_type_2", "torchiva/t_iss.py:iss_block_update_type_3", "torchiva/t_iss.py:iss_updates_with_H"]}
{"id": "C14", "title": "T-ISS projection back restores the reference microphone", "statement": "The scales applied by T_ISS after the last iteration are the ridge-regularised solution of 'scaled sources (plus, when over-determined, a combination of the background) add up to the reference microphone'; the residual is bounded by the regularisation.", "quantifier": "every demixing matrix, every J, every reference microphone", "why_tests_cant": "linear-algebra identity for all matrices", "anchors": ["torchiva/t_iss.py:projection_back_weights"]}
{"id": "C15", "title": "Source-count handling of T_ISS", "statement": "T_ISS separates n_chan sources when n_src is None, rejects n_src > n_chan with ValueError before touching the signal, and otherwise returns exactly n_src signals with the frequency and frame counts of the input.", "quantifier": "every batch shape, channel count, n_src", "why_tests_cant": "all shapes", "anchors": ["torchiva/t_iss.py:T_ISS.forward"]}
{"id": "C16", "title": "Over-determined background is uncorrelated with the sources", "statement": "In over-determined T-ISS, the background filter J makes the background signals (regularised-least-squares) uncorrelated with the current source estimates. (Holds without dereverberation taps; with taps the code uses the wrong sign for the reverberant term.)", "quantifier": "every input and every W, H", "why_tests_cant": "needs all inputs; the sign error is invisible to end-to-end SDR tests", "anchors": ["torchiva/t_iss.py:background_update", "torchiva/t_iss.py:demix_background"]}
{"id": "C17", "title": "Silence in, silence out", "statement": "All-zero input gives all-zero, finite output without an exception for T_ISS, WPE and AuxIVA-IP for every iteration count.", "quantifier": "every dimension, iteration count, eps > 0, source model with finite weights", "why_tests_cant": "absence of 0/0 must be shown for every division on the path", "anchors": ["torchiva/t_iss.py:T_ISS.forward", "torchiva/wpe.py:WPE.forward"]}
{"id": "C18", "title": "Reference microphone outside the first n_src channels", "statement": "projection_back with n_src < n_chan works for every reference microphone and every batch shape. (False: with ref_mic >= n_src and a batch dimension T_ISS raises.)", "quantifier": "every batch shape, n_src < n_chan, ref_mic", "why_tests_cant": "all batch ranks", "anchors": ["torchiva/t_iss.py:projection_back_weights"]}
{"id": "C19", "title": "Iterative-projection step", "statement": "Each AuxIVA_IP row update is the row-normalised ridge solution of (W V) w = e_k, rescaled so that the weighted output power is 1 (never more than 1 when clamped), and leaves the other rows unchanged.", "quantifier": "every W, V, k, eps > 0", "why_tests_cant": "optimality and exactness over all inputs", "anchors": ["torchiva/auxiva_ip.py:AuxIVA_IP.forward"]}
{"id": "C20", "title": "AuxIVA_IP default number of sources", "statement": "AuxIVA_IP with n_src left at None separates n_chan sources as documented. (False: it raises TypeError.)", "quantifier": "every input", "why_tests_cant": "documented default path never exercised by the tests", "anchors": ["torchiva/auxiva_ip.py:AuxIVA_IP.forward"]}
{"id": "C21", "title": "AuxIVA_IP projection back", "statement": "projection_back_from_demixing_matrix scales each source so that the scaled sources (plus a combination of background signals when J is given) reproduce the reference microphone, up to the ridge regularisation.", "quantifier": "every W, J, ref_mic", "why_tests_cant": "all matrices", "anchors": ["torchiva/auxiva_ip.py:projection_back_from_demixing_matrix"]}
{"id": "C22", "title": "OverIVA orthogonal constraint", "statement": "orthogonal_constraint returns None exactly when n_src == n_chan, raises ValueError when n_src > n_chan, and otherwise the ridge solution making the background uncorrelated with the sources.", "quantifier": "every W, Cx, shape", "why_tests_cant": "all shapes and matrices", "anchors": ["torchiva/auxiva_ip.py:orthogonal_constraint"]}
{"id": "C23", "title": "IP2 update diagonalises both weighted covariances", "statement": "After spatial_model_update_ip2 the two demixing rows satisfy w_0^H V_k w_1 = 0 for both k, and the weighted power of output k is 1 (or below when clamped).", "quantifier": "every two-channel input and nonnegative weights above the clamps", "why_tests_cant": "continuum of inputs", "anchors": ["torchiva/auxiva_ip2.py:spatial_model_update_ip2", "torchiva/linalg.py:eigh_2x2"]}
{"id": "C24", "title": "IP2 projected sources add up to the reference microphone", "statement": "With proj_back_mic=m and n_iter>0 the two outputs of AuxIVA_IP2 sum to input channel m, whenever the demixing matrix has |det| >= 1e-6. Away from the clamps of the update that is the case when the product of the weighted energies of the two microphones is at most 1e12.", "quantifier": "every two-channel input, source model, iteration count", "why_tests_cant": "all inputs and iteration counts", "anchors": ["torchiva/auxiva_ip2.py:AuxIVA_IP2.forward", "torchiva/linalg.py:inv_2x2"]}
{"id": "C25", "title": "IP2 argument checks", "statement": "AuxIVA_IP2 rejects inputs that do not have exactly two channels and reference microphones outside 0..1 before any computation.", "quantifier": "every shape and ref_mic", "why_tests_cant": "all shapes", "anchors": ["torchiva/auxiva_ip2.py:AuxIVA_IP2.forward"]}
{"id": "C26", "title": "FIVE output layout", "statement": "FIVE returns one signal with the same number of frequencies and frames as the input, whose DC bin is exactly zero.", "quantifier": "every input", "why_tests_cant": "all shapes", "anchors": ["torchiva/five.py:FIVE.forward"]}
{"id": "C27", "title": "FIVE pre-whitening", "statement": "The whitened signal used by FIVE has identity sample covariance when all eigenvalues of the input covariance are at least 1e-5. (False with two complex channels because of C05.)", "quantifier": "every input, every eigenbasis", "why_tests_cant": "must hold for all inputs; end-to-end tests only measure SDR", "anchors": ["torchiva/five.py:FIVE.forward"]}
{"id": "C28", "title": "FIVE output does not depend on eigenvector phases", "statement": "After at least one iteration the FIVE output does not depend on the arbitrary unit-modulus phases of the eigenvectors returned by the eigensolver. (It does for n_iter=0, when eigenvalues of the covariances coincide, and when the source model looks at phases.)", "quantifier": "every input, every phase choice", "why_tests_cant": "an eigensolver's phase choice is fixed on one machine", "anchors": ["torchiva/five.py:FIVE.forward"]}
{"id": "C29", "title": "FIVE power-method option", "statement": "FIVE with n_power_iter=n works for every n >= 1. (False for n=1: UnboundLocalError. Also the initial normalisation mixes frequencies.)", "quantifier": "every n_power_iter", "why_tests_cant": "the option is never tested", "anchors": ["torchiva/five.py:smallest_eigenvector_power_method", "torchiva/five.py:normalize"]}
{"id": "C30", "title": "FIVE without projection back", "statement": "FIVE(proj_back_mic=None) returns a signal of shape (..., 1, n_freq, n_frames). (False: the shape gains two dimensions.)", "quantifier": "every shape", "why_tests_cant": "documented option never tested", "anchors": ["torchiva/five.py:FIVE.forward"]}
{"id": "C31", "title": "FIVE extraction filter is optimal", "statement": "The unit-norm filter chosen by FIVE in each iteration has the smallest weighted output power among all unit-norm filters in the whitened domain.", "quantifier": "every input, all competing filters", "why_tests_cant": "quantifies over all filters", "anchors": ["torchiva/five.py:smallest_eigenvector_eigh_cpu", "torchiva/five.py:FIVE.forward"]}
{"id": "C32", "title": "WPE leaves the first frames untouched", "statement": "WPE never changes frames 0..n_delay, and returns its input when n_iter=0.", "quantifier": "every input, all parameters and iteration counts, every source model", "why_tests_cant": "all parameters", "anchors": ["torchiva/wpe.py:WPE.forward", "torchiva/wpe.py:derev"]}
{"id": "C33", "title": "WPE prediction filter is optimal", "statement": "The WPE filter minimises weighted prediction error plus ridge penalty, so the weighted energy of the dereverberated signal never exceeds that of the input.", "quantifier": "every input, nonnegative weights, all competing filters", "why_tests_cant": "quantifies over all filters", "anchors": ["torchiva/wpe.py:wpe_one_iter", "torchiva/wpe.py:derev"]}
{"id": "C34", "title": "WPE always solvable", "statement": "With n_taps >= 1, n_chan >= 1 and eps > 0 WPE never raises a singular-matrix error; with n_taps = 0 it raises.", "quantifier": "every input and parameters", "why_tests_cant": "rank-deficient covariances", "anchors": ["torchiva/wpe.py:wpe_one_iter", "torchiva/linalg.py:solve_loaded"]}
{"id": "C35", "title": "WPE default weights", "statement": "The default WPE weights are positive and sum to one over frames for every frequency.", "quantifier": "every input including silence", "why_tests_cant": "all inputs", "anchors": ["torchiva/wpe.py:wpe_default_weights"]}
{"id": "C36", "title": "MVDR is distortionless and minimum-variance", "statement": "compute_mvdr_bf(R, d) returns w with w^H d = 1 whenever d^H(R+lI)^-1 d >= eps (and 0 <= w^H d < 1 otherwise), and among all filters with unit response to d it has the least output power w.r.t. the loaded covariance.", "quantifier": "every Hermitian PSD R, every d, all competing filters", "why_tests_cant": "quantifies over all filters", "anchors": ["torchiva/beamformer.py:compute_mvdr_bf"]}
{"id": "C37", "title": "SCM-based MVDR passes a rank-one target undistorted", "statement": "compute_mvdr_bf2 with a rank-one target covariance d d^H and invertible noise covariance returns w with w^H d = d[ref_mic].", "quantifier": "every d, every positive definite noise covariance, ref_mic", "why_tests_cant": "continuum", "anchors": ["torchiva/beamformer.py:compute_mvdr_bf2"]}
{"id": "C38", "title": "MWF minimises mean-square error", "statement": "compute_mwf_bf(..., ref_mic=m) minimises target distortion plus noise power plus the diagonal-loading penalty; the user-supplied eps is used as loading. (The last clause is false when ref_mic is given.)", "quantifier": "every PSD pair, all competing filters, every eps", "why_tests_cant": "quantifies over all filters", "anchors": ["torchiva/beamformer.py:compute_mwf_bf"]}
{"id": "C39", "title": "GEV beamformer maximises SNR and is scaled to the reference", "statement": "compute_gev_bf uses the generalised eigenvector that maximises target over noise power and its scaled components over all eigenvectors add up to the reference microphone.", "quantifier": "every PSD pair, all competing filters", "why_tests_cant": "quantifies over all filters", "anchors": ["torchiva/beamformer.py:compute_gev_bf"]}
{"id": "C40", "title": "Relative transfer function is normalised at the reference", "statement": "compute_mvdr_rtf_eigh returns a vector whose ref_mic entry is one, for both the GEVD and the power-iteration variants, unless that entry vanishes before normalisation.", "quantifier": "every covariance pair, ref_mic, iteration count", "why_tests_cant": "continuum", "anchors": ["torchiva/beamformer.py:compute_mvdr_rtf_eigh"]}
{"id": "C41", "title": "Beamformer mask-count dispatch", "statement": "MVDRBeamformer accepts exactly 2 or 3 masks and mvdr_type in {rtf, scm}; anything else raises; the 3-mask variant ignores mvdr_type; MWF time-varying needs exactly 4 masks.", "quantifier": "every mask count and mvdr_type string", "why_tests_cant": "all strings and counts", "anchors": ["torchiva/beamformer.py:MVDRBeamformer.forward", "torchiva/beamformer.py:MWFBeamformer.forward"]}
{"id": "C42", "title": "Minimum-distortion scaling is least-squares optimal", "statement": "minimum_distortion(Y, ref) (p=None) multiplies every (channel, frequency) row by one complex number which minimises the squared error to the reference, whenever the mean power is at least 1e-7; rescaling a row of Y by any nonzero factor that stays above the threshold leaves the output unchanged.", "quantifier": "every Y, ref, all competing scale factors", "why_tests_cant": "quantifies over all factors", "anchors": ["torchiva/scaling.py:minimum_distortion_l2", "torchiva/scaling.py:minimum_distortion"]}
{"id": "C43", "title": "Phase-only minimum distortion keeps magnitudes", "statement": "minimum_distortion_l2_phase multiplies each row by a complex number of modulus at most 1, exactly 1 when the correlation is at least 1e-5, and that phase maximises correlation with the reference.", "quantifier": "every Y, ref", "why_tests_cant": "continuum", "anchors": ["torchiva/scaling.py:minimum_distortion_l2_phase"]}
{"id": "C44", "title": "Generalised minimum distortion terminates", "statement": "minimum_distortion with any p, q or model stops after at most max_iter updates and returns each row of Y scaled by one complex number; max_iter=0 returns Y.", "quantifier": "every input, p, q, rtol, max_iter", "why_tests_cant": "termination for all inputs", "anchors": ["torchiva/scaling.py:minimum_distortion"]}
{"id": "C45", "title": "Generalised minimum distortion descends", "statement": "Each p-norm update does not increase the (clamped) p-norm error to the reference while no denominator is clamped.", "quantifier": "every Y, ref, 0 < p < 2", "why_tests_cant": "monotonicity over all inputs", "anchors": ["torchiva/scaling.py:minimum_distortion", "torchiva/scaling.py:lp_norm"]}
{"id": "C46", "title": "Batch items are independent in minimum distortion", "statement": "Scaling a batch with minimum_distortion(p<2) equals scaling each item separately. (False: the stopping rule is a norm over the whole batch. True when both stop at max_iter.)", "quantifier": "every batch", "why_tests_cant": "needs particular pairs of items", "anchors": ["torchiva/scaling.py:minimum_distortion"]}
{"id": "C47", "title": "projection_back reproduces the reference on the selected frames", "statement": "projection_back(Y, ref) uses the n_chan frames of highest total magnitude and the returned scaled sources sum to ref on those frames up to the 1e-5 diagonal loading.", "quantifier": "every Y, ref", "why_tests_cant": "all inputs", "anchors": ["torchiva/scaling.py:projection_back"]}
{"id": "C48", "title": "Laplace and Gauss source weights are bounded", "statement": "LaplaceModel and GaussModel return weights in (0, 1/eps], constant over frequency, decreasing in the frame power.", "quantifier": "every input", "why_tests_cant": "all inputs including silence", "anchors": ["torchiva/models/classic.py:LaplaceModel.forward", "torchiva/models/classic.py:GaussModel.forward"]}
{"id": "C49", "title": "NMF state stays positive for every call history", "statement": "After any sequence of NMFModel.forward calls (same shape) since reset, basis and activations are at least eps, every division is by a positive number and the returned weights lie in (0, 1/eps].", "quantifier": "every call history, every input, every random initialisation", "why_tests_cant": "unbounded histories", "anchors": ["torchiva/models/classic.py:NMFModel"]}
{"id": "C50", "title": "NMF updates do not increase the Itakura-Saito objective", "statement": "While no clamp is active, each half-update of NMFModel does not increase sum P/R + log R.", "quantifier": "every nonnegative P and positive factors", "why_tests_cant": "monotonicity for all inputs", "anchors": ["torchiva/models/classic.py:NMFModel.forward"]}
{"id": "C51", "title": "Neural masks are bounded away from zero", "statement": "GLUMask and BLSTMMask outputs lie in (1e-5, 1), MaskMVDRSupport outputs in (eps, 1), whatever the network weights. SimpleModel only guarantees (0,1).", "quantifier": "every network output", "why_tests_cant": "all weights and inputs", "anchors": ["torchiva/models/glu.py:GLUMask.forward", "torchiva/models/blstm.py:BLSTMMask.forward", "torchiva/models/blstm.py:MaskMVDRSupport.forward", "torchiva/models/simple.py:SimpleModel.forward"]}
{"id": "C52", "title": "fftconvolve equals linear convolution", "statement": "fftconvolve(x1, x2, mode) equals direct linear convolution: all n1+n2-1 samples for full, the centred n1 samples for same, exactly the fully-overlapping samples for valid; other modes raise ValueError.", "quantifier": "every pair of nonempty real signals, every mode string", "why_tests_cant": "all lengths and parities", "anchors": ["torchiva/fftconvolve.py:fftconvolve"]}
{"id": "C53", "title": "select_most_energetic selects the most energetic signals", "statement": "The output consists of min(num, n) of the input signals at distinct positions, in order of decreasing power, and no omitted signal has more power than a selected one.", "quantifier": "every input, num", "why_tests_cant": "all inputs including ties", "anchors": ["torchiva/utils.py:select_most_energetic"]}
{"id": "C54", "title": "Separator output length equals input length", "statement": "BSSSeparator output always has as many samples as the input, keeping the leading samples of the inverse STFT and padding with zeros.", "quantifier": "every input length, STFT configuration", "why_tests_cant": "all lengths", "anchors": ["torchiva/nn.py:BSSSeparator.forward"]}
{"id": "C55", "title": "Separator construction accepts exactly the documented algorithms", "statement": "BSSSeparator accepts the six SepAlgo members or their string values and builds the corresponding algorithm; any other value raises ValueError.", "quantifier": "every value of algo", "why_tests_cant": "all strings", "anchors": ["torchiva/nn.py:BSSSeparator.__init__", "torchiva/nn.py:SepAlgo"]}
{"id": "C56", "title": "Model reset on every separation", "statement": "Each BSSSeparator call with an IVA algorithm starts from a freshly reset source model, so results do not depend on earlier calls; reset=False keeps the model state. (Second clause false: the separator resets anyway.)", "quantifier": "every call history", "why_tests_cant": "unbounded histories", "anchors": ["torchiva/nn.py:BSSSeparator.forward", "torchiva/base.py:DRBSSBase._reset"]}
{"id": "C57", "title": "STFT window handling", "statement": "STFT accepts window names and custom windows of length n_fft. (False for custom windows: constructor raises AttributeError.)", "quantifier": "every window argument", "why_tests_cant": "documented option never tested", "anchors": ["torchiva/stft.py:STFT.__init__"]}
{"id": "C58", "title": "Forward arguments do not persist", "statement": "Arguments passed to forward are used for that call only; attributes and later calls are unaffected for every sequence of calls; None means 'use the constructor value'.", "quantifier": "every sequence of forward calls and overrides", "why_tests_cant": "unbounded histories", "anchors": ["torchiva/base.py:DRBSSBase._set_params", "torchiva/base.py:BFBase._set_params"]}
{"id": "C59", "title": "Model cache is keyed by URL", "statement": "load_separator(url) returns the files stored at that url. (False: cache key is the last path component only. True when all URLs used have distinct last components.)", "quantifier": "every sequence of load calls", "why_tests_cant": "unbounded histories", "anchors": ["torchiva/loader.py:get_model_from_url"]}
{"id": "C60", "title": "Interrupted download does not poison the cache", "statement": "After a crash at any point of a download, a later load_separator(url) call gets complete files. (False: an existing partial file is never re-downloaded. True if the crash happens between files.)", "quantifier": "every crash point", "why_tests_cant": "crash points", "anchors": ["torchiva/loader.py:get_model_from_url"]}
{"id": "C61", "title": "Loader errors and overrides", "statement": "load_separator_model raises ValueError if either file is missing, and keyword arguments override the stored configuration key by key; load_separator rejects non-existing paths and non-folders.", "quantifier": "every file system state and keyword set", "why_tests_cant": "all states", "anchors": ["torchiva/loader.py:load_separator_model", "torchiva/loader.py:load_separator"]}
{"id": "C62", "title": "Command-line argument validation", "statement": "separate.main rejects src > mic, IP2 with anything but two mics and at most two sources, beamformers without a neural model; FIVE forces one source; every accepted option is honoured. (Last clause false: --n_iter is ignored for non-neural models.)", "quantifier": "every option combination", "why_tests_cant": "all combinations", "anchors": ["torchiva/separate.py:main"]}
{"id": "C63", "title": "Folder separation writes one file per input", "statement": "With a folder input each wav file found recursively is written to its own output file. (False for equal basenames in different subfolders. True otherwise.)", "quantifier": "every directory tree", "why_tests_cant": "all trees", "anchors": ["torchiva/separate.py:main"]}
{"id": "C64", "title": "CLI uses the requested number of microphones", "statement": "separate_one_file feeds min(mic, available) channels to the separator. (False: only src channels are used.)", "quantifier": "every channel count", "why_tests_cant": "all counts", "anchors": ["torchiva/separate.py:separate_one_file"]}
{"id": "C65", "title": "AutoClipper threshold is a percentile of the history", "statement": "After any sequence of gradient norms the history is sorted and contains each norm once, and the clip threshold is its floor(p/100*n)-th element (the last one for p=100).", "quantifier": "every sequence of norms, 0 <= p <= 100", "why_tests_cant": "unbounded histories", "anchors": ["examples/autoclip_module.py:AutoClipper"]}
{"id": "C66", "title": "InterleavedLoaders yields everything once", "statement": "Iterating InterleavedLoaders until StopIteration yields every batch of every loader exactly once, in order within a loader, len() of them, in round-robin order; afterwards it can be iterated again.", "quantifier": "every list of loaders", "why_tests_cant": "all lists of lengths", "anchors": ["examples/dataloader.py:InterleavedLoaders"]}
{"id": "C67", "title": "Collator preserves every sample", "statement": "collator returns a batch in which each item appears unchanged at a centred offset surrounded by zeros, mixture and reference aligned.", "quantifier": "every list of items", "why_tests_cant": "all lengths", "anchors": ["examples/dataloader.py:collator"]}
{"id": "C68", "title": "compute_interval stays inside the mixture", "statement": "compute_interval returns [s,e) with 0 <= s, e <= n_mix and length min(n_target, n_mix).", "quantifier": "every length, offsets", "why_tests_cant": "all integers and parities", "anchors": ["examples/dataloader.py:compute_interval"]}
{"id": "C69", "title": "dtype mapping", "statement": "dtype_f2cpx and dtype_cpx2f are mutually inverse between real and complex types of the same precision, idempotent on their ranges, and reject other dtypes.", "quantifier": "every dtype", "why_tests_cant": "finite but must cover every dtype", "anchors": ["torchiva/dtypes.py"]}
{"id": "C70", "title": "import_name resolution", "statement": "import_name('a.b.c') imports module a.b and returns attribute c, raising ImportError when missing; a single-part name returns the module.", "quantifier": "every dotted name and module environment", "why_tests_cant": "all names", "anchors": ["torchiva/utils.py:import_name", "torchiva/utils.py:instantiate"]}
{"id": "C71", "title": "T-ISS keeps the demixing matrix invertible", "statement": "In the determined case (as many sources as channels) the demixing matrix maintained by T_ISS stays invertible after any number of iterations, for any source model.", "quantifier": "every input, source model, iteration count, eps in (0,1]", "why_tests_cant": "no finite set of runs shows that a product of data-dependent updates never becomes singular", "anchors": ["torchiva/t_iss.py:over_iss_t", "torchiva/t_iss.py:iss_updates"]}
{"id": "C72", "title": "AuxIVA_IP output is an instantaneous linear filter of the input", "statement": "AuxIVA_IP.forward succeeds for every input whenever n_src <= n_chan and the reference microphone exists, and every output is, per frequency, a fixed linear combination of the input channels at the same frame.", "quantifier": "every input, nonnegative source model, n_src <= n_chan, iteration count, eps > 0", "why_tests_cant": "all inputs and iteration counts", "anchors": ["torchiva/auxiva_ip.py:AuxIVA_IP.forward"]}
{"id": "C73", "title": "Zero iterations leave the signal alone", "statement": "AuxIVA_IP and AuxIVA_IP2 with n_iter=0 return the (first n_src channels of the) input, as T_ISS does.", "quantifier": "every input, every proj_back_mic", "why_tests_cant": "all inputs", "anchors": ["torchiva/auxiva_ip.py:AuxIVA_IP.forward", "torchiva/auxiva_ip2.py:AuxIVA_IP2.forward"]}
{"id": "C74", "title": "The two-channel IP2 update is globally optimal", "statement": "Above the numerical clamps spatial_model_update_ip2 returns a demixing matrix whose auxiliary cost (weighted output energies minus 2 log |det W|) is not larger than that of any other invertible 2x2 matrix, so the cost never increases between iterations.", "quantifier": "every two-channel input and nonnegative weights above the clamps, every competing matrix", "why_tests_cant": "optimality over all competing matrices", "anchors": ["torchiva/auxiva_ip2.py:spatial_model_update_ip2"]}
{"id": "C75", "title": "WPE treats frequencies independently", "statement": "With its default weights the WPE output at a frequency depends only on the input at that frequency.", "quantifier": "all pairs of inputs that agree at one frequency, all parameters", "why_tests_cant": "two-run property over all inputs", "anchors": ["torchiva/wpe.py:wpe_one_iter", "torchiva/wpe.py:WPE.forward"]}
{"id": "C76", "title": "Mixed-norm weights majorise the mixed norm", "statement": "minimum_distortion(p, q) uses at every iteration the weights of the standard quadratic majoriser of the documented (p,q) mixed norm. (False unless q is 1 or 2: the code raises |e|^q instead of |e| to the power 2-q.)", "quantifier": "every error tensor, every 0 < p <= q <= 2", "why_tests_cant": "continuum of exponents and errors", "anchors": ["torchiva/scaling.py:lpq_norm", "torchiva/scaling.py:minimum_distortion"]}
{"id": "C77", "title": "Classic weights majorise their contrast", "statement": "For an estimate without nearly silent frames, the change of LaplaceModel.cost (resp. of the Gaussian contrast) when moving to any other estimate is at most the change of the power weighted by the model's weights; hence not increasing the weighted power never increases the cost.", "quantifier": "every pair of estimates, every eps > 0", "why_tests_cant": "inequality over all pairs of signals", "anchors": ["torchiva/models/classic.py:LaplaceModel.forward", "torchiva/models/classic.py:LaplaceModel.cost", "torchiva/models/classic.py:GaussModel.forward"]}
{"id": "C78", "title": "GLUMask output shape", "statement": "GLUMask returns a mask of the input's shape for every odd kernel_size, number of sub-layers >= 1, pooling size, bottleneck and number of frames; even kernel sizes, zero sub-layers and a wrong number of frequencies always raise.", "quantifier": "every constructor argument and number of frames", "why_tests_cant": "all sizes", "anchors": ["torchiva/models/glu.py:GLUMask", "torchiva/models/glu.py:GLULayer"]}
{"id": "C79", "title": "GLUMask ignores the input level", "statement": "Multiplying each item by its own gain does not change the mask as long as the mean power stays at least 1e-5.", "quantifier": "every network, input and gain", "why_tests_cant": "all inputs and networks", "anchors": ["torchiva/models/glu.py:GLUMask.forward"]}
{"id": "C80", "title": "STFT round trip", "statement": "STFT.inv(STFT(x)) reproduces x on every sample it returns, for every window, whenever it returns; it always returns for the default Hann window when the hop is at most half the frame and the signal is longer than half a frame. The result is never longer than x.", "quantifier": "every signal, signal length, frame length, hop and window", "why_tests_cant": "all lengths and hops; boundary frames", "anchors": ["torchiva/stft.py:STFT.forward", "torchiva/stft.py:STFT.inv"]}
{"id": "C81", "title": "Interval covers the overlap of the sources", "statement": "compute_interval returns an interval that contains every sample where all sources are active, or else consists only of such samples.", "quantifier": "every list of sources inside the mixture, every target length", "why_tests_cant": "all integers and parities", "anchors": ["examples/dataloader.py:compute_interval"]}
{"id": "C82", "title": "Ensemble is the average", "statement": "load_ensemble_model loads, for each parameter, the average over the given epochs.", "quantifier": "every list of epochs and parameter", "why_tests_cant": "all lists", "anchors": ["examples/test.py:load_ensemble_model"]}
{"id": "C83", "title": "Separators accept every batch shape", "statement": "T_ISS, AuxIVA_IP, AuxIVA_IP2, FIVE, WPE, the MVDR, MWF and GEV beamformers, the scaling functions and select_most_energetic accept input with any number and size of leading batch dimensions and return (..., n_src, n_freq, n_frames) with the same batch dimensions, for a source model that keeps the shape of its input and a reference microphone among the first n_src channels.", "quantifier": "every batch shape, number of channels, sources, frequencies, frames, taps, iterations", "why_tests_cant": "tests use one or two batch ranks; a permute or an ellipsis that is wrong for another rank goes unnoticed", "anchors": ["torchiva/t_iss.py:T_ISS.forward", "torchiva/auxiva_ip.py:AuxIVA_IP.forward", "torchiva/auxiva_ip2.py:AuxIVA_IP2.forward", "torchiva/five.py:FIVE.forward", "torchiva/wpe.py:WPE.forward", "torchiva/beamformer.py", "torchiva/scaling.py", "torchiva/utils.py:select_most_energetic"]}
{"id": "C84", "title": "AuxIVA_IP with a reference microphone outside the first n_src", "statement": "AuxIVA_IP with n_src < n_chan and proj_back_mic >= n_src returns (..., n_src, n_freq, n_frames). (False: the batch and frequency dimensions are repeated in front of the result.)", "quantifier": "every shape, n_src < n_chan, proj_back_mic >= n_src", "why_tests_cant": "the call succeeds and silently returns a larger tensor", "anchors": ["torchiva/auxiva_ip.py:projection_back_from_demixing_matrix"]}
{"id": "C85", "title": "verbose=True does not change the result", "statement": "AuxIVA_IP(verbose=True) returns the same as verbose=False. (False: with any batch dimension it raises ValueError.)", "quantifier": "every shape", "why_tests_cant": "all batch ranks", "anchors": ["torchiva/auxiva_ip.py:cost"]}
{"id": "C86", "title": "WPE accepts the source models of the library", "statement": "WPE(model=...) accepts every source model of the library, which return weights of the shape of their input. (False: it raises RuntimeError as soon as there are two channels.)", "quantifier": "every batch shape, two channels or more", "why_tests_cant": "documented option, every shape fails", "anchors": ["torchiva/wpe.py:wpe_one_iter"]}
{"id": "C87", "title": "minimum_distortion with a model uses the weights of each item", "statement": "minimum_distortion(model=m) accepts every batch shape and weights each batch item and frequency with the output of m there. (False: the weights of item 0 and frequency 0 are used for all, unbatched input raises IndexError, and with two or more batch dimensions the last but one is matched with the frequencies, which raises RuntimeError in general.)", "quantifier": "every input, batch shape and model", "why_tests_cant": "values differ only with more than one item or frequency; every batch shape would have to be tried", "anchors": ["torchiva/scaling.py:minimum_distortion"]}
{"id": "C88", "title": "Source and mask models keep batch shapes", "statement": "LaplaceModel, GaussModel and a reset NMFModel return weights of the shape of their input; MaskMVDRSupport returns (..., n_src, n_masks, n_freq, n_frames).", "quantifier": "every batch shape and non-empty spectrogram", "why_tests_cant": "all batch ranks", "anchors": ["torchiva/models/classic.py", "torchiva/models/blstm.py:MaskMVDRSupport"]}
{"id": "C89", "title": "BSSSeparator returns as many samples as it is given", "statement": "BSSSeparator maps (..., n_chan, n_samples) to (..., n_src, n_samples) for every batch shape and every number of samples above half the window, whatever the hop.", "quantifier": "every batch shape, number of samples, window, hop", "why_tests_cant": "every residue of n_samples modulo the hop", "anchors": ["torchiva/nn.py:BSSSeparator.forward", "torchiva/stft.py"]}
{"id": "C90", "title": "BSSSeparator builds a usable beamformer by default", "statement": "BSSSeparator(algo=mvdr, mwf or gev) with the default source_model separates. (False: the default Laplace model is not a mask model and the call raises.)", "quantifier": "unbatched and one-batch-dimension input", "why_tests_cant": "constructor succeeds, every call fails", "anchors": ["torchiva/nn.py:BSSSeparator.__init__"]}
{"id": "C91", "title": "The STFT can be inverted with every hop up to the frame", "statement": "With the default window, STFT(n_fft, hop_length) followed by inv returns the signal for every hop_length up to n_fft. (False: with hop_length = n_fft, or within n_fft/1800 of it, every inverse of two frames or more raises RuntimeError. Exactly: with d = n_fft - hop_length the inverse of two frames or more exists if and only if sin(pi floor(d/2)/n_fft)^4 + sin(pi ceil(d/2)/n_fft)^4 exceeds 1e-11, which is the case up to 0.998 n_fft.)", "quantifier": "every n_fft, hop, signal and number of frames", "why_tests_cant": "the failing hops are a thin band that depends on n_fft", "anchors": ["torchiva/stft.py:STFT.inv", "torchiva/stft.py:STFT.forward"]}
{"id": "C92", "title": "One more iteration never increases the scale-free objective", "statement": "T-ISS with LaplaceModel or GaussModel and no projection back: raising n_iter by one never increases F * sum over sources of 2 log mean frame norm (Laplace) or the sum over frames of log frame power (Gauss) minus 2 sum over frequencies of log abs det W, as long as the frames are louder than the floor of the source model; in general the increase is bounded by the effect of that floor", "quantifier": "every multichannel input, number of sources, taps, delay, iteration count and eps > 0", "why_tests_cant": "descent must hold from every reachable state, and the objective only makes sense after removing the scale each iteration changes", "anchors": ["torchiva/t_iss.py:T_ISS.forward", "torchiva/t_iss.py:over_iss_t_one_iter", "torchiva/models/classic.py:LaplaceModel", "torchiva/models/classic.py:GaussModel"]}
{"id": "C93", "title": "The scale of the separated sources is pinned by the last iteration", "statement": "Without projection back, the sources T-ISS returns after at least one iteration have weighted power at most one at every frequency, for the weights computed from the previous output times its clamped mean power; with one channel the new output is the closed form previous output divided by the root of that mean power times the weighted power", "quantifier": "every input, nonnegative source model, iteration count and eps", "why_tests_cant": "a bound on all outputs for arbitrary source models", "anchors": ["torchiva/t_iss.py:over_iss_t_one_iter", "torchiva/t_iss.py:iss_block_update_type_1"]}
{"id": "C94", "title": "AuxIVA-IP2 never increases the scale-free objective", "statement": "Two channels, LaplaceModel or GaussModel, no projection back: when the frames are above the floor of the source model and the weighted covariances are away from the clamps, one more iteration gives invertible demixing matrices and does not increase the scale-free negative log-likelihood", "quantifier": "every two-channel input, iteration count, eps > 0 and current demixing matrices", "why_tests_cant": "descent from every reachable state and every competing demixing matrix", "anchors": ["torchiva/auxiva_ip2.py:AuxIVA_IP2.forward", "torchiva/auxiva_ip2.py:AuxIVA_IP2", "torchiva/models/classic.py:LaplaceModel", "torchiva/models/classic.py:GaussModel"]}
{"id": "C95", "title": "WPE with default weights lowers the likelihood objective", "statement": "With the default weights the first iteration of WPE never increases the product over the frames of the mean power over channels, at any frequency, if the input frames are above eps; later iterations obey the same bound relative to the input and the current weights, and increase the product (of the clamped powers of the current estimate) at most by a factor that differs from one only by the ridge penalty on the filters that produced that estimate; such an increase does happen, for a recording whose frames all stay above eps", "quantifier": "every input, number of taps, delay, frequency and eps > 0", "why_tests_cant": "inequality over all signals, the optimum of a weighted ridge regression", "anchors": ["torchiva/wpe.py:WPE.forward", "torchiva/wpe.py:wpe_one_iter", "torchiva/wpe.py:wpe_default_weights"]}
{"id": "C96", "title": "Power iterations of the MVDR relative transfer function", "statement": "With n_power_iter = n >= 1 and a positive semi-definite noise covariance, compute_mvdr_rtf_eigh always finds a positive multiple of (L^-1 Rt)^n e0 with L the loaded noise covariance, so that the returned relative transfer function has a closed form (it fails iff the reference entry vanishes); one more iteration never lowers the ratio of target power to loaded noise power, and with enough iterations the ratio reaches the dominant generalised eigenvalue up to any tolerance when the first microphone sees the dominant eigenvector.", "quantifier": "every covariance pair, iteration count, reference microphone and tolerance", "why_tests_cant": "the iteration count is unbounded and the covariances are a continuum", "anchors": ["torchiva/beamformer.py:compute_mvdr_rtf_eigh"]}
{"id": "C97", "title": "The order of frequencies and frames and the phase reference do not matter", "statement": "Separating with T-ISS, AuxIVA-IP or AuxIVA-IP2, extracting a source with FIVE (for its frequencies above zero) and dereverberating with WPE commute with storing the frequencies in another order and with multiplying all channels by a unit-modulus factor per frequency and frame; the factor may be any for algorithms without taps, which also commute with reordering the frames, and a constant phase advance from frame to frame (another phase reference of the STFT) with taps. A call on the transformed input succeeds iff the original call does, and returns the transformed output; Laplace and Gauss models satisfy the condition on the source model for all of these, and any model that only sees magnitudes does for the phases", "quantifier": "every input, change of convention, iteration count, number of sources, taps and delay, eps, reference microphone and source model that follows the change", "why_tests_cant": "an equivariance over a continuum of phases and all permutations, through any number of iterations", "anchors": ["torchiva/t_iss.py:T_ISS.forward", "torchiva/auxiva_ip.py:AuxIVA_IP.forward", "torchiva/auxiva_ip2.py:AuxIVA_IP2.forward", "torchiva/five.py:FIVE.forward", "torchiva/wpe.py:WPE.forward", "torchiva/models/classic.py:LaplaceModel", "torchiva/models/classic.py:GaussModel"]}
{"id": "C98", "title": "An exported model loads as the model that was trained", "statement": "Training a separator from a configuration, exporting it with examples/export_model.py and loading the folder gives a separator with the same algorithm, arguments, source model and tensors as the trained one. The code violates this: the algorithm and the number of sources are not exported, so that blind models come back as T-ISS and beamformers cannot be loaded; it holds when the caller passes both again", "quantifier": "every configuration accepted by the trainer, algorithm, trained weights and random state at load time", "why_tests_cant": "a statement over all configurations, weights and random states; the loss of information shows only in combination", "anchors": ["examples/export_model.py:__main__", "examples/separation_model.py:WSJModel.__init__", "torchiva/loader.py:load_separator", "torchiva/nn.py:BSSSeparator.__init__", "torchiva/base.py:DRBSSBase", "torchiva/base.py:BFBase"]}
{"id": "C99", "title": "Loaded tensors come from the checkpoint", "statement": "A separator that loads has exactly the stored window and source model tensors, whatever the configuration file and the keyword arguments say (so a window argument given at load time has no effect), and a load with an n_fft whose window does not have the stored shape fails", "quantifier": "every configuration, keyword arguments, checkpoint and random state", "why_tests_cant": "quantifies over all configurations, overrides and checkpoints", "anchors": ["torchiva/loader.py:load_separator", "torchiva/nn.py:BSSSeparator.__init__", "torchiva/stft.py:STFT.__init__"]}
{"id": "C100", "title": "Mixture and references of a training sample belong together", "statement": "Every item the data set returns is cut out of the files of one room of the list, which max_n_samples shortens as a Python slice does (also for negative values): the mixture (noiseless, if so chosen) holds every microphone once, all tensors start at the same sample of their files, and the references (reverberant or anechoic, as chosen) are taken at the microphone that the mixture holds at position ref_mic, counted from the end when negative, however the channels are shuffled (unless shuffle_ref); without noise channel ref_mic of the mixture is therefore the sum of the references. The mixture has min(max_len_s * fs, available) samples, and the item is the first in the sequence of the requested index and the random retries that is not rejected", "quantifier": "every data set, option combination, index, random draws and recursion depth", "why_tests_cant": "depends on random permutations and on an unbounded chain of random retries", "anchors": ["examples/dataloader.py:WSJ1SpatialDataset.__init__", "examples/dataloader.py:WSJ1SpatialDataset.__getitem__", "examples/dataloader.py:compute_interval"]}
{"id": "C101", "title": "Only silent items are replaced", "statement": "When a length is given, an item with a silent reference is never returned and an item without one is returned when it is asked for. The second half is violated: the code compares the mean of the signal, not of its power, with zero, so items with zero mean are rejected, and a data set of such items never returns; it holds for items whose references have a non-zero mean", "quantifier": "every data set, index and random draws", "why_tests_cant": "all signals and all random retries", "anchors": ["examples/dataloader.py:WSJ1SpatialDataset.__getitem__"]}
{"id": "C102", "title": "The order of the microphones does not matter", "statement": "Listing the microphones in another order, with ref_mic pointing to the same microphone, leaves the output of the beamformers unchanged and permutes the output channels of WPE in the same way; the beamformers also follow every order of frames and frequencies and every phase convention that the mask model follows. The MVDR beamformer with power iterations violates it: the iterations start from the first microphone, and exchanging two microphones can turn a valid output into a division by zero; there it holds when the first microphone keeps its place", "quantifier": "every recording, mask model that follows the change, reference microphone and permutation; for the eigenvector-based beamformers three or more channels, a noise covariance bounded below by 1e-5 and a unique best direction", "why_tests_cant": "all inputs and all permutations", "anchors": ["torchiva/beamformer.py:MVDRBeamformer.forward", "torchiva/beamformer.py:MWFBeamformer.forward", "torchiva/beamformer.py:GEVBeamformer.forward", "torchiva/beamformer.py:compute_mvdr_rtf_eigh", "torchiva/wpe.py:WPE.forward"]}
{"id": "C103", "title": "Demixing-matrix checkpointing does not change the gradient", "statement": "Calling backward() on a loss of the output of T_ISS gives the same gradient, with respect to the mixture and to the parameters of the source model, with use_dmc=True and with use_dmc=False.", "quantifier": "every number of sources, channels, frequencies, frames, taps and iterations, every source model, every input where the iterations are differentiable, every gradient of the loss with respect to separated signals and filters", "why_tests_cant": "Numerical gradient comparison covers a few shapes and models; that saved inputs, recomputation and accumulation compose to the same derivative for every number of iterations is a chain-rule induction, and models with state break it only for some histories.", "anchors": ["torchiva/t_iss.py: T_ISS.forward", "torchiva/t_iss.py: over_iss_t_one_iter_dmc", "torchiva/t_iss.py: over_iss_t_one_iter", "torchiva/t_iss.py: background_update", "torchiva/models/classic.py: NMFModel.forward"]}
{"id": "C104", "title": "Recordings that are already separated stay separated", "statement": "If no two channels of a recording are active in the same time-frequency bin, output k of T_ISS (n_taps=0) and of AuxIVA_IP is channel k up to a scale per frequency. With n_taps>0, T_ISS keeps the channels apart if they are never active within n_delay+n_taps frames of one another: output k is channel k scaled, minus filtered earlier frames of channel k. The scale is zero only when the outputs are projected back onto a microphone that does not hear source k, and then the output is silent (with n_iter > 0 for T_ISS).", "quantifier": "every number of channels, sources, frequencies, frames, taps, delays and iterations, every source model (positive weights for the non-zero scale of AuxIVA_IP), every such recording", "why_tests_cant": "Tests separate mixtures; that no update ever leaks one channel into another is an invariant of every update of every iteration for every source model.", "anchors": ["torchiva/t_iss.py: T_ISS.forward", "torchiva/t_iss.py: over_iss_t_one_iter", "torchiva/t_iss.py: projection_back_weights", "torchiva/auxiva_ip.py: AuxIVA_IP.forward", "torchiva/auxiva_ip.py: orthogonal_constraint"]}
{"id": "C105", "title": "The level of the recording only scales the output", "statement": "If the mask model does not depend on the level (or on the equalisation) of its input, multiplying the recording by a gain, the same for all channels and possibly different for every frequency, multiplies the output of the beamformers and of WPE by the same gain, and failures are the same. MVDR from covariance matrices: every non-zero gain. GEV: while the noise covariance stays bounded away from zero. MWF, MVDR with a relative transfer function and WPE violate it: their diagonal load stops following the level when no entry of the covariance reaches one (quiet recordings), and the denominator guard of MVDR attenuates loud ones (a level of 317 for the default eps and one microphone); there it holds while the guards are idle at both levels", "quantifier": "every number of channels, sources, frequencies and frames, recording, gain, mask model that ignores the gain, reference microphone, number of power or WPE iterations", "why_tests_cant": "Tests run at one level; equality has to hold for every gain and recording, and the guards become active at levels that normalised test files never reach", "anchors": ["torchiva/beamformer.py:compute_mwf_bf", "torchiva/beamformer.py:compute_mvdr_bf", "torchiva/beamformer.py:compute_mvdr_bf2", "torchiva/beamformer.py:compute_mvdr_rtf_eigh", "torchiva/beamformer.py:compute_gev_bf", "torchiva/wpe.py:WPE", "torchiva/linalg.py:solve_loaded"]}
{"id": "C106", "title": "The training loss", "statement": "The loss of a training or validation step is the average, over the items and sources of the batch, of the losses of the pairs in the best assignment of separated signals to references, over their common length; when there are more separated signals than references the strongest ones are used. It depends neither on the order of the separated signals nor on that of the references, and only on the first n_chan channels of the mixtures.", "quantifier": "every batch, number of channels and sources, lengths, signals, pairwise loss, and order in which the sort breaks ties between signals that are equally strong", "why_tests_cant": "A test evaluates a few batches; invariance under all orders and the minimum over all assignments are universal statements.", "anchors": ["examples/separation_model.py:WSJModel.compute_metrics", "examples/separation_model.py:WSJModel.training_step", "torchiva/utils.py:select_most_energetic"]}
{"id": "C107", "title": "The logged validation loss", "statement": "The loss logged at the end of a validation epoch is the average of the losses of the validation items, and the metric its negative.", "quantifier": "every number of items, batch size and losses", "why_tests_cant": "The code averages the averages of the batches: it is right exactly when all batches have one size, which a test with one data set cannot show.", "anchors": ["examples/separation_model.py:WSJModel.validation_epoch_end", "examples/separation_model.py:WSJModel.validation_step"]}
{"id": "C108", "title": "One epoch of training data", "statement": "train_n_channels is read as documented (number, list, dictionary with -1 for all samples); one epoch visits every sample of every training set exactly once, in batches that come from a single training set and have at most its batch size; the validation set is not shuffled nor cut; the training sets use the numbers of channels asked for.", "quantifier": "every configuration, numbers of samples, batch sizes and orders of the samplers", "why_tests_cant": "The interleaving depends on all the lengths; the coverage is a statement about every one of them.", "anchors": ["examples/data_module.py:WSJ6chDataModule.setup", "examples/data_module.py:WSJ6chDataModule.train_dataloader", "examples/data_module.py:WSJ6chDataModule.val_dataloader"]}
{"id": "C109", "title": "Gradient clipping and its log", "statement": "Every backward pass clips the gradient with the current threshold of the automatic clipper, also when nothing is logged; every 25 steps the log reports the norm before clipping, the norm after clipping up to 1e-6, and the latter times the learning rate.", "quantifier": "every history of norms, gradient, step number and learning rate", "why_tests_cant": "The clipping threshold depends on the whole history of gradients.", "anchors": ["examples/separation_model.py:WSJModel.on_after_backward", "examples/autoclip_module.py:AutoClipper"]}
{"id": "C110", "title": "Which items an evaluation covers", "statement": "The evaluation script processes the items in order, all of them or as many as --limit says, and its summary is the average of the scores over exactly the processed items. --n_chan selects that many different channels, including the reference, for 2 to 6 channels and fails otherwise.", "quantifier": "every data set, scores, limit and number of channels", "why_tests_cant": "The count is off by one for every limit: a property of the loop for all limits.", "anchors": ["examples/test.py:__main__"]}
{"id": "C111", "title": "Rows and tables of an evaluation", "statement": "Row k of the results and the sound file of channel k concern reference k: the reported number is the score of the saved signal with respect to that reference minus that of the mixture, and each separated signal is saved once. The tables of transcripts, files and speakers list the same utterances in the same sorted order.", "quantifier": "every number of sources, signals, scores, assignment, list of utterances", "why_tests_cant": "Correct pairing has to hold for every assignment that the scorer may return.", "anchors": ["examples/test.py:__main__", "examples/test.py:table_2_file"]}
{"id": "C112", "title": "Evaluations do not overwrite each other", "statement": "Evaluations with different data sets, splits, models or algorithms write to different folders.", "quantifier": "every pair of configurations", "why_tests_cant": "A collision is a relation between two runs; a test of one run cannot show it.", "anchors": ["examples/test.py:__main__"]}
{"id": "C113", "title": "The checkpoint of the requested epoch", "statement": "Loading the model of an epoch takes a checkpoint of that epoch, not of one whose number shares digits with it, in whatever order the folder is listed, and fails if there is none.", "quantifier": "every folder, set of checkpoints named as the trainer names them, order of listing, epoch", "why_tests_cant": "The order of a directory listing is unspecified and the sets of epochs unbounded.", "anchors": ["examples/test.py:load_model"]}
{"id": "C114", "title": "Saved sound files do not wrap around", "statement": "The sound file of a signal that is not silent has as many samples, all within one unit of the signal times a common positive factor, at most 31129 in size, reached by the strongest samples; it is saved under the name that was passed.", "quantifier": "every signal and name", "why_tests_cant": "Wrap-around of 16-bit samples occurs for particular values only.", "anchors": ["examples/test.py:write_wav"]}
{"id": "C115", "title": "Example mixtures are consistent", "statement": "The files of an example mixture have the same length, are scaled by one common positive factor to within one unit, never leave the 16-bit range, and the mixture is the sum of the reverberant references up to one unit per source.", "quantifier": "every number of sources and microphones, lengths and signals (not all silent)", "why_tests_cant": "Range and consistency have to hold for every sample of all signals.", "anchors": ["examples/samples/make_mix.py:pad_to_max", "examples/samples/make_mix.py:scale", "examples/samples/make_mix.py:save_files"]}
{"id": "C116", "title": "Batches of recordings", "statement": "make_batch_array starts every recording at the beginning of its item and pads with zeros to the longest, or cuts all to the shortest; read_audio returns the reference channels of the files in order, exactly when all have the expected sampling frequency, that channel and one length.", "quantifier": "every list of recordings with the same number of channels; every list of files", "why_tests_cant": "Lengths and numbers of recordings are unbounded.", "anchors": ["examples/example.py:make_batch_array", "examples/samples/read_samples.py:make_batch_array", "examples/samples/read_samples.py:read_audio", "examples/test.py:make_batch_array"]}
{"id": "C117", "title": "A pretrained separator is a function of the recording", "statement": "Separating the same recording twice with a separator returned by load_separator gives the same result, and using the separator does not modify it. The code violates this: the separator is left in training mode, so dropout makes the result random and batch normalisation updates its running statistics. Once the caller switches it to evaluation mode, the masks do not depend on random draws; those of GLUMask are also shown to leave the model unmodified.", "quantifier": "every network of the given structure with any parameters, every recording, every outcome of the random draws, batch and length", "why_tests_cant": "Randomness ranges over all dropout outcomes, and the networks over all parameter values.", "anchors": ["torchiva/loader.py:load_separator_model", "torchiva/separate.py:separate_one_file", "torchiva/models/glu.py:GLUMask", "torchiva/models/blstm.py:BLSTMMask", "torchiva/models/blstm.py:MaskMVDRSupport"]}
{"id": "C118", "title": "Neural masks treat the items of a batch independently", "statement": "The mask a neural source model computes for one signal does not depend on the other signals of the batch. True of SimpleModel, and of GLUMask, BLSTMMask and MaskMVDRSupport in evaluation mode; violated by GLUMask in training mode, the mode of loaded separators.", "quantifier": "every network parameter, batch, position in the batch, number of frequencies and frames", "why_tests_cant": "Batches and parameters are unbounded.", "anchors": ["torchiva/models/glu.py:GLUMask", "torchiva/models/simple.py:SimpleModel", "torchiva/models/blstm.py:BLSTMMask", "torchiva/models/blstm.py:MaskMVDRSupport"]}
{"id": "C119", "title": "How far a GLU mask looks", "statement": "In evaluation mode the mask of GLUMask at a frame depends only on the total energy of the recording and on the frames at distance at most 1 + 2 n_sublayers + kernel_size // 2; for every number of sublayers and odd kernel size this distance cannot be smaller.", "quantifier": "every parameter, recording, frame, number of sublayers; odd kernel sizes for sharpness", "why_tests_cant": "Lengths, depths and kernel sizes are unbounded.", "anchors": ["torchiva/models/glu.py:GLULayer", "torchiva/models/glu.py:GLUMask"]}
{"id": "C120", "title": "Separated recordings add up to the reference recording", "statement": "From recording to recordings (STFT, separation, inverse STFT): every linear relation with real factors between the channels of the input and output spectrograms holds for the samples of the recordings. In particular the two recordings separated by AuxIVA-IP2 for microphone m add up to the recording of microphone m, and T-ISS with zero iterations returns the first recordings unchanged.", "quantifier": "every recording longer than half a frame, frame length, hop of at most half a frame, source model, number of iterations", "why_tests_cant": "Lengths, contents and iteration counts are unbounded, and exactness of the sum is a statement about every sample.", "anchors": ["torchiva/nn.py:BSSSeparator.forward", "torchiva/stft.py:STFT.forward", "torchiva/stft.py:STFT.inv", "torchiva/auxiva_ip2.py:AuxIVA_IP2.forward", "torchiva/t_iss.py:T_ISS.forward"]}
{"id": "C121", "title": "Level, polarity and microphone order of recordings", "statement": "A recording that is g times louder (or of opposite polarity) gives recordings separated by GEV that are g times louder, and listing the microphones in another order with ref_mic pointing to the same microphone gives the same recordings separated by MWF and GEV; more generally every real mixture of channels that the separator answers with a mixture of its outputs is answered so for the recordings.", "quantifier": "every recording, frame length, hop, window, gain, permutation, mask model that does not depend on the level (for the gain)", "why_tests_cant": "Relations between two runs over all recordings and gains.", "anchors": ["torchiva/nn.py:BSSSeparator.forward", "torchiva/stft.py:STFT.forward", "torchiva/stft.py:STFT.inv", "torchiva/beamformer.py:GEVBeamformer.forward", "torchiva/beamformer.py:MWFBeamformer.forward"]}
{"id": "C122", "title": "Neural masks computed from magnitudes ignore phases", "statement": "SimpleModel, MaskMVDRSupport, and GLUMask and BLSTMMask with mag_spec=True give the same masks to two inputs with the same magnitudes, in both modes; with GLUMask a change of the phase reference of the mixture changes only the phases of the sources separated by T_ISS. With mag_spec=False a mask depends on the phase", "quantifier": "every input, network weights, mode and random draw; every change of phase reference", "why_tests_cant": "all pairs of inputs and all weights would have to be tried", "anchors": ["torchiva/models/glu.py:GLUMask", "torchiva/models/blstm.py:BLSTMMask", "torchiva/models/blstm.py:MaskMVDRSupport", "torchiva/models/simple.py:SimpleModel", "torchiva/t_iss.py:T_ISS"]}
{"id": "C123", "title": "GLU masks of a long recording can be computed in chunks", "statement": "In evaluation mode the mask of GLUMask at a frame whose neighbours up to distance 1 + 2 n_sublayers + kernel_size // 2 are all present is the same in every recording of the same mean power that contains these frames, wherever they are", "quantifier": "every pair of recordings, of any lengths, and pair of frames with the same surroundings; every network weights, number of sublayers and kernel size", "why_tests_cant": "every length, position and content of the rest of the recordings would have to be tried", "anchors": ["torchiva/models/glu.py:GLUMask", "torchiva/models/glu.py:GLULayer"]}
{"id": "C124", "title": "Recurrent masks see the whole recording and stay in a fixed interval", "statement": "The mask of BLSTMMask at any frame can depend on any other frame, earlier or later, however far and for any number of layers; but whatever the recording, mode and random draws, it stays in an interval set by the weights of the output layer", "quantifier": "every length, pair of frames, number of layers; every input", "why_tests_cant": "a test only tries some lengths and inputs", "anchors": ["torchiva/models/blstm.py:BLSTMMask"]}
{"id": "C125", "title": "Options mean the same in the constructor and in a call", "statement": "For every class (T_ISS, AuxIVA_IP, AuxIVA_IP2, FIVE, WPE, MVDR, MWF, GEV), the value of each option in force in a call is that of the call unless absent or None, else that of the constructor, else the documented default; nothing else reaches the computation; T_ISS built with options and called without gives the same as T_ISS built without and called with them; None in a call is the same as no argument", "quantifier": "every combination of options in the constructor and in the call, every model, model state and input", "why_tests_cant": "the combinations of options times inputs cannot be enumerated", "anchors": ["torchiva/base.py:DRBSSBase", "torchiva/base.py:BFBase", "torchiva/t_iss.py:T_ISS", "torchiva/auxiva_ip.py:AuxIVA_IP", "torchiva/auxiva_ip2.py:AuxIVA_IP2", "torchiva/five.py:FIVE", "torchiva/wpe.py:WPE", "torchiva/beamformer.py:MVDRBeamformer", "torchiva/beamformer.py:MWFBeamformer", "torchiva/beamformer.py:GEVBeamformer"]}
{"id": "C126", "title": "BSSSeparator computes what its keyword arguments say", "statement": "BSSSeparator(n_fft, **options)(x) is: reset the model if asked to, STFT with the window and hop of the options, the algorithm of the options with the options in force, inverse STFT, original length; with default options and a recording longer than half a frame it returns as many signals as channels; unknown options and algorithms are rejected; None selects the default of eps", "quantifier": "every combination of options, recording, model and state of the model", "why_tests_cant": "options, recordings and models cannot be enumerated", "anchors": ["torchiva/nn.py:BSSSeparator", "torchiva/stft.py:STFT"]}
{"id": "C127", "title": "A source model matters only through the weights it returns", "statement": "Two source models, with any internal states, that return the same weights whenever they have been called with the same signals since corresponding states give the same separation (the same signals or the same exception) with T_ISS, AuxIVA_IP, AuxIVA_IP2, FIVE and WPE, in any number of calls in a row", "quantifier": "every pair of models and states, parameters and inputs", "why_tests_cant": "it is a statement about every pair of models", "anchors": ["torchiva/t_iss.py:T_ISS", "torchiva/auxiva_ip.py:AuxIVA_IP", "torchiva/auxiva_ip2.py:AuxIVA_IP2", "torchiva/five.py:FIVE", "torchiva/wpe.py:WPE"]}
{"id": "C128", "title": "A batch of mixtures is separated item by item", "statement": "T_ISS applied to a tensor with batch dimensions returns when it returns for every mixture of the batch, and then signals, demixing filters and background filters of item b are those returned for mixture b alone; when it raises, it raises the exception it raises for one of the mixtures alone", "quantifier": "every batch shape with at least one item, number of channels, sources, frequencies, frames, taps and iterations, every mixture, LaplaceModel, GaussModel and every source model that treats the items one by one", "why_tests_cant": "batch shapes, sizes and values cannot be enumerated", "anchors": ["torchiva/t_iss.py:T_ISS", "torchiva/t_iss.py:projection_back_weights", "torchiva/linalg.py:solve_loaded_general", "torchiva/models.py:LaplaceModel"]}
{"id": "C129", "title": "AuxIVA-IP separates a batch of mixtures item by item", "statement": "AuxIVA_IP applied to a tensor with batch dimensions returns when it returns for every mixture of the batch, and then item b of the output is the output for mixture b alone; when it raises, it raises the exception it raises for one of the mixtures alone", "quantifier": "every batch shape with at least one item, number of channels, sources, frequencies, frames and iterations, every mixture, LaplaceModel, GaussModel and every source model that treats the items one by one", "why_tests_cant": "batch shapes, sizes and values cannot be enumerated", "anchors": ["torchiva/auxiva_ip.py:AuxIVA_IP", "torchiva/auxiva_ip.py:orthogonal_constraint", "torchiva/auxiva_ip.py:projection_back_from_demixing_matrix"]}
{"id": "C130", "title": "WPE dereverberates a batch item by item", "statement": "WPE applied to a tensor with batch dimensions returns when it returns for every recording of the batch, and then item b of the output is the output for recording b alone; when it raises or divides by zero, it does so for one of the recordings alone; with the default weights and a positive eps it always returns, with the shape of the input", "quantifier": "every batch shape with at least one item, number of channels, frequencies (at least one), frames, taps, delay and iterations, every recording, the default weights and every source model that treats the items one by one", "why_tests_cant": "batch shapes, sizes and values cannot be enumerated", "anchors": ["torchiva/wpe.py:WPE", "torchiva/wpe.py:wpe_one_iter", "torchiva/wpe.py:wpe_default_weights", "torchiva/linalg.py:solve_loaded"]}
{"id": "C131", "title": "The beamformers treat a batch item by item", "statement": "MVDRBeamformer, MWFBeamformer and GEVBeamformer applied to a tensor with batch dimensions return exactly when they return for every recording of the batch, and then item b of the output is the output for recording b alone; with nonnegative masks MWFBeamformer returns for every batch", "quantifier": "every batch shape with at least one item, number of channels, sources, frequencies and frames, every recording, every mask model that treats the items one by one, every reference microphone, MVDR type, number of masks, number of power iterations, and both MWF modes", "why_tests_cant": "batch shapes, sizes and values cannot be enumerated", "anchors": ["torchiva/beamformer.py:MVDRBeamformer", "torchiva/beamformer.py:MWFBeamformer", "torchiva/beamformer.py:GEVBeamformer", "torchiva/beamformer.py:compute_mvdr_rtf_eigh", "torchiva/linalg.py:eigh", "torchiva/linalg.py:bmm"]}
{"id": "C132", "title": "FIVE extracts the target from a batch item by item", "statement": "FIVE applied to a tensor with batch dimensions returns when it returns for every recording of the batch, and then item b of the output is the output for recording b alone; when it raises or divides by zero, it does so for one of the recordings alone; with LaplaceModel and the eigendecomposition it always returns, with one signal per recording", "quantifier": "every batch shape with at least one item, number of channels (at least one), frequencies, frames and iterations, every recording, both eigenvector methods and numbers of power iterations, LaplaceModel, GaussModel and every source model that treats the items one by one, every reference microphone", "why_tests_cant": "batch shapes, sizes and mixtures are unbounded; the whitening, the flips of the eigenvalues, the normalisation over the frequency axis and the projection back are written for the last dimensions only and a wrong axis shows only when batch sizes differ from the others", "anchors": ["torchiva/five.py:FIVE.forward", "torchiva/five.py:smallest_eigenvector_power_method", "torchiva/five.py:smallest_eigenvector_eigh_cpu", "torchiva/five.py:normalize", "torchiva/linalg.py:eigh", "torchiva/linalg.py:inv_loaded"]}
{"id": "C133", "title": "AuxIVA-IP2 separates a batch of mixtures item by item", "statement": "AuxIVA_IP2 applied to a tensor with batch dimensions returns when it returns for every mixture of the batch, and then item b of the output is the output for mixture b alone; when it raises, it raises the exception it raises for one of the mixtures alone; for two channels, a reference microphone among them or None, a positive eps and nonnegative weights it always returns, with the shape of the input", "quantifier": "every batch shape with at least one item, number of channels, frequencies, frames and iterations, every mixture, every proj_back_mic, LaplaceModel, GaussModel and every source model that treats the items one by one", "why_tests_cant": "batch shapes, sizes and mixtures are unbounded; the eigenvectors of all frequencies and items are scaled, flipped and projected back at once, so a wrong axis shows only when batch sizes differ from the others", "anchors": ["torchiva/auxiva_ip2.py:AuxIVA_IP2.forward", "torchiva/auxiva_ip2.py:spatial_model_update_ip2", "torchiva/linalg.py:eigh_2x2", "torchiva/linalg.py:inv_2x2"]}
{"id": "C134", "title": "The scaling functions treat a batch item by item", "statement": "projection_back, minimum_distortion_l2 and minimum_distortion_l2_phase applied to tensors with batch dimensions give, for item b, what they give for item b of both arguments alone; the minimum distortion functions always return, with the shape of the signal; projection_back raises only if it raises for one of the items, and always when there are fewer frames than channels", "quantifier": "every batch shape, number of channels, frequencies and frames, every signal and reference", "why_tests_cant": "projection_back flattens all batch dimensions and frequencies into one list of linear systems and selects frames with a gather along broadcast indices: a wrong order shows only for particular sizes", "anchors": ["torchiva/scaling.py:projection_back", "torchiva/scaling.py:minimum_distortion_l2", "torchiva/scaling.py:minimum_distortion_l2_phase"]}
{"id": "C135", "title": "The NMF model treats a batch item by item", "statement": "an NMFModel called with batches of signals of one shape, one call after another, always returns weights of that shape, and the weights for item b are those that a model drawing the random numbers of item b returns for item b alone; hence T-ISS, AuxIVA-IP and AuxIVA-IP2 with an NMF model separate a batch item by item, whatever the state the model is in before the call", "quantifier": "every batch shape, number of sources, frequencies, frames and components, every sequence of signals, every nonnegative outcome of the random draws, every positive eps", "why_tests_cant": "the flattening of batch dimensions and sources, the shared attributes and the reshape back are right only if they are right for every shape and history; tests use one or two items", "anchors": ["torchiva/models/classic.py:NMFModel", "torchiva/t_iss.py:T_ISS.forward", "torchiva/auxiva_ip.py:AuxIVA_IP.forward", "torchiva/auxiva_ip2.py:AuxIVA_IP2.forward"]}
{"id": "C136", "title": "A batch of recordings is transformed and separated item by item", "statement": "STFT.forward and STFT.inv, which flatten the batch dimensions and the channels before calling torch, return for a batch exactly when they return for every recording, with stft(x)[b] = stft(x[b]); hence BSSSeparator.forward with T-ISS, AuxIVA-IP, AuxIVA-IP2, FIVE or a beamformer separates a batch of recordings item by item, with the length of the recordings, and raises only what it raises for one of the recordings", "quantifier": "every batch shape, number of channels and sources (at least one), length, window, hop, separator option and source model that treats items one by one, NMF included", "why_tests_cant": "a test compares a few batches; a mistake in the flattening or in the order of the restored dimensions exchanges channels of different recordings and is invisible for batches of size one", "anchors": ["torchiva/stft.py:STFT.forward", "torchiva/stft.py:STFT.inv", "torchiva/nn.py:BSSSeparator.forward"]}
{"id": "C137", "title": "The neural source models treat a batch item by item", "statement": "GLUMask, BLSTMMask and SimpleModel return for a signal of any batch shape weights of that shape, with model(X)[g] = model(X[g]) for all indices g of batch dimensions and sources, and MaskMVDRSupport computes the masks of every item as for the item alone; hence T-ISS with GLUMask and the beamformers with MaskMVDRSupport separate a batch of recordings item by item", "quantifier": "every network (all parameters, layer sizes, feature options), every batch shape, number of sources, frames and draw of the dropout", "why_tests_cant": "batch normalisation and dropout couple the items in training mode only, and the flattening and the rearrangement of the masks are index computations that a test sees for a few shapes", "anchors": ["torchiva/models/glu.py:GLUMask.forward", "torchiva/models/blstm.py:BLSTMMask.forward", "torchiva/models/blstm.py:MaskMVDRSupport.forward", "torchiva/models/simple.py:SimpleModel.forward"]}
{"id": "C138", "title": "Shapes accepted by the linear algebra routines", "statement": "solve_loaded, solve_loaded_general, inv_loaded and eigh accept matrices with any batch dimensions, return results of the documented shapes (solutions have the shape of the right-hand side; eigenvalues (..., n), eigenvectors (..., n, n)), treat one right-hand side or one second matrix as shared by the whole batch, and reject matrices that are not square or whose sizes do not match. The code breaks this in four corners: an n x n right-hand side shared by exactly n systems is read as n vectors, a 1 x n matrix is stretched to n x n instead of being rejected, a vector right-hand side of solve_loaded_general yields a matrix, and a shared second matrix is accepted by eigh only for 2 x 2 matrices.", "quantifier": "every batch shape, matrix size, number of right-hand sides", "why_tests_cant": "the failing cases are coincidences of sizes (batch of n systems of size n, one row, size 2) that no test enumerates", "anchors": ["torchiva/linalg.py:solve_loaded", "torchiva/linalg.py:solve_loaded_general", "torchiva/linalg.py:inv_loaded", "torchiva/linalg.py:eigh", "torchiva/linalg.py:eigh_2x2"]}
{"id": "C139", "title": "minimum_distortion on a batch of any shape", "statement": "minimum_distortion(Y, ref, p, q, rtol, max_iter) on signals with any batch dimensions returns for item b what it returns for Y[b], ref[b] alone. (False when rtol > 0, since the relative step is a norm over the whole batch; true for rtol <= 0. In general the result is that of the flat list of all items, and for 0 < p < 2 the function always returns rows of Y scaled by one complex number each.)", "quantifier": "every batch shape, numbers of channels, frequencies and frames, exponents, tolerance and number of iterations", "why_tests_cant": "every batch shape and every stopping time would have to be tried; the coupling shows only for particular pairs of items", "anchors": ["torchiva/scaling.py:minimum_distortion", "torchiva/scaling.py:lp_norm", "torchiva/scaling.py:lpq_norm"]}
{"id": "C140", "title": "A call modifies none of the caller's tensors", "statement": "T_ISS, AuxIVA_IP, AuxIVA_IP2, WPE and FIVE (and iss_updates_with_H and eigh_2x2 called directly, with arguments that may be views of one another) never write to a tensor that existed before the call - the input, parameters, results of earlier calls - whether they return or raise, and although they update tensors in place they return exactly what the mathematical description of the algorithm gives. This holds after any sequence of calls and user operations.", "quantifier": "every heap content, every aliasing of the arguments, every parameter setting, every well-behaved source model, every sequence of calls", "why_tests_cant": "in-place updates go wrong only for particular aliasing patterns and parameter combinations, and a test sees only the tensors it checks", "anchors": ["torchiva/t_iss.py:iss_updates_with_H", "torchiva/t_iss.py:iss_block_update_type_1", "torchiva/t_iss.py:T_ISS.forward", "torchiva/auxiva_ip.py:AuxIVA_IP.forward", "torchiva/auxiva_ip2.py:AuxIVA_IP2.forward", "torchiva/wpe.py:WPE.forward", "torchiva/five.py:FIVE.forward"]}
{"id": "C141", "title": "The returned tensor is the caller's own", "statement": "The tensor an algorithm returns shares no memory with any tensor that existed before the call, so overwriting it in place cannot alter the recording. (False for AuxIVA_IP2 with n_iter=0, which returns the very tensor it was given.)", "quantifier": "every input, parameter setting and well-behaved source model, including no iterations", "why_tests_cant": "aliasing between input and output has to be excluded for every parameter combination", "anchors": ["torchiva/t_iss.py:T_ISS.forward", "torchiva/auxiva_ip.py:AuxIVA_IP.forward", "torchiva/auxiva_ip2.py:AuxIVA_IP2.forward", "torchiva/wpe.py:WPE.forward", "torchiva/five.py:FIVE.forward"]}
{"id": "C142", "title": "In-place updates never break the backward pass", "statement": "After a call, with or without use_dmc, every tensor that autograd recorded for the backward pass still has the version it had when it was recorded, so backward() does not fail with \"modified by an inplace operation\". This holds for every number of sources, taps and iterations, and after any sequence of calls.", "quantifier": "every number of channels, sources, taps, iterations, every source model that is itself differentiable, every sequence of calls", "why_tests_cant": "whether a recorded tensor is overwritten depends on the order of updates for each combination of sources, background channels and taps", "anchors": ["torchiva/t_iss.py:iss_updates_with_H", "torchiva/t_iss.py:iss_block_update_type_1", "torchiva/t_iss.py:T_ISS.forward", "torchiva/auxiva_ip.py:AuxIVA_IP.forward", "torchiva/auxiva_ip2.py:AuxIVA_IP2.forward"]}
{"id": "C143", "title": "The output has the precision and kind of the input", "statement": "Every algorithm returns a tensor of the same dtype as the spectrogram it was given (single stays single, double stays double, complex stays complex), whatever torch's default dtype, the source model, the number of iterations and the options; and BSSSeparator returns a signal of the dtype of its input signal when the default dtype is single or that dtype. (GEVBeamformer accepts only complex spectrograms: it raises on real ones, in every configuration.)", "quantifier": "every precision, default dtype, number of iterations, sources, taps, every option, every source model or mask network that returns weights of the precision of its input", "why_tests_cant": "the dtype of the result depends on the promotion and assignment rules at each operation along every combination of branches, for each number of iterations", "anchors": ["torchiva/t_iss.py:T_ISS.forward", "torchiva/auxiva_ip.py:AuxIVA_IP.forward", "torchiva/auxiva_ip2.py:AuxIVA_IP2.forward", "torchiva/wpe.py:WPE.forward", "torchiva/five.py:FIVE.forward", "torchiva/beamformer.py:MVDRBeamformer.forward", "torchiva/beamformer.py:MWFBeamformer.forward", "torchiva/beamformer.py:GEVBeamformer.forward", "torchiva/linalg.py:eigh_2x2", "torchiva/stft.py:STFT.__init__", "torchiva/nn.py:BSSSeparator.forward"]}
{"id": "C144", "title": "Double-precision input is processed in double precision throughout", "statement": "When the input is in double precision, no intermediate result that the output depends on is rounded to single precision, whatever torch's default dtype. (False under the usual single default for AuxIVA_IP2, for GEVBeamformer and MVDRBeamformer with two microphones and an eigenvalue decomposition, whose eigenvalues pass through a tensor of the default dtype, and for STFT, whose window is computed in the default dtype.)", "quantifier": "every default dtype, number of iterations, sources, taps, option, source model or mask network that is itself exact", "why_tests_cant": "loss of precision does not change the dtype of the result and is invisible to a comparison with a tolerance", "anchors": ["torchiva/linalg.py:eigh_2x2", "torchiva/auxiva_ip2.py:AuxIVA_IP2.forward", "torchiva/beamformer.py:GEVBeamformer.forward", "torchiva/beamformer.py:MVDRBeamformer.forward", "torchiva/stft.py:STFT.__init__"]}
{"id": "C145", "title": "An object may be used with one precision after another", "statement": "A call with a double-precision spectrogram succeeds whatever calls with single-precision spectrograms were made on the same object before. (False for WPE with an NMFModel, which keeps the factors of the first call.)", "quantifier": "every number of iterations of the earlier and the later call, every default dtype", "why_tests_cant": "depends on the state left by every history of earlier calls", "anchors": ["torchiva/wpe.py:WPE.forward", "torchiva/models/classic.py:NMFModel"]}
{"id": "C146", "title": "One more iteration of ILRMA never increases the scale-free likelihood", "statement": "T-ISS with NMFModel and no projection back: raising n_iter by one never increases the negative log-likelihood of the separated signals under the low-rank variances the source model keeps, minimised over the scale of each source (which is, up to a constant, the objective that is shown), minus 2 sum over frequencies of log abs det W, as long as no floor of the source model is active in the additional call and no output is silent", "quantifier": "every multichannel input, number of sources (with the background filter of the iteration when there are fewer sources than channels), number of basis vectors, random initialisation, taps, delay, iteration count and use of the memory-saving mode", "why_tests_cant": "the objective combines the multiplicative update of the factors with the demixing updates and would have to be evaluated for all inputs and initialisations; monotonicity on examples says nothing about the next one", "anchors": ["torchiva/t_iss.py:T_ISS.forward", "torchiva/t_iss.py:over_iss_t_one_iter", "torchiva/models/classic.py:NMFModel.forward"]}
{"id": "C147", "title": "One more iteration of ILRMA never increases the likelihood of its own model", "statement": "T-ISS with NMFModel: raising n_iter by one never increases the negative log-likelihood of the separated signals with the variances kept by the source model (signals and variances as they are, not up to a scale). Violated: each iteration divides the sources by their root mean power without rescaling the factors of the source model", "quantifier": "every multichannel input, random initialisation and iteration count", "why_tests_cant": "needs the joint evolution of the signals and of the hidden state of the source model over all iterations", "anchors": ["torchiva/t_iss.py:over_iss_t_one_iter", "torchiva/models/classic.py:NMFModel.forward"]}
{"id": "C148", "title": "Processes that load the same model at the same time all get complete files", "statement": "Any number of processes call load_separator with the same URL while the model is not, or only completely, in the cache folder. Every process that returns has read exactly the files the server sent, and none reports a missing file. The first half is false: a process returns with any proper prefix of the weights while another is still downloading them, and even the process that downloaded everything can read an empty file. What holds: a file that exists and that nobody is downloading is complete, whatever the interleaving, and once both files exist and nobody is downloading, all later loads are right.", "quantifier": "all numbers of processes, all interleavings of their steps (including processes that die), all block sizes of the downloads, all file contents", "why_tests_cant": "a race between processes shows up under few of the unboundedly many interleavings and block sizes", "anchors": ["torchiva/loader.py:get_model_from_url", "torchiva/loader.py:load_separator_model", "torchiva/loader.py:load_separator"]}
{"id": "C149", "title": "AuxIVA-IP increases the scale-free objective at most by the effect of its diagonal loading", "statement": "With n_src = n_chan, no projection back and LaplaceModel, GaussModel or NMFModel, one more iteration of AuxIVA_IP gives invertible demixing matrices, and the negative log-likelihood minimised over the scale of the sources increases by at most -n_freq*n_chan*log(1 - kappa*(eps/(mu+eps))^2), where kappa bounds the condition numbers of the weighted covariances, mu bounds from below the squared singular values of the row-normalised linear systems and eps is the diagonal loading, as long as no floor or clamp is active. So the objective does not increase up to second order in eps. (It can increase: whatever eps, there is a recording of two microphones that are almost the same for which the first iteration with LaplaceModel or GaussModel makes it strictly worse.)", "quantifier": "every number of channels, frequencies, frames and earlier iterations, every input, every eps > 0 and every kappa and mu with kappa*(eps/(mu+eps))^2 < 1 that describe the iteration", "why_tests_cant": "the update solves a perturbed system, so each iteration may increase the objective a little; a test sees a few inputs with one eps and cannot give a bound that holds for all", "anchors": ["torchiva/auxiva_ip.py:AuxIVA_IP.forward", "torchiva/linalg.py:solve_loaded_general", "torchiva/models/classic.py:LaplaceModel", "torchiva/models/classic.py:GaussModel", "torchiva/models/classic.py:NMFModel"]}
{"id": "C150", "title": "AuxIVA-IP2 with NMFModel never increases the scale-free likelihood", "statement": "With two channels, no projection back and NMFModel, one more iteration of AuxIVA_IP2 gives invertible demixing matrices and does not increase the negative log-likelihood of the signals and the low-rank variances minimised over the scale of the sources, as long as no floor of the source model or clamp of the update is active. The call leaves the source model in the state after its n_iter calls on the successive outputs, starting from a reset, whatever the reference microphone.", "quantifier": "every number of frequencies, frames, components and earlier iterations, every input of two channels, every eps > 0 and every draw of the initial factors", "why_tests_cant": "the claim compares consecutive iterates of a nonlinear algorithm for all inputs; a test sees a few runs, and rounding hides small increases", "anchors": ["torchiva/auxiva_ip2.py:AuxIVA_IP2.forward", "torchiva/auxiva_ip2.py:spatial_model_update_ip2", "torchiva/models/classic.py:NMFModel"]}
{"id": "C151", "title": "adjust_global_scale returns the multiple of the signal closest to the reference", "statement": "adjust_global_scale(Y, ref) returns a complex multiple of Y that is never further from ref (in the sum of squared magnitudes over frequencies and frames) than any other multiple, that does not depend on the scale of Y, and that is ref itself when Y is a non-zero multiple of ref.", "quantifier": "every number of frequencies and frames, every signal and reference", "why_tests_cant": "optimality is over all complex scales, and the clamp of the denominator only matters for faint signals, which tests with unit-variance noise never produce", "anchors": ["torchiva/five.py:adjust_global_scale"]}
{"id": "C152", "title": "The objective of T-ISS converges as the number of iterations grows", "statement": "With n_src = n_chan, LaplaceModel and no projection back, with or without dereverberation, if the channels and their delayed copies are linearly independent at every frequency and no frame of the outputs falls below the floor of the source model, the objective of the results for n_iter = 0, 1, 2, ... never increases and converges to a finite limit. The objective is bounded below by a number that depends on the input only, over all invertible demixing matrices and all dereverberation filters.", "quantifier": "every number of channels, frequencies, frames, taps and delays, every input, and the whole sequence of numbers of iterations", "why_tests_cant": "a limit is about infinitely many runs; a test sees finitely many iterations and cannot exclude that the objective decreases without bound", "anchors": ["torchiva/t_iss.py:T_ISS.forward", "torchiva/models/classic.py:LaplaceModel"]}
{"id": "C153", "title": "A batch keeps the geometry of every room", "statement": "collator_6ch returns, for every batch whose items agree in the numbers of channels and have positions with three coordinates, the signals that collator returns and, for every item, the coordinates of the microphones and speakers that item has. (False: the geometry is stored in the dtype of the first item, so that whole-number coordinates in the first item cut off the fractions of all others. The coordinates are always off by less than one, and exact when the first item holds a float.)", "quantifier": "every batch, of any number of items, channels and samples", "why_tests_cant": "the loss depends on how the coordinates of the first item happen to be written (2 or 2.0), and shuffling changes which item is the first", "anchors": ["examples/dataloader.py:collator_6ch", "examples/dataloader.py:collator"]}
{"id": "C154", "title": "The progress of AuxIVA-IP2 must slow down", "statement": "With two linearly independent channels at every frequency, LaplaceModel and no projection back, there is a bound that depends on the input only such that over any number K of iterations that stay away from the clamps and from degenerate covariances the objective of the results for n_iter = 0, 1, ..., K never increases and stays above the bound, and at least one of the K iterations decreases it by no more than the distance of the start from the bound divided by K.", "quantifier": "every two-channel input, every number of frequencies, frames and iterations, every eps", "why_tests_cant": "the bound must hold for every number of iterations, and a test sees finitely many of them", "anchors": ["torchiva/auxiva_ip2.py:AuxIVA_IP2.forward", "torchiva/models/classic.py:LaplaceModel"]}
{"id": "C155", "title": "The results are on the device of the input", "statement": "On every device and whatever Torch's default device, T-ISS, AuxIVA-IP, AuxIVA-IP2, FIVE, WPE, the beamformers and the scaling functions never combine tensors of different devices and return their result on the device of the input, if the source model answers on that device; LaplaceModel, GaussModel and a fresh NMFModel always do, a network exactly when its parameters are there. A BSSSeparator works exactly when it has been moved to the device of the recording. The command line separates on the device given by --device, where a number n means GPU n, and saves from the processor.", "quantifier": "every device, every default device, every algorithm, all numbers of iterations, sources, channels and taps, all options", "why_tests_cant": "a tensor allocated on the wrong device raises only on machines with that device and on the branches a run takes; tests run on the processor see none of them", "anchors": ["torchiva/t_iss.py:T_ISS.forward", "torchiva/auxiva_ip.py:AuxIVA_IP.forward", "torchiva/auxiva_ip2.py:AuxIVA_IP2.forward", "torchiva/five.py:FIVE.forward", "torchiva/wpe.py:WPE.forward", "torchiva/beamformer.py:MVDRBeamformer.forward", "torchiva/linalg.py:eigh", "torchiva/nn.py:BSSSeparator.forward", "torchiva/separate.py:separate_one_file", "torchiva/separate.py:device_type"]}
{"id": "C156", "title": "A WPE object can be moved from one device to another", "statement": "After calls of a WPE object on one device, calls on another device work as on a fresh object.", "quantifier": "every pair of devices, every source model, all numbers of iterations of both calls", "why_tests_cant": "it is about histories of calls on machines with several devices", "anchors": ["torchiva/wpe.py:WPE.forward", "torchiva/models/classic.py:NMFModel"]}
{"id": "C157", "title": "One more iteration of FIVE lowers its objective up to the levels of the frequencies", "statement": "With LaplaceModel (or GaussModel), the eigenvalue decomposition and an input that is well conditioned at every frequency, the result of n_iter + 1 iterations, scaled at every frequency to the mean power of the result of n_iter iterations, has a sum over the frames of the norm over frequencies (a product over the frames of the power) that is not larger than that of the result of n_iter iterations, if no frame of the latter is below the floor of the model", "quantifier": "every well-conditioned recording with any number of channels except two, every number of iterations, frequencies, frames and reference microphone, every correct eigensolver", "why_tests_cant": "an inequality over all signals and iteration counts", "anchors": ["torchiva/five.py:FIVE.forward", "torchiva/models/classic.py:LaplaceModel.forward", "torchiva/models/classic.py:GaussModel.forward"]}
