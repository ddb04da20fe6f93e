{
 "claims": [
  {
   "property": "C01",
   "status": "proved",
   "theorems": [
    "Torchiva.Props.solve_loaded_psd",
    "Torchiva.Props.inv_loaded_psd",
    "Torchiva.Props.solve_loaded_indefinite_can_raise"
   ],
   "note": "exact arithmetic; the third theorem shows the PSD hypothesis cannot be dropped"
  },
  {
   "property": "C02",
   "status": "proved",
   "theorems": [
    "Torchiva.Props.solve_loaded_general_ridge",
    "Torchiva.Props.solve_loaded_general_residual"
   ],
   "note": ""
  },
  {
   "property": "C03",
   "status": "proved",
   "theorems": [
    "Torchiva.Props.inv_2x2_inverse",
    "Torchiva.Props.inv_2x2_clamped",
    "Torchiva.Props.inv_2x2_rejects"
   ],
   "note": ""
  },
  {
   "property": "C04",
   "status": "partial",
   "theorems": [
    "Torchiva.Props.eigh_2x2_gen_partial",
    "Torchiva.Props.eigh_2x2_gen_default",
    "Torchiva.Props.eigh_2x2_gen_total",
    "Torchiva.Props.eigh_2x2_gen_fails_iff",
    "Torchiva.Props.eigh_2x2_gen_diagonal_violated"
   ],
   "note": "the code divides 0 by 0 exactly when the first rows are proportional (e.g. diagonal input); proved with that condition"
  },
  {
   "property": "C05",
   "status": "partial",
   "theorems": [
    "Torchiva.Props.eigh_2x2_plain_partial",
    "Torchiva.Props.eigh_2x2_plain_total",
    "Torchiva.Props.eigh_2x2_plain_conjugate",
    "Torchiva.Props.eigh_2x2_plain_violated",
    "Torchiva.Props.eigh_2x2_plain_diagonal_violated",
    "Torchiva.Props.eigh_2x2_rejects"
   ],
   "note": "the code returns conjugated eigenvectors for complex input: the claim is false in general, proved for real off-diagonal entries"
  },
  {
   "property": "C06",
   "status": "proved",
   "theorems": [
    "Torchiva.Props.eigh_general",
    "Torchiva.Props.eigh_plain"
   ],
   "note": "LAPACK eigh enters through its contract"
  },
  {
   "property": "C07",
   "status": "partial",
   "theorems": [
    "Torchiva.Props.multiply_correct",
    "Torchiva.Props.mag_correct",
    "Torchiva.Props.bmm_correct",
    "Torchiva.Props.hermite_correct",
    "Torchiva.Props.divide_correct",
    "Torchiva.Props.diagonal_loading_always_fails"
   ],
   "note": "diagonal_loading always raises, proved as such"
  },
  {
   "property": "C08",
   "status": "proved",
   "theorems": [
    "Torchiva.Props.hankel_view_correct",
    "Torchiva.Props.hankel_view_rejects",
    "Torchiva.Props.hankel_view_in_bounds"
   ],
   "note": ""
  },
  {
   "property": "C09",
   "status": "proved",
   "theorems": [
    "Torchiva.Props.delayed_taps_correct"
   ],
   "note": ""
  },
  {
   "property": "C10",
   "status": "proved",
   "theorems": [
    "Torchiva.Props.tiss_output_filters_input"
   ],
   "note": ""
  },
  {
   "property": "C100",
   "status": "proved",
   "theorems": [
    "Torchiva.Props.getItem_sample",
    "Torchiva.Props.getItem_sum",
    "Torchiva.Props.getItem_length",
    "Torchiva.Props.getItem_first",
    "Torchiva.Props.dataset_shortened"
   ],
   "note": "Finding and decoding the files is not modelled."
  },
  {
   "property": "C101",
   "status": "partial",
   "theorems": [
    "Torchiva.Props.getItem_not_silent",
    "Torchiva.Props.getItem_returns_partial",
    "Torchiva.Props.getItem_zero_mean_violated"
   ],
   "note": "Violated by the code: the mean of the samples is tested instead of the mean power."
  },
  {
   "property": "C102",
   "status": "partial",
   "theorems": [
    "Torchiva.Props.mwf_microphone_order",
    "Torchiva.Props.mvdr_scm_microphone_order",
    "Torchiva.Props.mvdr_eig_microphone_order",
    "Torchiva.Props.gev_microphone_order",
    "Torchiva.Props.wpe_microphone_order",
    "Torchiva.Props.mvdr_power_microphone_order_partial",
    "Torchiva.Props.mvdr_power_microphone_order_violated"
   ],
   "note": "MWF (both modes), MVDR-SCM, MVDR with an eigenvalue decomposition, GEV and WPE follow every order; MVDR with power iterations depends on which microphone is first (violated), and follows the orders that keep it in place"
  },
  {
   "property": "C103",
   "status": "partial",
   "theorems": [
    "Torchiva.Props.dmc_gradient_partial",
    "Torchiva.Props.live_is_forward",
    "Torchiva.Props.dmc_gradient_violated"
   ],
   "note": "Proved for source models whose weights depend only on their input and parameters. False for NMFModel, whose factors move between the forward pass and the recomputation (dmc_gradient_violated). live_is_forward ties the differentiated functions to the modelled forward pass."
  },
  {
   "property": "C104",
   "status": "proved",
   "theorems": [
    "Torchiva.Props.tiss_keeps_apart",
    "Torchiva.Props.tiss_separated_up_to_scale",
    "Torchiva.Props.tiss_apart_projection",
    "Torchiva.Props.auxiva_separated_up_to_scale",
    "Torchiva.Props.auxiva_apart_projection"
   ],
   "note": "Invariant: every demixing filter reads its own channel only, the background filter is zero. Holds with and without use_dmc."
  },
  {
   "property": "C105",
   "status": "partial",
   "theorems": [
    "Torchiva.Props.mvdr_scm_level",
    "Torchiva.Props.gev_level",
    "Torchiva.Props.mwf_level_partial",
    "Torchiva.Props.mwf_frames_level_partial",
    "Torchiva.Props.mvdr_power_level_partial",
    "Torchiva.Props.mvdr_eig_level_partial",
    "Torchiva.Props.wpe_level_partial",
    "Torchiva.Props.mwf_level_violated",
    "Torchiva.Props.mvdr_level_violated",
    "Torchiva.Props.wpe_level_violated"
   ],
   "note": "Full for the scm MVDR and for GEV. MWF, rtf MVDR and WPE violate the property outside a range of levels; the partial theorems give the range in which the load and the guards are proportional to the recording."
  },
  {
   "property": "C106",
   "status": "proved",
   "theorems": [
    "Torchiva.Props.training_loss",
    "Torchiva.Props.training_loss_order",
    "Torchiva.Props.training_step_channels"
   ],
   "note": "The permutation-invariant wrapper of the loss is an external library, modelled by a contract (PitContract). Signals are complex-valued in the model, a generalisation."
  },
  {
   "property": "C107",
   "status": "partial",
   "theorems": [
    "Torchiva.Props.validation_log",
    "Torchiva.Props.validation_average_partial",
    "Torchiva.Props.validation_average_violated"
   ],
   "note": "What is logged is proved; it is the average over the items only when all batches have the same size, and violated otherwise."
  },
  {
   "property": "C108",
   "status": "partial",
   "theorems": [
    "Torchiva.Props.train_channels_spec",
    "Torchiva.Props.train_epoch",
    "Torchiva.Props.data_options",
    "Torchiva.Props.train_n_channels_violated"
   ],
   "note": "Everything but the numbers of channels, which the data module never passes on (violated)."
  },
  {
   "property": "C109",
   "status": "proved",
   "theorems": [
    "Torchiva.Props.clipping_log"
   ],
   "note": "The thresholds are those of C65."
  },
  {
   "property": "C11",
   "status": "proved",
   "theorems": [
    "Torchiva.Props.tiss_dmc_same"
   ],
   "note": ""
  },
  {
   "property": "C110",
   "status": "partial",
   "theorems": [
    "Torchiva.Props.eval_summary",
    "Torchiva.Props.eval_limit_violated",
    "Torchiva.Props.eval_channels"
   ],
   "note": "The summary is the average of the processed items; --limit n processes n + 1 items (violated)."
  },
  {
   "property": "C111",
   "status": "proved",
   "theorems": [
    "Torchiva.Props.eval_rows",
    "Torchiva.Props.eval_tables"
   ],
   "note": "The scorer is an external library, modelled by a contract (BssEvalContract)."
  },
  {
   "property": "C112",
   "status": "partial",
   "theorems": [
    "Torchiva.Props.result_folder_partial",
    "Torchiva.Props.result_folder_violated"
   ],
   "note": "ILRMA and Gauss with the same algorithm share a folder, and so do all algorithms with the Laplace model and trained models whose names differ by the position of a dash (violated)."
  },
  {
   "property": "C113",
   "status": "proved",
   "theorems": [
    "Torchiva.Props.checkpoint_of_epoch"
   ],
   "note": "Several checkpoints of one epoch: one of them. The path of the folder is assumed not to contain the searched text itself."
  },
  {
   "property": "C114",
   "status": "partial",
   "theorems": [
    "Torchiva.Props.write_wav",
    "Torchiva.Props.write_wav_violated"
   ],
   "note": "Everything but the name: the global variable is used instead of the argument (violated; the only caller passes the same name)."
  },
  {
   "property": "C115",
   "status": "proved",
   "theorems": [
    "Torchiva.Props.make_mix_files"
   ],
   "note": "Room simulation is external: the images of the sources are arbitrary."
  },
  {
   "property": "C116",
   "status": "proved",
   "theorems": [
    "Torchiva.Props.make_batch",
    "Torchiva.Props.read_audio"
   ],
   "note": ""
  },
  {
   "property": "C117",
   "status": "partial",
   "theorems": [
    "Torchiva.Props.glu_deterministic_partial",
    "Torchiva.Props.blstm_items_partial",
    "Torchiva.Props.loaded_deterministic_violated",
    "Torchiva.Props.loaded_unchanged_violated",
    "Torchiva.Props.loaded_blstm_random_violated"
   ],
   "note": "Violated by the code: load_separator_model and separate.py never call eval(). The partial theorems hold in evaluation mode. BLSTMMask, SimpleModel and MaskMVDRSupport have no buffers, so using them cannot modify them."
  },
  {
   "property": "C118",
   "status": "partial",
   "theorems": [
    "Torchiva.Props.glu_items_partial",
    "Torchiva.Props.simple_items",
    "Torchiva.Props.blstm_items_partial",
    "Torchiva.Props.loaded_items_violated"
   ],
   "note": "Proved for SimpleModel; for GLUMask, BLSTMMask and MaskMVDRSupport in evaluation mode. Violated by GLUMask in training mode, in which loaded separators run."
  },
  {
   "property": "C119",
   "status": "proved",
   "theorems": [
    "Torchiva.Props.glu_receptive_field",
    "Torchiva.Props.glu_receptive_field_sharp"
   ],
   "note": "Evaluation mode, as the statement says."
  },
  {
   "property": "C12",
   "status": "proved",
   "theorems": [
    "Torchiva.Props.tiss_zero_iterations"
   ],
   "note": ""
  },
  {
   "property": "C120",
   "status": "partial",
   "theorems": [
    "Torchiva.Props.recording_relation",
    "Torchiva.Props.recording_returns",
    "Torchiva.Props.recording_ip2_adds_up_partial",
    "Torchiva.Props.recording_adds_up_violated",
    "Torchiva.Props.recording_tiss_zero_iterations",
    "Torchiva.Props.stft_linear",
    "Torchiva.Props.istft_linear"
   ],
   "note": "The last incomplete hop of the recordings is replaced by zeros (violated there); the sum is exact up to it when no demixing matrix is nearly singular."
  },
  {
   "property": "C121",
   "status": "proved",
   "theorems": [
    "Torchiva.Props.recording_mix",
    "Torchiva.Props.recording_gev_level",
    "Torchiva.Props.recording_microphone_order"
   ],
   "note": "The conditions of the GEV decomposition are those of C97 and C105."
  },
  {
   "property": "C122",
   "status": "proved",
   "theorems": [
    "Torchiva.Props.masks_ignore_phase",
    "Torchiva.Props.glu_separation_phase",
    "Torchiva.Props.reim_masks_phase_violated"
   ],
   "note": "The theorem with the suffix _violated is the last clause of the property (mag_spec=False)."
  },
  {
   "property": "C123",
   "status": "proved",
   "theorems": [
    "Torchiva.Props.glu_chunks"
   ],
   "note": "Both feature options."
  },
  {
   "property": "C124",
   "status": "proved",
   "theorems": [
    "Torchiva.Props.blstm_reach",
    "Torchiva.Props.blstm_mask_interval"
   ],
   "note": ""
  },
  {
   "property": "C125",
   "status": "proved",
   "theorems": [
    "Torchiva.Props.tiss_options",
    "Torchiva.Props.auxiva_options",
    "Torchiva.Props.ip2_options",
    "Torchiva.Props.five_options",
    "Torchiva.Props.wpe_options",
    "Torchiva.Props.mvdr_options",
    "Torchiva.Props.mwf_options",
    "Torchiva.Props.gev_options",
    "Torchiva.Props.tiss_options_either",
    "Torchiva.Props.tiss_call_none",
    "Torchiva.Props.tiss_flag",
    "Torchiva.Props.mwf_flag"
   ],
   "note": "inForce (Spec/Classes) is the specification of which value counts; models given in a constructor must be callable. The exchange of constructor and call and the meaning of None in a call are stated for T_ISS."
  },
  {
   "property": "C126",
   "status": "partial",
   "theorems": [
    "Torchiva.Props.separator_tiss",
    "Torchiva.Props.separator_ip2",
    "Torchiva.Props.separator_five",
    "Torchiva.Props.separator_mvdr",
    "Torchiva.Props.separator_mwf",
    "Torchiva.Props.separator_gev",
    "Torchiva.Props.separator_tiss_returns",
    "Torchiva.Props.separator_default",
    "Torchiva.Props.separator_rejects_options",
    "Torchiva.Props.separator_eps_none_violated"
   ],
   "note": "Everything holds except that eps=None is not replaced by the default with algo=\"mvdr\" (separator_eps_none_violated: no call returns), because BFBase keeps None."
  },
  {
   "property": "C127",
   "status": "proved",
   "theorems": [
    "Torchiva.Props.tiss_model_use",
    "Torchiva.Props.auxiva_model_use",
    "Torchiva.Props.ip2_model_use",
    "Torchiva.Props.five_model_use",
    "Torchiva.Props.wpe_model_use"
   ],
   "note": "Indistinguishable (Spec/ModelUse) is a simulation relation between the states of the two models."
  },
  {
   "property": "C128",
   "status": "partial",
   "theorems": [
    "Torchiva.Props.tiss_batch",
    "Torchiva.Props.tiss_batch_alone",
    "Torchiva.Props.laplace_per_item",
    "Torchiva.Props.gauss_per_item",
    "Torchiva.Props.tiss_batch_mic_violated"
   ],
   "note": "Proved for every batch shape, except projection back of an over-determined batch on a microphone beyond the sources: there the code raises RuntimeError (t_iss.py:290 permutes three dimensions) although every mixture alone is separated, which is the violated theorem."
  },
  {
   "property": "C129",
   "status": "partial",
   "theorems": [
    "Torchiva.Props.auxiva_batch",
    "Torchiva.Props.auxiva_batch_alone",
    "Torchiva.Props.auxiva_ref_mic_violated"
   ],
   "note": "Proved for every batch shape, number of sources and iteration count.  Projection back of an over-determined mixture on a microphone beyond the sources is excluded: there the result has additional dimensions even for one mixture (auxiva_ip.py:99), which is the violated theorem."
  },
  {
   "property": "C13",
   "status": "proved",
   "theorems": [
    "Torchiva.Props.tiss_separation_step_descent",
    "Torchiva.Props.tiss_background_step_descent",
    "Torchiva.Props.tiss_tap_step_descent",
    "Torchiva.Props.tiss_sweep_descent",
    "Torchiva.Props.tiss_sweep_descent_determined"
   ],
   "note": ""
  },
  {
   "property": "C130",
   "status": "proved",
   "theorems": [
    "Torchiva.Props.wpe_batch",
    "Torchiva.Props.wpe_batch_alone",
    "Torchiva.Props.wpe_batch_default"
   ],
   "note": "The flattening of channels and taps into one dimension (reshape) is modelled in memory order."
  },
  {
   "property": "C131",
   "status": "proved",
   "theorems": [
    "Torchiva.Props.mvdr_batch",
    "Torchiva.Props.mwf_batch",
    "Torchiva.Props.gev_batch",
    "Torchiva.Props.mvdr_batch_alone",
    "Torchiva.Props.mwf_batch_alone",
    "Torchiva.Props.gev_batch_alone",
    "Torchiva.Props.mwf_batch_total"
   ],
   "note": "on tensors with values; which failure is reported when several sources or frequencies fail in different ways is not stated"
  },
  {
   "property": "C132",
   "status": "proved",
   "theorems": [
    "Torchiva.Props.five_batch",
    "Torchiva.Props.five_batch_alone",
    "Torchiva.Props.five_batch_laplace"
   ],
   "note": "tensor program of five.py compared with the item model of Model/Five.lean; reference microphone given (for None see C30)"
  },
  {
   "property": "C133",
   "status": "proved",
   "theorems": [
    "Torchiva.Props.ip2_batch",
    "Torchiva.Props.ip2_batch_alone",
    "Torchiva.Props.ip2_batch_total"
   ],
   "note": "tensor program of auxiva_ip2.py compared with the item model of Model/AuxIva.lean"
  },
  {
   "property": "C134",
   "status": "proved",
   "theorems": [
    "Torchiva.Props.projection_back_batch",
    "Torchiva.Props.projection_back_batch_alone",
    "Torchiva.Props.projection_back_few_frames",
    "Torchiva.Props.min_distortion_l2_batch",
    "Torchiva.Props.min_distortion_phase_batch"
   ],
   "note": "tensor programs of scaling.py compared with the item models of Model/Scaling.lean; minimum_distortion with p other than 2 stops on a whole-batch criterion, see C46"
  },
  {
   "property": "C135",
   "status": "proved",
   "theorems": [
    "Torchiva.Props.nmf_batch",
    "Torchiva.Props.nmf_per_item",
    "Torchiva.Props.tiss_nmf_batch",
    "Torchiva.Props.auxiva_nmf_batch",
    "Torchiva.Props.ip2_nmf_batch"
   ],
   "note": "The number of frequencies and frames is positive. The random numbers of uniform_() are an arbitrary function of the position. A call with another shape than the first one since reset is outside."
  },
  {
   "property": "C136",
   "status": "proved",
   "theorems": [
    "Torchiva.Props.stft_batch",
    "Torchiva.Props.stft_batch_alone",
    "Torchiva.Props.istft_batch",
    "Torchiva.Props.istft_batch_alone",
    "Torchiva.Props.recordings_batch",
    "Torchiva.Props.recordings_batch_ok",
    "Torchiva.Props.recordings_batch_alone",
    "Torchiva.Props.recordings_batch_alone_ok",
    "Torchiva.Props.tiss_recordings_batch",
    "Torchiva.Props.tiss_nmf_recordings_batch",
    "Torchiva.Props.auxiva_recordings_batch",
    "Torchiva.Props.ip2_recordings_batch",
    "Torchiva.Props.five_recordings_batch",
    "Torchiva.Props.beamformer_recordings_batch",
    "Torchiva.Props.ip2_recordings_total"
   ],
   "note": "For the beamformers the batch and one of its recordings fail together, the exceptions may differ. Projection back on a microphone beyond the sources is excluded as in C128 and C129."
  },
  {
   "property": "C137",
   "status": "partial",
   "theorems": [
    "Torchiva.Props.glu_batch_partial",
    "Torchiva.Props.blstm_batch_partial",
    "Torchiva.Props.simple_batch",
    "Torchiva.Props.glu_per_item",
    "Torchiva.Props.glu_reim_per_item",
    "Torchiva.Props.blstm_per_item",
    "Torchiva.Props.blstm_reim_per_item",
    "Torchiva.Props.simple_per_item",
    "Torchiva.Props.support_per_item",
    "Torchiva.Props.glu_recordings_batch_partial",
    "Torchiva.Props.support_recordings_batch_partial",
    "Torchiva.Props.glu_batch_violated",
    "Torchiva.Props.networks_other_frequencies"
   ],
   "note": "Proved in evaluation mode (SimpleModel: always). Violated in training mode, which is the mode of separators returned by load_separator: glu_batch_violated."
  },
  {
   "property": "C138",
   "status": "partial",
   "theorems": [
    "Torchiva.Props.solve_loaded_shape",
    "Torchiva.Props.solve_loaded_shared_partial",
    "Torchiva.Props.solve_loaded_shared_violated",
    "Torchiva.Props.solve_loaded_square_partial",
    "Torchiva.Props.solve_loaded_row_violated",
    "Torchiva.Props.solve_general_shape",
    "Torchiva.Props.solve_general_vector_violated",
    "Torchiva.Props.eigh_shape",
    "Torchiva.Props.eigh_mismatch",
    "Torchiva.Props.eigh_broadcast_violated"
   ],
   "note": "Violated in the four corner cases named in the statement, each proved; everything else holds."
  },
  {
   "property": "C139",
   "status": "partial",
   "theorems": [
    "Torchiva.Props.min_distortion_any_batch",
    "Torchiva.Props.min_distortion_any_batch_returns",
    "Torchiva.Props.min_distortion_tensor_alone_partial",
    "Torchiva.Props.min_distortion_tensor_violated",
    "Torchiva.Props.min_distortion_model_batch"
   ],
   "note": "Violated by the code for positive tolerances: the stopping rule is a norm over the batch. min_distortion_any_batch describes the batch exactly, for every tolerance."
  },
  {
   "property": "C14",
   "status": "proved",
   "theorems": [
    "Torchiva.Props.tiss_projection_back_determined",
    "Torchiva.Props.tiss_projection_back_overdetermined"
   ],
   "note": ""
  },
  {
   "property": "C140",
   "status": "proved",
   "theorems": [
    "Torchiva.Props.tiss_leaves_tensors_alone",
    "Torchiva.Props.tiss_in_place_computes",
    "Torchiva.Props.iss_updates_leaves_tensors_alone",
    "Torchiva.Props.ip_leaves_tensors_alone",
    "Torchiva.Props.ip_in_place_computes",
    "Torchiva.Props.ip2_leaves_tensors_alone",
    "Torchiva.Props.ip2_in_place_computes",
    "Torchiva.Props.wpe_leaves_tensors_alone",
    "Torchiva.Props.wpe_in_place_computes",
    "Torchiva.Props.five_leaves_tensors_alone",
    "Torchiva.Props.five_in_place_computes",
    "Torchiva.Props.laplace_memory_safe",
    "Torchiva.Props.gauss_memory_safe",
    "Torchiva.Props.program_leaves_tensors_alone",
    "Torchiva.Props.eigh_2x2_leaves_tensors_alone",
    "Torchiva.Props.eigh_2x2_in_place_computes",
    "Torchiva.Props.eigh_2x2_batch_eigenpairs"
   ],
   "note": "Heap of storages with views, in-place writes and versions; the in-place programs are proved to refine the functional models."
  },
  {
   "property": "C141",
   "status": "partial",
   "theorems": [
    "Torchiva.Props.tiss_result_is_fresh",
    "Torchiva.Props.ip_result_is_fresh",
    "Torchiva.Props.wpe_result_is_fresh",
    "Torchiva.Props.five_result_is_fresh",
    "Torchiva.Props.ip2_result_is_fresh_partial",
    "Torchiva.Props.ip2_no_iterations_returns_argument",
    "Torchiva.Props.ip2_result_is_fresh_violated",
    "Torchiva.Props.write_to_fresh_result",
    "Torchiva.Props.eigh_2x2_result_is_fresh"
   ],
   "note": "Violated by AuxIVA_IP2 with n_iter=0, which returns its argument; proved for the other algorithms and for AuxIVA_IP2 with at least one iteration."
  },
  {
   "property": "C142",
   "status": "proved",
   "theorems": [
    "Torchiva.Props.tiss_backward_runs",
    "Torchiva.Props.ip_backward_runs",
    "Torchiva.Props.ip2_backward_runs",
    "Torchiva.Props.wpe_backward_runs",
    "Torchiva.Props.five_backward_runs",
    "Torchiva.Props.laplace_memory_safe",
    "Torchiva.Props.gauss_memory_safe",
    "Torchiva.Props.program_leaves_tensors_alone",
    "Torchiva.Props.iss_updates_leaves_tensors_alone",
    "Torchiva.Props.eigh_2x2_backward_runs"
   ],
   "note": "What each torch operation records for its backward pass is part of the trusted base."
  },
  {
   "property": "C143",
   "status": "proved",
   "theorems": [
    "Torchiva.Props.tiss_dtype",
    "Torchiva.Props.ip_dtype",
    "Torchiva.Props.ip2_dtype",
    "Torchiva.Props.wpe_dtype",
    "Torchiva.Props.five_dtype",
    "Torchiva.Props.mvdr_dtype",
    "Torchiva.Props.mwf_dtype",
    "Torchiva.Props.gev_dtype",
    "Torchiva.Props.gev_real_raises",
    "Torchiva.Props.scaling_dtype",
    "Torchiva.Props.laplace_dtype",
    "Torchiva.Props.gauss_dtype",
    "Torchiva.Props.nmf_dtype",
    "Torchiva.Props.separator_dtype",
    "Torchiva.Props.dtype_eq"
   ],
   "note": "Abstract interpretation of every operation on (complex?, precision, rounded?), by induction over the iterations, for every default dtype and every source model or mask that returns weights of its input's precision; the three models of the package are shown to. For BSSSeparator the default dtype must be single or the signal's own."
  },
  {
   "property": "C144",
   "status": "partial",
   "theorems": [
    "Torchiva.Props.tiss_double",
    "Torchiva.Props.ip_double",
    "Torchiva.Props.ip2_double_partial",
    "Torchiva.Props.ip2_double_violated",
    "Torchiva.Props.wpe_double",
    "Torchiva.Props.five_double",
    "Torchiva.Props.mvdr_double_partial",
    "Torchiva.Props.mvdr_double_violated",
    "Torchiva.Props.mwf_double",
    "Torchiva.Props.gev_double_partial",
    "Torchiva.Props.gev_double_violated",
    "Torchiva.Props.scaling_double",
    "Torchiva.Props.stft_double_violated",
    "Torchiva.Props.stft_double_partial",
    "Torchiva.Props.eigh_2x2_stored_exact",
    "Torchiva.Props.eigh_2x2_stored_violated",
    "Torchiva.Props.eigh_2x2_stored_error_partial"
   ],
   "note": "The code violates it: the generalised eigh_2x2 stores eigenvalues in a tensor of the default dtype and the STFT window has the default dtype, so AuxIVA_IP2, two-microphone GEV and MVDR and the default STFT round in the middle of a double-precision computation. Proved for all other algorithms and, for these, with a double default dtype. The stored theorems show what the rounding does to the values: the pair returned is not an eigenpair, and the eigenvalue is wrong by at most the relative error of the storage."
  },
  {
   "property": "C145",
   "status": "partial",
   "theorems": [
    "Torchiva.Props.wpe_precision_switch_violated",
    "Torchiva.Props.wpe_after_reset_partial"
   ],
   "note": "The code violates it for WPE with NMFModel (one channel, the only case in which WPE accepts a model, see C86): the model is never reset, so after any single-precision call every double-precision call raises RuntimeError. With a reset model it holds (wpe_after_reset_partial); the other algorithms reset their model in every call (tiss_dtype and the others hold from any state for that reason)."
  },
  {
   "property": "C146",
   "status": "proved",
   "theorems": [
    "Torchiva.Props.tiss_nmf_descent",
    "Torchiva.Props.tiss_nmf_descent_overdetermined",
    "Torchiva.Props.ilrma_loss_is_minimum"
   ],
   "note": "Floors inactive in the additional call (stated as bounds on the factors before and after it), outputs not silent; ilrma_loss_is_minimum says what the objective means."
  },
  {
   "property": "C147",
   "status": "partial",
   "theorems": [
    "Torchiva.Props.tiss_nmf_likelihood_violated",
    "Torchiva.Props.tiss_nmf_likelihood_partial"
   ],
   "note": "The property as stated is false of the code: one channel, one frequency, one frame, from one to two iterations. Proved instead: the increase is at most the cost of the wrong scale of the sources after the iteration."
  },
  {
   "property": "C148",
   "status": "partial",
   "theorems": [
    "Torchiva.Props.concurrent_load_partial",
    "Torchiva.Props.concurrent_load_settled",
    "Torchiva.Props.concurrent_load_never_missing",
    "Torchiva.Props.concurrent_load_violated",
    "Torchiva.Props.concurrent_load_own_download_violated"
   ],
   "note": "The full claim is false (concurrent_load_violated, concurrent_load_own_download_violated, both for all file contents); proved for all schedules: files nobody is downloading are complete, loads after the downloads are right, no process reports a missing file."
  },
  {
   "property": "C149",
   "status": "proved",
   "theorems": [
    "Torchiva.Props.auxiva_laplace_bound",
    "Torchiva.Props.auxiva_gauss_bound",
    "Torchiva.Props.auxiva_nmf_bound",
    "Torchiva.Props.auxiva_laplace_increase",
    "Torchiva.Props.auxiva_gauss_increase"
   ],
   "note": "determined case without projection back; conditioning and inactive floors are hypotheses (Spec.IpRegular, FloorsInactive), met by a concrete first iteration for each source model"
  },
  {
   "property": "C15",
   "status": "proved",
   "theorems": [
    "Torchiva.Props.tiss_underdetermined_rejected",
    "Torchiva.Props.tiss_succeeds"
   ],
   "note": ""
  },
  {
   "property": "C150",
   "status": "proved",
   "theorems": [
    "Torchiva.Props.ip2_nmf_descent",
    "Torchiva.Props.ip2_model_state"
   ],
   "note": "The likelihood is Spec.ilrmaLoss + Spec.logdetTerm, the function of C146. The hypotheses exclude active floors of NMFModel (FloorsInactive) and active clamps of the 2x2 update (Ip2Regular); a concrete run that meets all of them is beside the theorem."
  },
  {
   "property": "C151",
   "status": "partial",
   "theorems": [
    "Torchiva.Props.global_scale_closest_partial",
    "Torchiva.Props.global_scale_closest_violated",
    "Torchiva.Props.global_scale_not_worse_than_silence",
    "Torchiva.Props.global_scale_invariant"
   ],
   "note": "True for signals of mean power at least 1e-7. Below that power the clamp shrinks the result (global_scale_closest_violated: no faint signal is returned unchanged when it is its own reference); it is still at least as close to the reference as silence."
  },
  {
   "property": "C152",
   "status": "proved",
   "theorems": [
    "Torchiva.Props.laplace_objective_bounded",
    "Torchiva.Props.tiss_laplace_converges"
   ],
   "note": "Uses C92 for the descent. The lower bound needs no condition on the floor; the limit needs every iterate to be above it. An infinite run that meets the hypotheses is beside the theorem."
  },
  {
   "property": "C153",
   "status": "partial",
   "theorems": [
    "Torchiva.Props.collate6_near_partial",
    "Torchiva.Props.collate6_geometry_partial",
    "Torchiva.Props.collate6_geometry_violated"
   ],
   "note": "the claim is false when the coordinates of the first item are all Python integers; the partial theorems cover the signals and bound the error (less than one), and give the exact geometry when the first item holds a float. collator_6ch is imported but not used by the training script"
  },
  {
   "property": "C154",
   "status": "proved",
   "theorems": [
    "Torchiva.Props.ip2_laplace_settles"
   ],
   "note": "Uses C94 for the descent and C152 for the bound. The covariances of each iteration must be regular (Ip2Regular), as in C94. The concrete case beside the theorem runs one iteration; it does not show an infinite run, so no limit is claimed."
  },
  {
   "property": "C155",
   "status": "proved",
   "theorems": [
    "Torchiva.Props.classic_device",
    "Torchiva.Props.network_device",
    "Torchiva.Props.nmf_device",
    "Torchiva.Props.tiss_device",
    "Torchiva.Props.ip_device",
    "Torchiva.Props.ip2_device",
    "Torchiva.Props.eigh_device",
    "Torchiva.Props.five_device",
    "Torchiva.Props.wpe_device",
    "Torchiva.Props.beamformer_device",
    "Torchiva.Props.scaling_device",
    "Torchiva.Props.algo_device",
    "Torchiva.Props.separator_device",
    "Torchiva.Props.command_line_device",
    "Torchiva.Props.device_argument"
   ],
   "note": "Model of devices only (Model/Device.lean). Torch's rules for devices are trusted. WPE does not reset its source model; see C156 for a model that has been used on another device."
  },
  {
   "property": "C156",
   "status": "partial",
   "theorems": [
    "Torchiva.Props.wpe_moved_partial",
    "Torchiva.Props.wpe_nmf_device_violated"
   ],
   "note": "Violated: after a call on one device with an NMFModel every call on another device raises RuntimeError, because WPE does not reset the model and its factors are neither parameters nor buffers. It holds for the default weights and for models whose answer does not depend on their state."
  },
  {
   "property": "C157",
   "status": "proved",
   "theorems": [
    "Torchiva.Props.five_laplace_descent",
    "Torchiva.Props.five_gauss_descent",
    "Torchiva.Props.five_next"
   ],
   "note": "Exact eigenvector solver and any number of channels except two (with two the whitening is wrong, C27). The levels are compared because the projection back changes the level of every frequency after each iteration."
  },
  {
   "property": "C16",
   "status": "partial",
   "theorems": [
    "Torchiva.Props.background_update_partial",
    "Torchiva.Props.background_update_uncorrelated",
    "Torchiva.Props.background_update_sign_violated"
   ],
   "note": "the tap part has the wrong sign in the code; proved what it does compute"
  },
  {
   "property": "C17",
   "status": "proved",
   "theorems": [
    "Torchiva.Props.tiss_silence",
    "Torchiva.Props.tiss_succeeds",
    "Torchiva.Props.auxiva_silence",
    "Torchiva.Props.auxiva_output",
    "Torchiva.Props.ip2_silence",
    "Torchiva.Props.wpe_silence"
   ],
   "note": ""
  },
  {
   "property": "C18",
   "status": "partial",
   "theorems": [
    "Torchiva.Props.tiss_ref_mic_partial",
    "Torchiva.Props.tiss_ref_mic_violated",
    "Torchiva.Props.tiss_shape"
   ],
   "note": "The property is false: with any batch dimension, n_src < n_chan and ref_mic >= n_src, T_ISS raises RuntimeError (permute with three axes). Proved for unbatched input and for ref_mic < n_src."
  },
  {
   "property": "C19",
   "status": "proved",
   "theorems": [
    "Torchiva.Props.auxiva_row_update",
    "Torchiva.Props.auxiva_other_rows_unchanged",
    "Torchiva.Props.auxiva_sweep_energy",
    "Torchiva.Props.auxiva_output_energy"
   ],
   "note": ""
  },
  {
   "property": "C20",
   "status": "partial",
   "theorems": [
    "Torchiva.Props.auxiva_default_n_src_violated"
   ],
   "note": "the documented default n_src=None always raises TypeError"
  },
  {
   "property": "C21",
   "status": "proved",
   "theorems": [
    "Torchiva.Props.auxiva_projection_back_determined",
    "Torchiva.Props.auxiva_projection_back_overdetermined"
   ],
   "note": ""
  },
  {
   "property": "C22",
   "status": "proved",
   "theorems": [
    "Torchiva.Props.orthogonal_constraint_square",
    "Torchiva.Props.orthogonal_constraint_rejects",
    "Torchiva.Props.orthogonal_constraint_uncorrelated"
   ],
   "note": ""
  },
  {
   "property": "C23",
   "status": "proved",
   "theorems": [
    "Torchiva.Props.ip2_update_total",
    "Torchiva.Props.ip2_update_diagonalises"
   ],
   "note": ""
  },
  {
   "property": "C24",
   "status": "proved",
   "theorems": [
    "Torchiva.Props.ip2_projected_sources_sum",
    "Torchiva.Props.ip2_det_lower"
   ],
   "note": ""
  },
  {
   "property": "C25",
   "status": "proved",
   "theorems": [
    "Torchiva.Props.ip2_rejects_channels",
    "Torchiva.Props.ip2_rejects_ref_mic",
    "Torchiva.Props.ip2_succeeds"
   ],
   "note": ""
  },
  {
   "property": "C26",
   "status": "proved",
   "theorems": [
    "Torchiva.Props.five_run",
    "Torchiva.Props.five_dc_bin"
   ],
   "note": "five_dc_bin: any parameters. five_run: success and run semantics for any number of channels except two."
  },
  {
   "property": "C27",
   "status": "partial",
   "theorems": [
    "Torchiva.Props.five_whitening_partial",
    "Torchiva.Props.five_whitening_two_channel_violated"
   ],
   "note": "Proved for every number of channels except two. With two complex channels the code violates the property (counterexample proved)."
  },
  {
   "property": "C28",
   "status": "partial",
   "theorems": [
    "Torchiva.Props.five_solver_independent_partial",
    "Torchiva.Props.five_phase_independent_two_channels",
    "Torchiva.Props.five_zero_iterations_violated",
    "Torchiva.Props.five_phase_degenerate_violated",
    "Torchiva.Props.five_phase_sensitive_model_violated"
   ],
   "note": "True for two channels, and for any other number of channels with simple extreme eigenvalues and weights that depend on magnitudes only. Both conditions are needed: the property is violated, for every number of iterations, when eigenvalues coincide and for source models that see phases. Violated for n_iter=0."
  },
  {
   "property": "C29",
   "status": "partial",
   "theorems": [
    "Torchiva.Props.five_power_one_violated",
    "Torchiva.Props.five_power_vectors_partial",
    "Torchiva.Props.five_power_constant_weights_violated",
    "Torchiva.Props.five_power_form_partial",
    "Torchiva.Props.five_power_succeeds_iff",
    "Torchiva.Props.five_power_monotone_partial",
    "Torchiva.Props.five_power_converges_partial",
    "Torchiva.Props.five_forward_power_one_violated"
   ],
   "note": "The property is false for n_power_iter=1 and when a channel is zero in the first column of every loaded inverse (five_power_succeeds_iff gives the exact condition for n >= 2). The partial theorems give the returned vectors in closed form, show that one more iteration never increases the weighted output power, and that it converges to the smallest eigenvalue reached by the start."
  },
  {
   "property": "C30",
   "status": "partial",
   "theorems": [
    "Torchiva.Props.five_none_partial",
    "Torchiva.Props.five_none_violated",
    "Torchiva.Props.five_none_batch_violated"
   ],
   "note": "The property is false after one iteration or more (two extra dimensions unbatched, RuntimeError with a batch). It holds with n_iter=0."
  },
  {
   "property": "C31",
   "status": "proved",
   "theorems": [
    "Torchiva.Props.five_run"
   ],
   "note": "FiveRun.step states optimality among all unit-power filters, which are the unit-norm filters of the whitened domain."
  },
  {
   "property": "C32",
   "status": "proved",
   "theorems": [
    "Torchiva.Props.wpe_first_frames",
    "Torchiva.Props.wpe_zero_iterations"
   ],
   "note": ""
  },
  {
   "property": "C33",
   "status": "proved",
   "theorems": [
    "Torchiva.Props.wpe_iteration_optimal"
   ],
   "note": ""
  },
  {
   "property": "C34",
   "status": "proved",
   "theorems": [
    "Torchiva.Props.wpe_total",
    "Torchiva.Props.wpe_no_taps_raises"
   ],
   "note": "wpe_total also needs at least one frame."
  },
  {
   "property": "C35",
   "status": "proved",
   "theorems": [
    "Torchiva.Props.wpe_default_weights"
   ],
   "note": ""
  },
  {
   "property": "C36",
   "status": "proved",
   "theorems": [
    "Torchiva.Props.mvdr_distortionless",
    "Torchiva.Props.mvdr_forward_rtf"
   ],
   "note": ""
  },
  {
   "property": "C37",
   "status": "proved",
   "theorems": [
    "Torchiva.Props.mvdr_scm_rank_one",
    "Torchiva.Props.mvdr_scm_singular_raises",
    "Torchiva.Props.mvdr_forward_scm",
    "Torchiva.Props.mvdr_forward_scm_succeeds"
   ],
   "note": ""
  },
  {
   "property": "C38",
   "status": "partial",
   "theorems": [
    "Torchiva.Props.mwf_ref_optimal_partial",
    "Torchiva.Props.mwf_all_optimal",
    "Torchiva.Props.mwf_ref_ignores_eps_violated",
    "Torchiva.Props.mwf_forward_time_invariant",
    "Torchiva.Props.mwf_forward_time_varying"
   ],
   "note": "Optimality is proved; the clause that the user's eps is the loading is false when ref_mic is given (always, through MWFBeamformer): the default 1e-6 is used."
  },
  {
   "property": "C39",
   "status": "proved",
   "theorems": [
    "Torchiva.Props.gev_max_snr",
    "Torchiva.Props.gevd_general",
    "Torchiva.Props.gevd_two_channels",
    "Torchiva.Props.gev_forward"
   ],
   "note": "The decomposition hypothesis is discharged for every channel count other than two when the noise covariance has eigenvalues >= 1e-5, and for two channels away from the clamps."
  },
  {
   "property": "C40",
   "status": "proved",
   "theorems": [
    "Torchiva.Props.rtf_reference_one",
    "Torchiva.Props.rtf_succeeds",
    "Torchiva.Props.rtf_rank_one",
    "Torchiva.Props.rtf_power_value"
   ],
   "note": ""
  },
  {
   "property": "C41",
   "status": "proved",
   "theorems": [
    "Torchiva.Props.mvdr_rejects_mask_count",
    "Torchiva.Props.mvdr_rejects_type",
    "Torchiva.Props.mvdr_three_masks_ignores_type",
    "Torchiva.Props.mwf_rejects_mask_count",
    "Torchiva.Props.gev_rejects_mask_count",
    "Torchiva.Props.mwf_forward_time_invariant",
    "Torchiva.Props.mwf_forward_time_varying",
    "Torchiva.Props.mvdr_forward_rtf",
    "Torchiva.Props.mvdr_forward_three_masks",
    "Torchiva.Props.gev_forward"
   ],
   "note": ""
  },
  {
   "property": "C42",
   "status": "proved",
   "theorems": [
    "Torchiva.Props.min_distortion_l2_optimal",
    "Torchiva.Props.min_distortion_l2_scale_invariant",
    "Torchiva.Props.min_distortion_default"
   ],
   "note": ""
  },
  {
   "property": "C43",
   "status": "proved",
   "theorems": [
    "Torchiva.Props.min_distortion_phase"
   ],
   "note": ""
  },
  {
   "property": "C44",
   "status": "proved",
   "theorems": [
    "Torchiva.Props.min_distortion_lp_run",
    "Torchiva.Props.min_distortion_lpq_run",
    "Torchiva.Props.min_distortion_model_run",
    "Torchiva.Props.min_distortion_bad_exponents",
    "Torchiva.Props.min_distortion_rows"
   ],
   "note": ""
  },
  {
   "property": "C45",
   "status": "proved",
   "theorems": [
    "Torchiva.Props.min_distortion_lp_descent",
    "Torchiva.Props.min_distortion_lp_run_descent"
   ],
   "note": ""
  },
  {
   "property": "C46",
   "status": "partial",
   "theorems": [
    "Torchiva.Props.min_distortion_batch_violated",
    "Torchiva.Props.min_distortion_batch_partial"
   ],
   "note": "The full claim is false (the stopping rule is a norm over the whole batch); independence is proved when the rule never fires."
  },
  {
   "property": "C47",
   "status": "proved",
   "theorems": [
    "Torchiva.Props.projection_back_reproduces",
    "Torchiva.Props.projection_back_too_few_frames",
    "Torchiva.Props.projection_back_succeeds"
   ],
   "note": ""
  },
  {
   "property": "C48",
   "status": "proved",
   "theorems": [
    "Torchiva.Props.laplace_weights",
    "Torchiva.Props.gauss_weights",
    "Torchiva.Props.classic_weights_default",
    "Torchiva.Props.classic_weights_floor"
   ],
   "note": ""
  },
  {
   "property": "C49",
   "status": "proved",
   "theorems": [
    "Torchiva.Props.nmf_history"
   ],
   "note": "calls with the shape of the first call since reset"
  },
  {
   "property": "C50",
   "status": "proved",
   "theorems": [
    "Torchiva.Props.nmf_basis_descent",
    "Torchiva.Props.nmf_activation_descent",
    "Torchiva.Props.nmf_forward_descent",
    "Torchiva.Props.nmf_first_update_descent"
   ],
   "note": "the floor on the estimate must be inactive before each half; the floor on the factors may be active"
  },
  {
   "property": "C51",
   "status": "proved",
   "theorems": [
    "Torchiva.Props.glu_mask_range",
    "Torchiva.Props.blstm_mask_range",
    "Torchiva.Props.mask_mvdr_range",
    "Torchiva.Props.mask_mvdr_layout",
    "Torchiva.Props.simple_mask_range",
    "Torchiva.Props.simple_mask_no_floor"
   ],
   "note": ""
  },
  {
   "property": "C52",
   "status": "proved",
   "theorems": [
    "Torchiva.Props.fftconvolve_full",
    "Torchiva.Props.fftconvolve_same",
    "Torchiva.Props.fftconvolve_valid",
    "Torchiva.Props.fftconvolve_valid'",
    "Torchiva.Props.fftconvolve_bad_mode"
   ],
   "note": "exact DFT, one pair of signals along the last dimension"
  },
  {
   "property": "C53",
   "status": "proved",
   "theorems": [
    "Torchiva.Props.select_most_energetic",
    "Torchiva.Props.select_most_energetic_all",
    "Torchiva.Props.argsortDesc_exists",
    "Torchiva.Props.select_most_energetic_neg"
   ],
   "note": "default dim and dim_reduc; ties in argsort unspecified"
  },
  {
   "property": "C54",
   "status": "proved",
   "theorems": [
    "Torchiva.Props.separator_output_length",
    "Torchiva.Props.separator_tail_zero",
    "Torchiva.Props.separator_never_truncates"
   ],
   "note": "Output length equals input length for every input. Also: for even n_fft the last n mod hop samples are always zero."
  },
  {
   "property": "C55",
   "status": "proved",
   "theorems": [
    "Torchiva.Props.separator_builds",
    "Torchiva.Props.separator_rejects",
    "Torchiva.Props.five_warning",
    "Torchiva.Props.constructor_defaults",
    "Torchiva.Props.separator_arguments",
    "Torchiva.Props.separator_warns"
   ],
   "note": "All strings."
  },
  {
   "property": "C56",
   "status": "partial",
   "theorems": [
    "Torchiva.Props.separator_history_independent",
    "Torchiva.Props.separator_history_independent_default",
    "Torchiva.Props.separator_reset_false_violated",
    "Torchiva.Props.separator_reset_false_partial",
    "Torchiva.Props.forward_leaves_other_models"
   ],
   "note": "History independence is proved; the clause about reset=False is false (the separator resets the model anyway), witness in separator_reset_false_violated."
  },
  {
   "property": "C57",
   "status": "partial",
   "theorems": [
    "Torchiva.Props.stft_named_window_partial",
    "Torchiva.Props.stft_custom_window_violated"
   ],
   "note": "Custom windows always raise AttributeError; names behave as documented."
  },
  {
   "property": "C58",
   "status": "proved",
   "theorems": [
    "Torchiva.Props.forward_params_do_not_persist",
    "Torchiva.Props.params_effective",
    "Torchiva.Props.forward_history_independent",
    "Torchiva.Props.forward_none_is_attribute",
    "Torchiva.Props.forward_leaves_other_models"
   ],
   "note": "Every sequence of calls."
  },
  {
   "property": "C59",
   "status": "partial",
   "theorems": [
    "Torchiva.Props.load_correct_partial",
    "Torchiva.Props.load_url_correct_partial",
    "Torchiva.Props.cache_keyed_by_url_violated",
    "Torchiva.Props.cache_keyed_by_url_violated_witness",
    "Torchiva.Props.cached_file_is_forever",
    "Torchiva.Props.pathName_join",
    "Torchiva.Props.trailing_slash",
    "Torchiva.Props.load_fresh",
    "Torchiva.Props.load_missing_raises",
    "Torchiva.Props.load_fresh_urls"
   ],
   "note": "The property is false: the cache key is the last URL component. Proved: correct when every URL used with that last component is the same URL."
  },
  {
   "property": "C60",
   "status": "partial",
   "theorems": [
    "Torchiva.Props.load_correct_partial",
    "Torchiva.Props.interrupted_download_violated",
    "Torchiva.Props.cached_file_is_forever"
   ],
   "note": "False for a crash in the middle of a file: the truncated file is used forever. Proved for every crash between files, HTTP errors, and faults on other models."
  },
  {
   "property": "C61",
   "status": "proved",
   "theorems": [
    "Torchiva.Props.load_overrides",
    "Torchiva.Props.load_missing_file",
    "Torchiva.Props.load_local",
    "Torchiva.Props.load_url_ignores_local"
   ],
   "note": "All file-system states and keyword sets."
  },
  {
   "property": "C62",
   "status": "partial",
   "theorems": [
    "Torchiva.Props.cli_accepts_iff",
    "Torchiva.Props.cli_rejects",
    "Torchiva.Props.cli_five_one_source",
    "Torchiva.Props.cli_options_nn_partial",
    "Torchiva.Props.cli_options_classic_partial",
    "Torchiva.Props.cli_n_iter_nn",
    "Torchiva.Props.cli_n_iter_violated",
    "Torchiva.Props.cli_nn_ignores_violated",
    "Torchiva.Props.cli_too_many_outputs_violated",
    "Torchiva.Props.cli_path_rejects",
    "Torchiva.Props.isWav_iff"
   ],
   "note": "Validation is proved completely. Last clause false: --n_iter is ignored without a neural model, and STFT/taps/delay/eps options are ignored with one."
  },
  {
   "property": "C63",
   "status": "partial",
   "theorems": [
    "Torchiva.Props.folder_outputs_partial",
    "Torchiva.Props.folder_outputs_new_partial",
    "Torchiva.Props.single_file_output",
    "Torchiva.Props.folder_collision_violated",
    "Torchiva.Props.input_overwritten_violated"
   ],
   "note": "False for equal basenames in different subfolders; also the input file itself is overwritten when the output is its own folder. Proved otherwise."
  },
  {
   "property": "C64",
   "status": "partial",
   "theorems": [
    "Torchiva.Props.cli_channels_partial",
    "Torchiva.Props.separate_one_spec",
    "Torchiva.Props.padTo_spec",
    "Torchiva.Props.cli_channels_violated",
    "Torchiva.Props.cli_five_single_channel"
   ],
   "note": "False: only the first min(src, mic) channels are used; FIVE always gets one channel. Proved when src = mic."
  },
  {
   "property": "C65",
   "status": "proved",
   "theorems": [
    "Torchiva.Props.autoclip_history_sorted",
    "Torchiva.Props.autoclip_threshold",
    "Torchiva.Props.autoclip_percentile",
    "Torchiva.Props.autoclip_clips",
    "Torchiva.Props.gradNorm_eq"
   ],
   "note": "All sequences of gradients and percentiles in [0,100]; exact arithmetic for the index."
  },
  {
   "property": "C66",
   "status": "proved",
   "theorems": [
    "Torchiva.Props.interleaved_epoch",
    "Torchiva.Props.roundRobin_perm",
    "Torchiva.Props.roundRobin_sublist"
   ],
   "note": "All lists of loaders; any number of epochs since the state after StopIteration is a fresh one."
  },
  {
   "property": "C67",
   "status": "proved",
   "theorems": [
    "Torchiva.Props.collate_spec",
    "Torchiva.Props.collate_centred",
    "Torchiva.Props.placed_spec",
    "Torchiva.Props.collate_channel_mismatch"
   ],
   "note": "Items with equal channel counts and references as long as their mixtures."
  },
  {
   "property": "C68",
   "status": "proved",
   "theorems": [
    "Torchiva.Props.compute_interval_inside",
    "Torchiva.Props.compute_interval_no_sources"
   ],
   "note": "All integers."
  },
  {
   "property": "C69",
   "status": "proved",
   "theorems": [
    "Torchiva.Props.dtype_maps"
   ],
   "note": ""
  },
  {
   "property": "C70",
   "status": "proved",
   "theorems": [
    "Torchiva.Props.import_name_single",
    "Torchiva.Props.import_name_dotted",
    "Torchiva.Props.import_name_missing_module",
    "Torchiva.Props.instantiate_spec",
    "Torchiva.Props.instantiate_unresolved"
   ],
   "note": "names with nonempty parts"
  },
  {
   "property": "C71",
   "status": "proved",
   "theorems": [
    "Torchiva.Props.tiss_demixing_invertible"
   ],
   "note": ""
  },
  {
   "property": "C72",
   "status": "proved",
   "theorems": [
    "Torchiva.Props.auxiva_output",
    "Torchiva.Props.auxiva_underdetermined_rejected"
   ],
   "note": ""
  },
  {
   "property": "C73",
   "status": "partial",
   "theorems": [
    "Torchiva.Props.ip2_zero_iterations",
    "Torchiva.Props.auxiva_zero_iterations_violated"
   ],
   "note": "true for AuxIVA_IP2; false for AuxIVA_IP with projection back (all other channels are zeroed)"
  },
  {
   "property": "C74",
   "status": "proved",
   "theorems": [
    "Torchiva.Props.ip2_update_global_minimum"
   ],
   "note": ""
  },
  {
   "property": "C75",
   "status": "proved",
   "theorems": [
    "Torchiva.Props.wpe_frequencies_independent"
   ],
   "note": ""
  },
  {
   "property": "C76",
   "status": "partial",
   "theorems": [
    "Torchiva.Props.lpq_weights_partial",
    "Torchiva.Props.lpq_weights_violated"
   ],
   "note": "False for q other than 1 and 2; proved for those two."
  },
  {
   "property": "C77",
   "status": "proved",
   "theorems": [
    "Torchiva.Props.laplace_cost",
    "Torchiva.Props.laplace_majorizes",
    "Torchiva.Props.laplace_descent",
    "Torchiva.Props.gauss_majorizes"
   ],
   "note": ""
  },
  {
   "property": "C78",
   "status": "proved",
   "theorems": [
    "Torchiva.Props.glu_shape_odd",
    "Torchiva.Props.glu_shape_even_raises",
    "Torchiva.Props.glu_shape_no_sublayer_raises",
    "Torchiva.Props.glu_shape_wrong_freq"
   ],
   "note": ""
  },
  {
   "property": "C79",
   "status": "proved",
   "theorems": [
    "Torchiva.Props.glu_mask_scale_invariant",
    "Torchiva.Props.glu_mask_reim_scale_invariant",
    "Torchiva.Props.glu_mask_log_sign_blind"
   ],
   "note": ""
  },
  {
   "property": "C80",
   "status": "proved",
   "theorems": [
    "Torchiva.Props.stft_round_trip",
    "Torchiva.Props.hann_envelope_ok",
    "Torchiva.Props.stft_default_round_trip",
    "Torchiva.Props.istft_le",
    "Torchiva.Props.stft_frames",
    "Torchiva.Props.stft_accepts"
   ],
   "note": "Exact arithmetic."
  },
  {
   "property": "C81",
   "status": "proved",
   "theorems": [
    "Torchiva.Props.compute_interval_overlap"
   ],
   "note": "All integers."
  },
  {
   "property": "C82",
   "status": "proved",
   "theorems": [
    "Torchiva.Props.ensemble_average",
    "Torchiva.Props.ensemble_empty"
   ],
   "note": "Real-valued entries (integer buffers are truncated by the code, not modelled)."
  },
  {
   "property": "C83",
   "status": "proved",
   "theorems": [
    "Torchiva.Props.tiss_shape",
    "Torchiva.Props.auxiva_shape",
    "Torchiva.Props.auxiva2_shape",
    "Torchiva.Props.auxiva2_channels",
    "Torchiva.Props.five_shape",
    "Torchiva.Props.five_one_power_iteration",
    "Torchiva.Props.wpe_shape",
    "Torchiva.Props.wpe_no_taps",
    "Torchiva.Props.mvdr_shape",
    "Torchiva.Props.mwf_shape",
    "Torchiva.Props.gev_shape",
    "Torchiva.Props.scaling_shape"
   ],
   "note": "FIVE needs n_power_iter >= 2 (1 raises UnboundLocalError); WPE needs a tap."
  },
  {
   "property": "C84",
   "status": "partial",
   "theorems": [
    "Torchiva.Props.auxiva_ref_mic_violated",
    "Torchiva.Props.auxiva_shape"
   ],
   "note": "False outside proj_back_mic < n_src."
  },
  {
   "property": "C85",
   "status": "partial",
   "theorems": [
    "Torchiva.Props.auxiva_verbose_violated",
    "Torchiva.Props.auxiva_verbose_partial"
   ],
   "note": "False with any batch dimension; holds on shapes without."
  },
  {
   "property": "C86",
   "status": "partial",
   "theorems": [
    "Torchiva.Props.wpe_model_violated",
    "Torchiva.Props.wpe_model_partial"
   ],
   "note": "False for every model that keeps the shape of its input; a model that averages over channels is accepted."
  },
  {
   "property": "C87",
   "status": "partial",
   "theorems": [
    "Torchiva.Props.min_distortion_model_weights_violated",
    "Torchiva.Props.min_distortion_model_run",
    "Torchiva.Props.minimum_distortion_model_violated",
    "Torchiva.Props.minimum_distortion_model_batches_violated",
    "Torchiva.Props.minimum_distortion_model_leading_one",
    "Torchiva.Props.minimum_distortion_model_partial"
   ],
   "note": "The property is false; min_distortion_model_run says which weights are used with one batch dimension. Input without batch dimension raises, and so does input with two or more unless the last but one is 1 or equal to the number of frequencies, or there is one frequency. The accepted shapes are one batch dimension, or two with a leading 1."
  },
  {
   "property": "C88",
   "status": "proved",
   "theorems": [
    "Torchiva.Props.classic_models_preserve_shape",
    "Torchiva.Props.mask_support_shape"
   ],
   "note": ""
  },
  {
   "property": "C89",
   "status": "proved",
   "theorems": [
    "Torchiva.Props.separator_shape",
    "Torchiva.Props.separator_tiss_shape"
   ],
   "note": "The window-envelope test of torch.istft is on values; see C80."
  },
  {
   "property": "C90",
   "status": "partial",
   "theorems": [
    "Torchiva.Props.beamformer_default_model_violated",
    "Torchiva.Props.mvdr_shape"
   ],
   "note": "False with the default model; mvdr_shape, mwf_shape and gev_shape say what is accepted."
  },
  {
   "property": "C91",
   "status": "partial",
   "theorems": [
    "Torchiva.Props.stft_full_hop_violated",
    "Torchiva.Props.stft_large_hop_violated",
    "Torchiva.Props.hann_envelope_ok",
    "Torchiva.Props.stft_hop_invertible_partial",
    "Torchiva.Props.stft_hop_round_trip_partial",
    "Torchiva.Props.stft_hop_iff",
    "Torchiva.Props.stft_hop_round_trip_iff",
    "Torchiva.Props.stft_hop_one_frame"
   ],
   "note": "Violated for hop_length close to n_fft; stft_hop_iff and stft_hop_round_trip_iff say exactly for which hops the property holds, so nothing is left open."
  },
  {
   "property": "C92",
   "status": "proved",
   "theorems": [
    "Torchiva.Props.tiss_laplace_bound",
    "Torchiva.Props.tiss_laplace_descent",
    "Torchiva.Props.tiss_gauss_bound",
    "Torchiva.Props.tiss_gauss_descent",
    "Torchiva.Props.tiss_laplace_descent_overdetermined",
    "Torchiva.Props.laplace_objective_scale_free",
    "Torchiva.Props.gauss_objective_scale_free",
    "Torchiva.Props.tiss_outputs_not_silent"
   ],
   "note": "The bound theorems hold without the loudness hypothesis; the over-determined case is stated for the background filter of the last iteration."
  },
  {
   "property": "C93",
   "status": "proved",
   "theorems": [
    "Torchiva.Props.tiss_output_power",
    "Torchiva.Props.tiss_single_channel"
   ],
   "note": "Counterpart of auxiva_output_energy (C19) for T-ISS."
  },
  {
   "property": "C94",
   "status": "proved",
   "theorems": [
    "Torchiva.Props.ip2_laplace_descent",
    "Torchiva.Props.ip2_gauss_descent"
   ],
   "note": "Conditions bundled in Spec.Ip2Regular; the example checks them for a concrete signal."
  },
  {
   "property": "C95",
   "status": "proved",
   "theorems": [
    "Torchiva.Props.wpe_likelihood_bound",
    "Torchiva.Props.wpe_likelihood_descent",
    "Torchiva.Props.wpe_iteration_increase",
    "Torchiva.Props.wpe_later_increase"
   ],
   "note": "The ridge term makes later iterations comparable only through the bounds of wpe_likelihood_bound (against the input) and wpe_iteration_increase (against the previous iteration); wpe_later_increase exhibits, for every eps up to 1/64, a recording for which the second iteration does increase the objective."
  },
  {
   "property": "C96",
   "status": "proved",
   "theorems": [
    "Torchiva.Props.rtf_power_form",
    "Torchiva.Props.rtf_power_value",
    "Torchiva.Props.rtf_power_monotone",
    "Torchiva.Props.rtf_power_converges"
   ],
   "note": ""
  },
  {
   "property": "C97",
   "status": "proved",
   "theorems": [
    "Torchiva.Props.tiss_follows_convention",
    "Torchiva.Props.auxiva_follows_convention",
    "Torchiva.Props.ip2_follows_convention",
    "Torchiva.Props.five_follows_convention",
    "Torchiva.Props.wpe_follows_convention",
    "Torchiva.Props.classic_models_follow",
    "Torchiva.Props.magnitude_models_follow"
   ],
   "note": "FIVE ignores frequency zero, so the change ranges over its other frequencies; for the mask-based beamformers see C102"
  },
  {
   "property": "C98",
   "status": "partial",
   "theorems": [
    "Torchiva.Props.export_reload_partial",
    "Torchiva.Props.export_reload_violated",
    "Torchiva.Props.train_source_keyerror"
   ],
   "note": "Violated by the code: `export_model.py` drops `algorithm` and `n_src`. Proved: the round trip with both passed again, and the exact outcome without. Serialisation itself is trusted."
  },
  {
   "property": "C99",
   "status": "proved",
   "theorems": [
    "Torchiva.Props.reload_tensors",
    "Torchiva.Props.reload_size"
   ],
   "note": ""
  }
 ]
}
