{
 "claims": [
  {
   "property": "C01",
   "status": "proved",
   "theorems": [
    "Verif.Props.C01_sound_schedule",
    "Verif.Props.C01_needs_unfed_input"
   ],
   "note": ""
  },
  {
   "property": "C02",
   "status": "proved",
   "theorems": [
    "Verif.Props.C02_disconnected_rejected",
    "Verif.Props.C02_cycle_rejected",
    "Verif.Props.C02_terminates"
   ],
   "note": ""
  },
  {
   "property": "C03",
   "status": "proved",
   "theorems": [
    "Verif.Props.C03_accepted_iff",
    "Verif.Props.C03_scheduled_iff_useful",
    "Verif.Props.C03_dangling_producer_rejected"
   ],
   "note": ""
  },
  {
   "property": "C04",
   "status": "proved",
   "theorems": [
    "Verif.Props.C04_order_independent"
   ],
   "note": ""
  },
  {
   "property": "C05",
   "status": "proved",
   "theorems": [
    "Verif.Props.C05_concretize",
    "Verif.Props.C05_unclashing_kept",
    "Verif.Props.C05_clean_unchanged",
    "Verif.Props.C05_places_differ",
    "Verif.Props.C05_empty_raises"
   ],
   "note": ""
  },
  {
   "property": "C06",
   "status": "partial",
   "theorems": [
    "Verif.Props.C06_edges_kept",
    "Verif.Props.C06_one_source",
    "Verif.Props.C06_unclashing_kept",
    "Verif.Props.C06_place_reads_partial",
    "Verif.Props.C06_output_prefix_defect",
    "Verif.Props.C06_trailing_separator_loses_edge"
   ],
   "note": "Edges, slots and single sources: proved for every well-formed connection dictionary (nonempty path components). The placement into trees is proved when no module name merely starts with the output keyword; C06_output_prefix_defect shows the code is wrong there. C06_trailing_separator_loses_edge shows why components must be nonempty."
  },
  {
   "property": "C07",
   "status": "partial",
   "theorems": [
    "Verif.Props.C07_source_split_partial",
    "Verif.Props.C07_target_split_partial",
    "Verif.Props.C07_partition",
    "Verif.Props.C07_misuse_raises",
    "Verif.Props.C07_container_accepted"
   ],
   "note": "Lossless splitting and rejection of misuse are proved. That the module path names a module (not a container) is false of the code: C07_container_accepted."
  },
  {
   "property": "C08",
   "status": "partial",
   "theorems": [
    "Verif.Props.C08_projection_partial",
    "Verif.Props.C08_nested_input_name_refuted"
   ],
   "note": "Proved unless a source lies in a nested module whose path starts with the text 'input' or 'output'; refuted there by C08_nested_input_name_refuted."
  },
  {
   "property": "C09",
   "status": "proved",
   "theorems": [
    "Verif.Props.C09_get_after_set",
    "Verif.Props.C09_write_back"
   ],
   "note": ""
  },
  {
   "property": "C10",
   "status": "proved",
   "theorems": [
    "Verif.Props.C10_set_frame",
    "Verif.Props.C10_leading_zero_alias"
   ],
   "note": "Divergence compares numeric components as numbers; C10_leading_zero_alias shows why."
  },
  {
   "property": "C11",
   "status": "proved",
   "theorems": [
    "Verif.Props.C11_extend_reads_fill",
    "Verif.Props.C11_extend_keeps_leaves",
    "Verif.Props.C11_extend_conflict_raises",
    "Verif.Props.C11_nested_tuple_fails"
   ],
   "note": "Statement is about successful calls; C11_nested_tuple_fails records that nested tuples cannot be extended."
  },
  {
   "property": "C12",
   "status": "proved",
   "theorems": [
    "Verif.Props.C12_make_mutable_eq",
    "Verif.Props.C12_make_mutable"
   ],
   "note": ""
  },
  {
   "property": "C13",
   "status": "proved",
   "theorems": [
    "Verif.Props.C13_early_return",
    "Verif.Props.C13_early_return_string",
    "Verif.Props.C13_needs_proper"
   ],
   "note": ""
  },
  {
   "property": "C14",
   "status": "proved",
   "theorems": [
    "Verif.Props.C14_split",
    "Verif.Props.C14_concatenate_split",
    "Verif.Props.C14_batch_leaves",
    "Verif.Props.C14_errors"
   ],
   "note": ""
  },
  {
   "property": "C15",
   "status": "partial",
   "theorems": [
    "Verif.Props.C15_autobatch_eq",
    "Verif.Props.C15_scalar_leaf_raises",
    "Verif.Props.C15_arrays",
    "Verif.Props.C15_library",
    "Verif.Props.C15_scalar_samples_refuted",
    "Verif.Props.C15_empty_result_refuted",
    "Verif.Props.C15_threads"
   ],
   "note": "Proved for both modes, on lists of samples (C15_autobatch_eq) and on trees of arrays with shapes and exceptions (C15_arrays); C15_library needs no assumption about the modules. Two exceptions are excluded by hypothesis and shown to fail: samples that are numbers in the mode that avoids recompilation (C15_scalar_leaf_raises, C15_scalar_samples_refuted), results without entries in the other mode (C15_empty_result_refuted)."
  },
  {
   "property": "C16",
   "status": "proved",
   "theorems": [
    "Verif.Props.C16_state_threaded",
    "Verif.Props.C16_no_limit"
   ],
   "note": ""
  },
  {
   "property": "C17",
   "status": "proved",
   "theorems": [
    "Verif.Props.C17_aligned",
    "Verif.Props.C17_triples",
    "Verif.Props.C17_independent_not_aligned"
   ],
   "note": ""
  },
  {
   "property": "C18",
   "status": "partial",
   "theorems": [
    "Verif.Props.C18_parameters",
    "Verif.Props.C18_none_params_refuted",
    "Verif.Props.C18_forward",
    "Verif.Props.C18_complete",
    "Verif.Props.C18_compose",
    "Verif.Props.C18_insertion_order_refuted"
   ],
   "note": "The composition is proved in both directions for modules with parameters. A module whose parameters are None (an Einsum without arrays of its own) makes every call raise (C18_none_params_refuted), and dictionaries are applied in alphabetical instead of insertion order (C18_insertion_order_refuted)."
  },
  {
   "property": "C19",
   "status": "proved",
   "theorems": [
    "Verif.Props.C19_executable_iff",
    "Verif.Props.C19_rejected",
    "Verif.Props.C19_dataflow",
    "Verif.Props.C19_unique",
    "Verif.Props.C19_complete",
    "Verif.Props.C19_slot_order_defect"
   ],
   "note": ""
  },
  {
   "property": "C20",
   "status": "proved",
   "theorems": [
    "Verif.Props.C20_chain"
   ],
   "note": ""
  },
  {
   "property": "C21",
   "status": "proved",
   "theorems": [
    "Verif.Props.C21_keys_sequential",
    "Verif.Props.C21_keys_nonsequential",
    "Verif.Props.C21_nonsequential",
    "Verif.Props.C21_nonsequential_compile",
    "Verif.Props.C21_sequential",
    "Verif.Props.C21_sequential_compile"
   ],
   "note": ""
  },
  {
   "property": "C22",
   "status": "proved",
   "theorems": [
    "Verif.Props.C22_states",
    "Verif.Props.C22_unused_irrelevant"
   ],
   "note": ""
  },
  {
   "property": "C23",
   "status": "partial",
   "theorems": [
    "Verif.Props.C23_insert",
    "Verif.Props.C23_prepend",
    "Verif.Props.C23_append_partial",
    "Verif.Props.C23_append_refuted",
    "Verif.Props.C23_pop_list",
    "Verif.Props.C23_pop_tuple_partial",
    "Verif.Props.C23_pop_tuple_last_defect",
    "Verif.Props.C23_dict_insert_defect",
    "Verif.Props.C23_append_pop",
    "Verif.Props.C23_setitem_seq",
    "Verif.Props.C23_setitem_dict",
    "Verif.Props.C23_pop_key",
    "Verif.Props.C23_setpath_get",
    "Verif.Props.C23_order_kept",
    "Verif.Props.C23_error_keeps",
    "Verif.Props.C23_history_order",
    "Verif.Props.C23_invalidates"
   ],
   "note": "Insert, prepend, append, pop, item/slice/path assignment are proved for lists, tuples and dictionaries. False of the code, with witnesses: tuple models popped at -1 (C23_pop_tuple_last_defect), inserting into dictionary models always raises (C23_dict_insert_defect), append index counts modules, not entries (C23_append_refuted)."
  },
  {
   "property": "C24",
   "status": "partial",
   "theorems": [
    "Verif.Props.C24_result",
    "Verif.Props.C24_tuple_partial",
    "Verif.Props.C24_uncompiled",
    "Verif.Props.C24_list_refuted"
   ],
   "note": "The result is right and tuple models are unchanged. For every list model the left operand is changed too: C24_list_refuted."
  },
  {
   "property": "C25",
   "status": "partial",
   "theorems": [
    "Verif.Props.C25_ready_modules",
    "Verif.Props.C25_ready_compiled",
    "Verif.Props.C25_ready_succeeded_partial",
    "Verif.Props.C25_ready_after_failure_refuted",
    "Verif.Props.C25_failed_recompile_defect",
    "Verif.Props.C25_call_guards",
    "Verif.Props.C25_call_current",
    "Verif.Props.C25_load_stale_defect"
   ],
   "note": "compile was called since the last edit or reset: proved for all histories. That it succeeded is proved for sequential models whose outputs have a non-batch dimension; refuted in general (C25_ready_after_failure_refuted, C25_failed_recompile_defect)."
  },
  {
   "property": "C26",
   "status": "partial",
   "theorems": [
    "Verif.Props.C26_additive",
    "Verif.Props.C26_edit",
    "Verif.Props.C26_base_count",
    "Verif.Props.C26_freeze_refuted",
    "Verif.Props.C26_model_flag"
   ],
   "note": "Additivity is proved. Freezing does not change the count at all: C26_freeze_refuted."
  },
  {
   "property": "C27",
   "status": "proved",
   "theorems": [
    "Verif.Props.C27_each_sample_once"
   ],
   "note": ""
  },
  {
   "property": "C28",
   "status": "proved",
   "theorems": [
    "Verif.Props.C28_frozen",
    "Verif.Props.C28_gradient_alignment",
    "Verif.Props.C28_callback_can_write"
   ],
   "note": "Proved for a callback that does not write the parameters it is given; C28_callback_can_write shows that the code trusts the callback. What counts as frozen in a model of models is in C85."
  },
  {
   "property": "C29",
   "status": "proved",
   "theorems": [
    "Verif.Props.C29_best_returned",
    "Verif.Props.C29_nan_start"
   ],
   "note": "C29_nan_start records that a NaN initial loss means no epoch runs and the initial parameters are returned."
  },
  {
   "property": "C30",
   "status": "proved",
   "theorems": [
    "Verif.Props.C30_patience"
   ],
   "note": ""
  },
  {
   "property": "C31",
   "status": "proved",
   "theorems": [
    "Verif.Props.C31_stops",
    "Verif.Props.C31_total"
   ],
   "note": ""
  },
  {
   "property": "C32",
   "status": "partial",
   "theorems": [
    "Verif.Props.C32_counter_partial",
    "Verif.Props.C32_increments",
    "Verif.Props.C32_counter_refuted"
   ],
   "note": "The counter is proved in closed form for both variants (C32_counter_partial, C32_increments). That both variants agree is false: the real one advances once per epoch, the complex one once per batch and once more per epoch (C32_counter_refuted)."
  },
  {
   "property": "C33",
   "status": "partial",
   "theorems": [
    "Verif.Props.C33_clip_real",
    "Verif.Props.C33_clip_complex_partial",
    "Verif.Props.C33_magnitude_refuted"
   ],
   "note": "Real clipping is proved in full. The complex variant clips the real and imaginary part separately, so the magnitude bound fails: C33_magnitude_refuted."
  },
  {
   "property": "C34",
   "status": "proved",
   "theorems": [
    "Verif.Props.C34_moments_real",
    "Verif.Props.C34_moments_complex",
    "Verif.Props.C34_well_defined",
    "Verif.Props.C34_well_defined_complex",
    "Verif.Props.C34_moments_bounded",
    "Verif.Props.C34_step_real",
    "Verif.Props.C34_step_complex",
    "Verif.Props.C34_constant_gradient",
    "Verif.Props.C34_first_step_complex"
   ],
   "note": ""
  },
  {
   "property": "C35",
   "status": "partial",
   "theorems": [
    "Verif.Props.C35_validation_partial",
    "Verif.Props.C35_rejects",
    "Verif.Props.C35_batch_sizes",
    "Verif.Props.C35_validation_data",
    "Verif.Props.C35_ragged_accepted",
    "Verif.Props.C35_ignored_targets"
   ],
   "note": "Acceptance is characterised exactly (C35_validation_partial), rejection is a ValueError (C35_rejects). Two inconsistencies are accepted by the code: ragged features without targets (C35_ragged_accepted) and validation targets without validation features (C35_ignored_targets)."
  },
  {
   "property": "C36",
   "status": "partial",
   "theorems": [
    "Verif.Props.C36_nonneg",
    "Verif.Props.C36_defined",
    "Verif.Props.C36_values",
    "Verif.Props.C36_unit_uncertainty",
    "Verif.Props.C36_mrd_symmetric",
    "Verif.Props.C36_mre_undefined",
    "Verif.Props.C36_huber_single_array",
    "Verif.Props.C36_huber_bounds",
    "Verif.Props.C36_names"
   ],
   "note": "Nonnegativity, values, names and unit uncertainty are proved. mre is NaN when a target is exactly -1e-4 (C36_mre_undefined) and pseudo_huber accepts a single array only (C36_huber_single_array)."
  },
  {
   "property": "C37",
   "status": "partial",
   "theorems": [
    "Verif.Props.C37_mean_partial",
    "Verif.Props.C37_remainder_refuted",
    "Verif.Props.C37_remainder"
   ],
   "note": "Proved when the batch size divides the number of validation samples. With a remainder batch the code averages batch means with equal weights: C37_remainder_refuted; C37_remainder gives the exact value and error for every remainder."
  },
  {
   "property": "C38",
   "status": "partial",
   "theorems": [
    "Verif.Props.C38_restored",
    "Verif.Props.C38_roundtrip",
    "Verif.Props.C38_strict",
    "Verif.Props.C38_class_and_version_ignored",
    "Verif.Props.C38_other_class_refuted",
    "Verif.Props.C38_mixed_types_refuted"
   ],
   "note": "For every class with the default accessors the copy is characterised attribute by attribute (C38_restored) and is exact if every hyperparameter can be written (C38_roundtrip). False of the code: the class name and module version in the data are ignored (C38_class_and_version_ignored, C38_other_class_refuted); hyperparameters of mixed leaf types are dropped silently (C38_mixed_types_refuted)."
  },
  {
   "property": "C39",
   "status": "partial",
   "theorems": [
    "Verif.C39_file",
    "Verif.C39_ragged_refuted",
    "Verif.C39_tuple_refuted",
    "Verif.C39_strict",
    "Verif.C39_not_ready_refuted",
    "Verif.C39_uncompiled_refuted",
    "Verif.C39_model",
    "Verif.C39_nested",
    "Verif.C39_library",
    "Verif.C39_library_nested"
   ],
   "note": "A saved model comes back: any tree of modules, models inside models to any depth, with parameters, state, shapes, random key and optimiser state, for the generic module interface and for every library module. Missing, because the code does not do it: uncompiled graph models cannot be written, some uncompiled modules cannot be read back inside a model, ragged lists cannot be written to a file and tuples cannot be read from one; each is proved. The prebuilt subclasses (LinearNN, AffineEigenvaluePMM, AffineObservablePMM) are covered by C77."
  },
  {
   "property": "C40",
   "status": "partial",
   "theorems": [
    "Verif.Props.C40_plain",
    "Verif.Props.C40_concat_partial",
    "Verif.Props.C40_concat_refuted",
    "Verif.Props.C40_affine_hermitian",
    "Verif.Props.C40_affine_tensor",
    "Verif.Props.C40_observables",
    "Verif.Props.C40_low_rank_refuted",
    "Verif.Props.C40_constant",
    "Verif.Props.C40_einsum",
    "Verif.Props.C40_matmul_partial",
    "Verif.Props.C40_matmul_refuted",
    "Verif.Props.C40_bias",
    "Verif.Props.C40_prelu"
   ],
   "note": "Proved for all classes except ConcatenateLeaves and MatMul with non-default order/separator (C40_concat_refuted, C40_matmul_refuted) and LowRankAffineHermitianMatrix, which can never be restored (C40_low_rank_refuted)."
  },
  {
   "property": "C41",
   "status": "proved",
   "theorems": [
    "Verif.Props.C41_state",
    "Verif.Props.C41_missing",
    "Verif.Props.C41_model",
    "Verif.Props.C41_untrained"
   ],
   "note": ""
  },
  {
   "property": "C42",
   "status": "partial",
   "theorems": [
    "Verif.Props.C42_standard",
    "Verif.Props.C42_minmax",
    "Verif.Props.C42_robust",
    "Verif.Props.C42_onehot",
    "Verif.Props.C42_mixed",
    "Verif.Props.C42_standard_inside",
    "Verif.Props.C42_minmax_inside",
    "Verif.Props.C42_robust_inside",
    "Verif.Props.C42_onehot_inside",
    "Verif.Props.C42_range_refuted",
    "Verif.Props.C42_path_refuted",
    "Verif.Props.C42_sequence_refuted",
    "Verif.Props.C42_mixed_sequence_refuted"
   ],
   "note": "A saved and loaded scaler acts like the original for bare arrays, dictionaries and lists of dictionaries, and inside a mixed scaler for any data. Missing, because the code does not do it: tuples and lists of arrays are not restored, lists of scalers cannot be read, a range of a number and an array cannot be written, pathlib paths without the ending are not found; each is proved."
  },
  {
   "property": "C43",
   "status": "proved",
   "theorems": [
    "Verif.Props.C43_inverse",
    "Verif.Props.C43_standardised",
    "Verif.Props.C43_defined",
    "Verif.Props.C43_constant_lost",
    "Verif.Props.C43_unfitted"
   ],
   "note": "C43_constant_lost shows why features must not be constant."
  },
  {
   "property": "C44",
   "status": "proved",
   "theorems": [
    "Verif.Props.C44_inverse",
    "Verif.Props.C44_range",
    "Verif.Props.C44_defined",
    "Verif.Props.C44_constant_lost",
    "Verif.Props.C44_none_for_all_refuted",
    "Verif.Props.C44_unfitted"
   ],
   "note": "C44_constant_lost shows why features must not be constant; C44_none_for_all_refuted records that a bound None for a whole container raises."
  },
  {
   "property": "C45",
   "status": "partial",
   "theorems": [
    "Verif.Props.C45_inverse_partial",
    "Verif.Props.C45_single_feature",
    "Verif.Props.C45_many_features_refuted",
    "Verif.Props.C45_tree_refuted",
    "Verif.Props.C45_unfitted"
   ],
   "note": "Proved for the configurations in which the fit succeeds. With default settings that is only a bare array with a single feature (C45_single_feature); several features (C45_many_features_refuted) and containers (C45_tree_refuted) raise."
  },
  {
   "property": "C46",
   "status": "partial",
   "theorems": [
    "Verif.Props.C46_transform",
    "Verif.Props.C46_inverse",
    "Verif.Props.C46_none",
    "Verif.Props.C46_fit",
    "Verif.Props.C46_shared_refuted"
   ],
   "note": "Proved when every place has its own scaler object. One object used at two places is refitted and loses the first fit: C46_shared_refuted."
  },
  {
   "property": "C47",
   "status": "partial",
   "theorems": [
    "Verif.Props.C47_encode_partial",
    "Verif.Props.C47_decode_partial",
    "Verif.Props.C47_defined",
    "Verif.Props.C47_incomparable_refuted",
    "Verif.Props.C47_scalar",
    "Verif.Props.C47_counts_refuted",
    "Verif.Props.C47_unfitted"
   ],
   "note": "Proved for samples that are pairwise comparable (all single-number features). The code sorts the columns of the table of values independently, so other data contains rows that are encoded as unseen: exactly then, C47_incomparable_refuted. Arrays of one container with different numbers of values cannot be encoded: C47_counts_refuted."
  },
  {
   "property": "C48",
   "status": "partial",
   "theorems": [
    "Verif.Props.C48_covers",
    "Verif.Props.C48_small_refuted",
    "Verif.Props.C48_monotone"
   ],
   "note": "Proved for every set of scores with ceil((n+1)(1-alpha)) <= n. For smaller alpha the level exceeds 1 and the largest score is returned silently: C48_small_refuted."
  },
  {
   "property": "C49",
   "status": "partial",
   "theorems": [
    "Verif.Props.C49_requests",
    "Verif.Props.C49_recalibration_refuted"
   ],
   "note": "Proved for all sequences of requests after one calibration. After a second calibration old quantiles are returned: C49_recalibration_refuted."
  },
  {
   "property": "C50",
   "status": "proved",
   "theorems": [
    "Verif.Props.C50_interval",
    "Verif.Props.C50_nested"
   ],
   "note": ""
  },
  {
   "property": "C51",
   "status": "partial",
   "theorems": [
    "Verif.Props.C51_coverage",
    "Verif.Props.C51_bias_degenerate",
    "Verif.Props.C51_bias_refuted",
    "Verif.Props.C51_upper",
    "Verif.Props.C51_small_refuted"
   ],
   "note": "Proved from exchangeability for all distributions, without bias correction and for ceil((n+1)(1-alpha)) <= n; without ties the coverage is also at most 1-alpha+2/(n+1) (C51_upper). For smaller alpha it is exactly n/(n+1), less than promised, for every distribution without ties (C51_small_refuted). With the global bias correction, which is fitted on the calibration set itself, coverage can be 0: C51_bias_refuted."
  },
  {
   "property": "C52",
   "status": "proved",
   "theorems": [
    "Verif.Props.C52_scores"
   ],
   "note": ""
  },
  {
   "property": "C53",
   "status": "partial",
   "theorems": [
    "Verif.Props.C53_correction_partial",
    "Verif.Props.C53_shape_refuted"
   ],
   "note": "Proved for outputs of sample shape (1,). For all other outputs stratified calibration raises: C53_shape_refuted."
  },
  {
   "property": "C54",
   "status": "proved",
   "theorems": [
    "Verif.Props.C54_value_bias",
    "Verif.Props.C54_value_plain",
    "Verif.Props.C54_accepts",
    "Verif.Props.C54_hermitian",
    "Verif.Props.C54_affine",
    "Verif.Props.C54_data",
    "Verif.Props.C54_floats",
    "Verif.Props.C54_compile"
   ],
   "note": ""
  },
  {
   "property": "C55",
   "status": "proved",
   "theorems": [
    "Verif.Props.C55_sum",
    "Verif.Props.C55_hermitian",
    "Verif.Props.C55_commuting"
   ],
   "note": ""
  },
  {
   "property": "C56",
   "status": "proved",
   "theorems": [
    "Verif.Props.C56_hermitian",
    "Verif.Props.C56_rank_per_feature",
    "Verif.Props.C56_rank_total"
   ],
   "note": ""
  },
  {
   "property": "C57",
   "status": "proved",
   "theorems": [
    "Verif.Props.C57_expectation_real",
    "Verif.Props.C57_amplitude_value",
    "Verif.Props.C57_amplitude_nonneg",
    "Verif.Props.C57_centered",
    "Verif.Props.C57_unitary",
    "Verif.Props.C57_phase",
    "Verif.Props.C57_data",
    "Verif.Props.C57_floats"
   ],
   "note": ""
  },
  {
   "property": "C58",
   "status": "partial",
   "theorems": [
    "Verif.Props.C58_select",
    "Verif.Props.C58_modes",
    "Verif.Props.C58_system",
    "Verif.Props.C58_parts",
    "Verif.Props.C58_eigenpairs",
    "Verif.Props.C58_shapes",
    "Verif.Props.C58_shapes_met",
    "Verif.Props.C58_values_shape",
    "Verif.Props.C58_values_shape_refuted"
   ],
   "note": "Selection, pairing and order proved for every mode, size and container. The declared output shape of Eigenvalues without num_eig is wrong for containers: C58_values_shape_refuted; C58_values_shape covers the rest."
  },
  {
   "property": "C59",
   "status": "partial",
   "theorems": [
    "Verif.Props.C59_inferred",
    "Verif.Props.C59_refused",
    "Verif.Props.C59_samples",
    "Verif.Props.C59_call",
    "Verif.Props.C59_identity",
    "Verif.Props.C59_skipped_refuted",
    "Verif.Props.C59_accepted_refuted"
   ],
   "note": "Proved for targets with the structure of the input and dimensions >= -1. C59_skipped_refuted: a leaf skipped with None has the declared shape None. C59_accepted_refuted: compile accepts (-2,-3) and bare targets for one-tuples, and the call raises."
  },
  {
   "property": "C60",
   "status": "partial",
   "theorems": [
    "Verif.Props.C60_flatten",
    "Verif.Props.C60_leaf_order",
    "Verif.Props.C60_paths",
    "Verif.Props.C60_treeflatten",
    "Verif.Props.C60_treeflatten_refuted",
    "Verif.Props.C60_concat_axis",
    "Verif.Props.C60_concat_flat",
    "Verif.Props.C60_concat_declared",
    "Verif.Props.C60_axis_refuted"
   ],
   "note": "Flatten, order of leaves and concatenation proved for all trees. TreeFlatten declares extra shapes for None and empty tuples (C60_treeflatten_refuted); ConcatenateLeaves with axis -ndim of the samples mixes the batch axis (C60_axis_refuted)."
  },
  {
   "property": "C61",
   "status": "partial",
   "theorems": [
    "Verif.Props.C61_select",
    "Verif.Props.C61_agree",
    "Verif.Props.C61_empty_refuted"
   ],
   "note": "Proved for all trees of paths. Below an empty tuple compile accepts a path that the call refuses: C61_empty_refuted."
  },
  {
   "property": "C62",
   "status": "partial",
   "theorems": [
    "Verif.Props.C62_string",
    "Verif.Props.C62_tree",
    "Verif.Props.C62_compile",
    "Verif.Props.C62_sizes",
    "Verif.Props.C62_call",
    "Verif.Props.C62_einsum",
    "Verif.Props.C62_missing_refuted",
    "Verif.Props.C62_output_refuted",
    "Verif.Props.C62_scalar_refuted",
    "Verif.Props.C62_tuple_refuted"
   ],
   "note": "Proved for strings and for trees of strings, with an array, none or a list of learnable arrays, all batches and all sizes. Not so for tuple parameters, scalar first operands, repeated output indices and fewer subscripts than arrays: the _refuted theorems."
  },
  {
   "property": "C63",
   "status": "partial",
   "theorems": [
    "Verif.Props.C63_matmul",
    "Verif.Props.C63_compile",
    "Verif.Props.C63_transposed_refuted",
    "Verif.Props.C63_many_refuted",
    "Verif.Props.C63_none_last_refuted",
    "Verif.Props.C63_bare_refuted",
    "Verif.Props.C63_digit_keys_refuted"
   ],
   "note": "Proved for products of at most 25 factors (50 if the last is a vector), any tree, any path order without number keys. From 26 factors on the result is the transpose, from 52 on compiling fails, bare arrays cannot be ordered, output_shape (None, n) is refused for a last parameter, and number keys permute the factors: the _refuted theorems."
  },
  {
   "property": "C64",
   "status": "partial",
   "theorems": [
    "Verif.Props.C64_bias_array",
    "Verif.Props.C64_bias_tree",
    "Verif.Props.C64_bias_refused",
    "Verif.Props.C64_bias_fresh",
    "Verif.Props.C64_activation",
    "Verif.Props.C64_elementwise",
    "Verif.Props.C64_reduction_refuted",
    "Verif.Props.C64_prelu_single",
    "Verif.Props.C64_prelu_tree"
   ],
   "note": "Bias, PReLU and elementwise functions proved for all trees, including the refusal of wrong shapes. Functions offered as activations that are not elementwise break the declared shape: C64_reduction_refuted."
  },
  {
   "property": "C65",
   "status": "proved",
   "theorems": [
    "Verif.Props.C65_split_join",
    "Verif.Props.C65_join_split"
   ],
   "note": ""
  },
  {
   "property": "C66",
   "status": "partial",
   "theorems": [
    "Verif.Props.C66_monotone",
    "Verif.Props.C66_progress",
    "Verif.Props.C66_reset_refuted",
    "Verif.Props.C66_factory",
    "Verif.Props.C66_remaining",
    "Verif.Props.C66_end"
   ],
   "note": "Proved for every run of updates. A reset does not clear longer lines of the earlier run: C66_reset_refuted."
  },
  {
   "property": "C67",
   "status": "partial",
   "theorems": [
    "Verif.Props.C67_bin",
    "Verif.Props.C67_leafwise",
    "Verif.Props.C67_defined",
    "Verif.Props.C67_inverse",
    "Verif.Props.C67_unary",
    "Verif.Props.C67_named",
    "Verif.Props.C67_scalar",
    "Verif.Props.C67_mean_partial",
    "Verif.Props.C67_mean_shapes_refuted",
    "Verif.Props.C67_mean_empty"
   ],
   "note": "Elementwise operations, inverses and the mean of trees whose arrays have one common shape are proved. The mean of a tree with differently shaped arrays raises: C67_mean_shapes_refuted."
  },
  {
   "property": "C68",
   "status": "partial",
   "theorems": [
    "Verif.Props.C68_history_partial",
    "Verif.Props.C68_numpy_seed_refuted"
   ],
   "note": "Proved for Python integers, keys and None over all histories; NumPy integers are stored raw: C68_numpy_seed_refuted."
  },
  {
   "property": "C69",
   "status": "proved",
   "theorems": [
    "Verif.Props.C69_constant",
    "Verif.Props.C69_independent",
    "Verif.Props.C69_no_leaves"
   ],
   "note": ""
  },
  {
   "property": "C70",
   "status": "proved",
   "theorems": [
    "Verif.Props.C70_value",
    "Verif.Props.C70_call",
    "Verif.Props.C70_refused"
   ],
   "note": ""
  },
  {
   "property": "C71",
   "status": "partial",
   "theorems": [
    "Verif.Props.C71_grad_input_partial",
    "Verif.Props.C71_no_cross_terms",
    "Verif.Props.C71_grad_params_partial",
    "Verif.Props.C71_state_refuted",
    "Verif.Props.C71_leading_axis_refuted"
   ],
   "note": "Proved for models without state whose rows depend on their own sample only, and leaves with a leading axis. For models with state, or leaves whose samples have different leading axes, the gradient call does not do this: the _refuted theorems."
  },
  {
   "property": "C72",
   "status": "partial",
   "theorems": [
    "Verif.Props.C72_call",
    "Verif.Props.C72_grad",
    "Verif.Props.C72_contents",
    "Verif.Props.C72_touch_defect",
    "Verif.Props.C72_display_defect",
    "Verif.Props.C72_fixed_array_refuted"
   ],
   "note": "Proved for all histories in which contained modules are changed through the model only, the display arguments stay the same and module arrays are parameters or state. Otherwise the cached value is stale: the _defect and _refuted theorems."
  },
  {
   "property": "C73",
   "status": "partial",
   "theorems": [
    "Verif.Props.C73_succeeds_iff",
    "Verif.Props.C73_options",
    "Verif.Props.C73_casts",
    "Verif.Props.C73_rejected",
    "Verif.Props.C73_sequential",
    "Verif.Props.C73_idempotent",
    "Verif.Props.C73_round_trip",
    "Verif.Props.C73_unused_module_refuted",
    "Verif.Props.C73_integers_refuted"
   ],
   "note": "Everything stated is proved. A graph model with an unexecuted module that is not ready raises midway and leaves a mix of precisions, and integer arrays become floating point arrays: the _refuted theorems."
  },
  {
   "property": "C74",
   "status": "proved",
   "theorems": [
    "Verif.Props.C74_succeeds_iff",
    "Verif.Props.C74_casts",
    "Verif.Props.C74_warning_types",
    "Verif.Props.C74_astype"
   ],
   "note": ""
  },
  {
   "property": "C75",
   "status": "partial",
   "theorems": [
    "Verif.Props.C75_samples",
    "Verif.Props.C75_prediction",
    "Verif.Props.C75_ground_state",
    "Verif.Props.C75_top_state",
    "Verif.Props.C75_concave",
    "Verif.Props.C75_convex",
    "Verif.Props.C75_lipschitz",
    "Verif.Props.C75_gauge",
    "Verif.Props.C75_shape",
    "Verif.Props.C75_shape_none_refuted",
    "Verif.Props.C75_shape_single",
    "Verif.Props.C75_magnitude_refuted"
   ],
   "note": "Everything stated is proved for a given number of eigenvalues and orderings by value. With num_eig=None the declared shape is wrong, and with orderings by magnitude the prediction jumps: the _refuted theorems."
  },
  {
   "property": "C76",
   "status": "partial",
   "theorems": [
    "Verif.Props.C76_samples",
    "Verif.Props.C76_prediction",
    "Verif.Props.C76_gauge",
    "Verif.Props.C76_solver",
    "Verif.Props.C76_degenerate_refuted",
    "Verif.Props.C76_bias_ignored_refuted",
    "Verif.Props.C76_default"
   ],
   "note": "Everything stated is proved for separated eigenvalues. With degenerate eigenvalues the output depends on the eigensolver, and a given output bias b is ignored by the compiled model: the _refuted theorems."
  },
  {
   "property": "C77",
   "status": "partial",
   "theorems": [
    "Verif.C77_linear",
    "Verif.C77_linear_refuses",
    "Verif.C77_stale_refuted",
    "Verif.C77_keyerror_refuted",
    "Verif.C77_hyper",
    "Verif.C77_activation",
    "Verif.C77_activation_refuted",
    "Verif.C77_eigenvalue",
    "Verif.C77_failed_refuted"
   ],
   "note": "Proved for new input shapes and unchanged hyperparameters. Hyperparameters changed after a compilation for the same shape are ignored, a failed compilation cannot be repaired, a partial dictionary raises after changing the model, and an uncompiled layer loses its activation when saved: the _refuted theorems."
  },
  {
   "property": "C78",
   "status": "partial",
   "theorems": [
    "Verif.Props.C78_shape",
    "Verif.Props.C78_compiled",
    "Verif.Props.C78_refused",
    "Verif.Props.C78_elementwise",
    "Verif.Props.C78_per_sample",
    "Verif.Props.C78_batch_refuted",
    "Verif.Props.C78_zeros_refuted",
    "Verif.Props.C78_empty_refuted"
   ],
   "note": "Proved for functions whose result shapes depend on the shapes of the samples only, and data without None and empty tuples. Functions that take the batch apart, refuse zeros, or data with empty places: the _refuted theorems."
  },
  {
   "property": "C79",
   "status": "partial",
   "theorems": [
    "Verif.Props.C79_floor",
    "Verif.Props.C79_inf",
    "Verif.Props.C79_mad",
    "Verif.Props.C79_first",
    "Verif.Props.C79_order",
    "Verif.Props.C79_constant_refuted",
    "Verif.Props.C79_weights_refuted",
    "Verif.Props.C79_weighted_median_refuted"
   ],
   "note": "The floor, which statistic is used (C79_first) and the constant case are proved for data without measurement uncertainties. One constant component switches off the sensitivity of all components, and with measurement uncertainties the call raises for every output that is not a scalar and the weighted median sorts by the weights: the _refuted theorems."
  },
  {
   "property": "C80",
   "status": "partial",
   "theorems": [
    "Verif.C80_parameters",
    "Verif.C80_nonneg",
    "Verif.C80_unselected",
    "Verif.C80_shapes_refuted",
    "Verif.C80_empty_refuted",
    "Verif.C80_inputs",
    "Verif.C80_uncertainty_refuted",
    "Verif.Props.C80_uncertain"
   ],
   "note": "Everything stated about the two sensitivities is proved for given gradients and outputs of one shape, with input uncertainties if they are the same for all samples (C80_uncertain). Outputs of different shapes raise, a selection without entries divides by zero, and input uncertainties given per sample are added for all samples at once, which gives a wrong shape or a type error: the _refuted theorems."
  },
  {
   "property": "C81",
   "status": "partial",
   "theorems": [
    "Verif.Props.C81_distance",
    "Verif.Props.C81_between",
    "Verif.Props.C81_unit",
    "Verif.Props.C81_order",
    "Verif.Props.C81_cutoff",
    "Verif.Props.C81_unseen_refuted",
    "Verif.Props.C81_constant_refuted",
    "Verif.Props.C81_vector_category_refuted"
   ],
   "note": "Distance, bounds, order and cutoff are proved for selected components that are not constant in the training data, categorical features of one component and categories that the training data has. An unseen category gets 1/2 instead of 1, a constant selected component makes calibration raise, and so do categories of several components unless their number fits; the refutations state this."
  },
  {
   "property": "C82",
   "status": "partial",
   "theorems": [
    "Verif.Props.C82_sum",
    "Verif.Props.C82_positive_refuted",
    "Verif.Props.C82_scalar_refuted",
    "Verif.Props.C82_matrix_refuted"
   ],
   "note": "The sum is proved for all trees of outputs of any shapes without distances, and with distances for outputs with one axis. The distances are added as a column: with a scalar output the heuristic is a square array, outputs with two axes raise or mix samples, and the heuristic is zero where all used normalisations are infinite; the refutations state this."
  },
  {
   "property": "C83",
   "status": "partial",
   "theorems": [
    "Verif.Props.C83_memory",
    "Verif.Props.C83_file",
    "Verif.Props.C83_disk",
    "Verif.Props.C83_attributes",
    "Verif.Props.C83_again",
    "Verif.Props.C83_version",
    "Verif.Props.C83_assigned",
    "Verif.Props.C83_calibrate",
    "Verif.Props.C83_name_refuted",
    "Verif.Props.C83_filename_refuted",
    "Verif.Props.C83_failed_refuted",
    "Verif.Props.C83_separate",
    "Verif.Props.C83_shared_refuted",
    "Verif.Props.C83_stale_refuted"
   ],
   "note": "The round trip, independence of original and loaded model, versions and the effect of calibration are proved for wrappers that are new or whose last calibration succeeded, given that the wrapped model and the encoder can be restored (C39, C42). After a failed calibration the file may not load or load to another tree, the name comes back as an array, a file name without ending is written but not found, and a copy made in memory shares its quantiles: the _refuted theorems."
  },
  {
   "property": "C84",
   "status": "partial",
   "theorems": [
    "Verif.Props.C84_success",
    "Verif.Props.C84_effect",
    "Verif.Props.C84_set_get",
    "Verif.Props.C84_get_set",
    "Verif.Props.C84_mismatch",
    "Verif.Props.C84_state",
    "Verif.Props.C84_place",
    "Verif.Props.C84_atomic_refuted",
    "Verif.Props.C84_shared_refuted",
    "Verif.Props.C84_library",
    "Verif.Props.C84_library_again",
    "Verif.Props.C84_ignored_refuted",
    "Verif.Props.C84_uncompiled_refuted"
   ],
   "note": "Effect, success, refusal of a wrong structure and both round trips are proved for distinct module objects. A call refused by a module leaves earlier modules changed, an object in two places keeps the values of the last, values for modules without parameters vanish, and an uncompiled module refuses its own None: the _refuted theorems."
  },
  {
   "property": "C85",
   "status": "partial",
   "theorems": [
    "Verif.Props.C85_flags",
    "Verif.Props.C85_frozen",
    "Verif.Props.C85_returns",
    "Verif.Props.C85_resume_first",
    "Verif.Props.C85_resume_ignores",
    "Verif.Props.C85_freeze",
    "Verif.Props.C85_freeze_all",
    "Verif.Props.C85_nested_refuted",
    "Verif.Props.C85_resume_refuted",
    "Verif.Props.C85_library"
   ],
   "note": "Proved for modules at the outermost level, distinct module objects that keep what is set (the library's do: C85_library), a callback that leaves frozen parameters alone, and, with resume, stored optimiser states that belong to the parameters. A frozen module of a model inside a model is trained if another module of the inner model is not frozen, and resuming throws away parameters that were set after the last training: the _refuted theorems."
  },
  {
   "property": "C86",
   "status": "partial",
   "theorems": [
    "Verif.Props.C86_loss",
    "Verif.Props.C86_named",
    "Verif.Props.C86_default_validation",
    "Verif.Props.C86_validation",
    "Verif.Props.C86_validation_refuted",
    "Verif.Props.C86_validation_unc_refuted",
    "Verif.Props.C86_unc_without_targets"
   ],
   "note": "Proved for the training loss, the default validation loss and validation losses given with validation features and with validation uncertainties only if training has them. A validation loss function without validation data, or with validation uncertainties that training does not have, is wrapped for other arguments than it is called with, and every evaluation raises a TypeError: the _refuted theorems. Named losses that do not fit the data raise when they are called, not before."
  },
  {
   "property": "C87",
   "status": "partial",
   "theorems": [
    "Verif.Props.C87_prelu_works",
    "Verif.Props.C87_prelu_compile",
    "Verif.Props.C87_prelu_set",
    "Verif.Props.C87_prelu_set_before_refuted",
    "Verif.Props.C87_const_declared",
    "Verif.Props.C87_const_fresh",
    "Verif.Props.C87_const_kept",
    "Verif.Props.C87_const_hyper_refuted",
    "Verif.Props.C87_const_params_refuted"
   ],
   "note": "Proved for histories in which the parameters of a constant are set to arrays of the declared shapes. Slopes that are set before the first compile are replaced by random ones; a constant set as hyperparameter, as documented, declares no output shape; set_params of a constant takes any shape and leaves the declared one: the _refuted theorems."
  },
  {
   "property": "C88",
   "status": "partial",
   "theorems": [
    "Verif.Props.C88_compiles_iff",
    "Verif.Props.C88_compiled",
    "Verif.Props.C88_recompile",
    "Verif.Props.C88_no_output_size_refuted",
    "Verif.Props.C88_partial_refuted"
   ],
   "note": "The equivalence, the compiled modules and recompiling are proved. If the number of outputs is read off the given observables, get_output_shape raises although the model compiles; a compile that is refused while making the observables leaves a model without them, which compiles for the old shape: the _refuted theorems."
  },
  {
   "property": "C89",
   "status": "partial",
   "theorems": [
    "Verif.Props.C89_call",
    "Verif.Props.C89_takes",
    "Verif.Props.C89_activation_refuted",
    "Verif.Props.C89_bias_refuted",
    "Verif.Props.C89_layers_refuted",
    "Verif.Props.C89_structure_refuted"
   ],
   "note": "Proved as long as the hyperparameters and the structure of the data stay. compile does not throw the kept function away: after a call, a changed activation is ignored, a bias that is switched on or off makes every call raise, and so does data of another structure, although compile succeeds: the _refuted theorems."
  },
  {
   "property": "C90",
   "status": "partial",
   "theorems": [
    "Verif.Props.C90_equal",
    "Verif.Props.C90_symmetric",
    "Verif.Props.C90_reflexive",
    "Verif.Props.C90_numpy_refuted",
    "Verif.Props.C90_verify",
    "Verif.Props.C90_scalar_refuted",
    "Verif.Props.C90_numpy",
    "Verif.Props.C90_close",
    "Verif.Props.C90_close_broadcast_refuted",
    "Verif.Props.C90_close_raises_refuted",
    "Verif.Props.C90_close_order_refuted"
   ],
   "note": "Proved for trees of JAX arrays and other objects. NumPy arrays with several entries raise; a model compiled for one number per sample takes data without arrays; all_close broadcasts arrays of different shapes, raises for shapes that do not fit and depends on the order of its arguments: the _refuted theorems."
  },
  {
   "property": "C91",
   "status": "partial",
   "theorems": [
    "Verif.Props.C91_accepts",
    "Verif.Props.C91_ragged_refuted",
    "Verif.Props.C91_training_ragged_refuted",
    "Verif.Props.C91_uncertainty_refuted",
    "Verif.Props.C91_none_refuted"
   ],
   "note": "Acceptance is characterised exactly, for shapes without None and empty tuples. Without targets the numbers of samples are not compared and uncertainties of targets are ignored; those of the training data are never compared; None among the inputs makes the next step raise: the _refuted theorems."
  },
  {
   "property": "C92",
   "status": "partial",
   "theorems": [
    "Verif.Props.C92_stops",
    "Verif.Props.C92_undisturbed",
    "Verif.Props.C92_fresh",
    "Verif.Props.C92_second_refuted",
    "Verif.Props.C92_after_refuted",
    "Verif.Props.C92_quiet",
    "Verif.Props.C92_quiet_refuted",
    "Verif.Props.C92_aborted"
   ],
   "note": "Proved: the training ends as if only the complete epochs had been asked for, whatever follows the first signal; without signals nothing changes; the next verbose training starts afresh. Refuted: the handlers are switched off before the first epoch, so a second signal has no effect; they are never removed, so signals are swallowed for the rest of the process, also by later trainings that are not verbose."
  },
  {
   "property": "C93",
   "status": "partial",
   "theorems": [
    "Verif.Props.C93_sequential",
    "Verif.Props.C93_nonsequential",
    "Verif.Props.C93_sequential_compiled",
    "Verif.Props.C93_nonsequential_compiled",
    "Verif.Props.C93_library",
    "Verif.Props.C93_matmul",
    "Verif.Props.C93_linear",
    "Verif.Props.C93_rows",
    "Verif.Props.C93_activation",
    "Verif.Props.C93_bias_array",
    "Verif.Props.C93_bias_unchecked_refuted",
    "Verif.Props.C93_bias_tree",
    "Verif.Props.C93_prelu",
    "Verif.Props.C93_reshape",
    "Verif.Props.C93_constant",
    "Verif.Props.C93_treeflatten",
    "Verif.Props.C93_treekey",
    "Verif.Props.C93_concatenate",
    "Verif.Props.C93_concatenate_refuted",
    "Verif.Props.C93_amax_refuted",
    "Verif.Props.C93_tensor",
    "Verif.Props.C93_einsum",
    "Verif.Props.C93_hermitian",
    "Verif.Props.C93_low_rank",
    "Verif.Props.C93_eigenvalues",
    "Verif.Props.C93_eigenvectors",
    "Verif.Props.C93_eigensystem",
    "Verif.Props.C93_expectation",
    "Verif.Props.C93_amplitude",
    "Verif.Props.C93_eigenvalue_pmm",
    "Verif.Props.C93_observable_pmm"
   ],
   "note": "Proved module by module (elementwise activations, Bias, PReLU, Reshape and Flatten, Constant, TreeFlatten, TreeKey, ConcatenateLeaves along an axis of the sample, AffineTensor, Einsum, MatMul, LinearNN, the matrix, eigenvalue, eigenvector and observable modules and both parametric matrix models; Eigensystem where it returns) and for sequences and models with connections of such modules. Refuted: Bias called on data of another shape than it was compiled for can broadcast along the batch axis, ConcatenateLeaves with axis=-1 on scalars joins samples, and activations over the whole array (AMax) mix samples."
  },
  {
   "property": "C94",
   "status": "partial",
   "theorems": [
    "Verif.Props.C94_grouping",
    "Verif.Props.C94_shape",
    "Verif.Props.C94_scalar_refuted",
    "Verif.Props.C94_samplewise",
    "Verif.Props.C94_state",
    "Verif.Props.C94_library"
   ],
   "note": "Proved for results, states, exceptions and samples at any depth (C94_grouping, C94_samplewise, C94_state, C94_library). For announced shapes one direction holds (C94_shape); the other is refuted: a model with one number per sample cannot be nested, because its output shape () is rejected (C94_scalar_refuted)."
  },
  {
   "property": "C95",
   "status": "partial",
   "theorems": [
    "Verif.Props.C95_saved",
    "Verif.Props.C95_file_partial",
    "Verif.Props.C95_file_refuted",
    "Verif.Props.C95_activation",
    "Verif.Props.C95_incomplete",
    "Verif.Props.C95_uncompiled_activation_refuted",
    "Verif.Props.C95_matrices_refuted",
    "Verif.Props.C95_type_refuted"
   ],
   "note": "Proved for the data of serialize (C95_saved, C95_activation), for files of LinearNN (C95_file_partial) and for incomplete data (C95_incomplete). Refuted: the two PMMs keep their modules in a tuple, so a file of a compiled PMM cannot be loaded (C95_file_refuted); a LinearNN saved before compile loses its activation, a PMM its given matrices; a hyperparameter of an unwritable type is dropped silently and the data cannot be read."
  },
  {
   "property": "C96",
   "status": "partial",
   "theorems": [
    "Verif.Props.C96_content",
    "Verif.Props.C96_faithful",
    "Verif.Props.C96_model",
    "Verif.Props.C96_connections",
    "Verif.Props.C96_width_partial",
    "Verif.Props.C96_width_refuted",
    "Verif.Props.C96_indentation_partial",
    "Verif.Props.C96_indentation_refuted",
    "Verif.Props.C96_module"
   ],
   "note": "Proved for content, faithfulness, connections and the line of a module (C96_content, C96_faithful, C96_model, C96_connections, C96_module). Indentation is right for one level (C96_indentation_partial) and wrong for more, where it is applied again at every level (C96_indentation_refuted); the limit holds from 3 characters on (C96_width_partial) and fails below (C96_width_refuted)."
  },
  {
   "property": "C97",
   "status": "partial",
   "theorems": [
    "Verif.Props.C97_true",
    "Verif.Props.C97_listed",
    "Verif.Props.C97_sequential",
    "Verif.Props.C97_call",
    "Verif.Props.C97_graph_partial",
    "Verif.Props.C97_graph_cause_refuted"
   ],
   "note": "Truth and completeness of the reason are proved for every state, that it is never unknown for every state of sequential models and every history of graph models. Refuted: graph models list modules that are never executed, or the lack of modules, although they become ready without them (C97_graph_cause_refuted)."
  },
  {
   "property": "C98",
   "status": "partial",
   "theorems": [
    "Verif.Props.C98_compile",
    "Verif.Props.C98_library",
    "Verif.Props.C98_model",
    "Verif.Props.C98_calls",
    "Verif.Props.C98_graph_key",
    "Verif.Props.C98_graph_calls_refuted",
    "Verif.Props.C98_training",
    "Verif.Props.C98_shuffle",
    "Verif.Props.C98_validation_refuted"
   ],
   "note": "Proved for compiling (all nestings, all modules of the library), for calls of nested sequential models, for the steps of training and for shuffling. Refuted: graph models hand all their modules the same key in a call (C98_graph_calls_refuted), and validation hands the model the key from which the keys of the following steps are made (C98_validation_refuted)."
  },
  {
   "property": "C99",
   "status": "partial",
   "theorems": [
    "Verif.Props.C99_constructible",
    "Verif.Props.C99_name_refuted",
    "Verif.Props.C99_keyword_refuted",
    "Verif.Props.C99_checked",
    "Verif.Props.C99_all_checked_partial",
    "Verif.Props.C99_inherited_refuted"
   ],
   "note": "Proved for constructors whose first parameter, and no other, is called self. Refuted: the check goes by the name self and not by the place (C99_name_refuted, C99_keyword_refuted), and methods inherited from an abstract class, such as those of Model, are not type-checked although the documentation promises it (C99_inherited_refuted); C99_all_checked_partial has the remaining case."
  },
  {
   "property": "C100",
   "status": "partial",
   "theorems": [
    "Verif.Props.C100_longer",
    "Verif.Props.C100_resume_partial",
    "Verif.Props.C100_lag_refuted",
    "Verif.Props.C100_resume_refuted",
    "Verif.Props.C100_adam_refuted"
   ],
   "note": "Longer trainings: proved (C100_longer). Resuming: proved if the counters of the returned optimiser states are advanced by hand (C100_resume_partial). The code returns the states from before the counters are advanced, in every training whose last epoch was its best (C100_lag_refuted), so a resumed training differs from an uninterrupted one (C100_resume_refuted, C100_adam_refuted)."
  },
  {
   "property": "C101",
   "status": "partial",
   "theorems": [
    "Verif.Props.C101_compiled_partial",
    "Verif.Props.C101_compiled",
    "Verif.Props.C101_low_rank_refuted",
    "Verif.Props.C101_observables_refuted",
    "Verif.Props.C101_constructors",
    "Verif.Props.C101_compiles",
    "Verif.Props.C101_compiles_observables",
    "Verif.Props.C101_refuses"
   ],
   "note": "Proved without conditions for AffineHermitianMatrix and AffineTensor (C101_compiled). C101_compiled_partial covers all classes: low-rank modules if the arrays set before compiling are for equally many matrices, observables if those set afterwards have the size of the data; set_params checks neither (C101_low_rank_refuted, C101_observables_refuted)."
  },
  {
   "property": "C102",
   "status": "partial",
   "theorems": [
    "Verif.Props.C102_exact",
    "Verif.Props.C102_tells_partial",
    "Verif.Props.C102_low_rank_refuted",
    "Verif.Props.C102_all_refuted",
    "Verif.Props.C102_labels"
   ],
   "note": "Which modules have the same name is characterised exactly (C102_exact), for constants with the default title and texts that can be told apart. The property holds for all classes (C102_tells_partial) except low-rank matrices, which have the name of full matrices and do not show their rank (C102_low_rank_refuted), and Eigensystem and Eigenvalues without num_eig, which print a piece of the program text instead of the selection (C102_all_refuted)."
  },
  {
   "property": "C103",
   "status": "partial",
   "theorems": [
    "Verif.Props.C103_same_result",
    "Verif.Props.C103_returns",
    "Verif.Props.C103_order",
    "Verif.Props.C103_shared_place_refuted"
   ],
   "note": "Proved when no two connections lead to the same place, or to a place inside another one (C103_same_result, C103_order); that the other model returns as well needs that places beside each other are all numbered or all named (C103_returns). Without these: connections to the same place are numbered in the order in which they are written (C103_shared_place_refuted), and named and numbered places are accepted in one order only (C19_slot_order_defect)."
  },
  {
   "property": "C104",
   "status": "proved",
   "theorems": [
    "Verif.Props.C104_order",
    "Verif.Props.C104_seed",
    "Verif.Props.C104_losses",
    "Verif.Props.C104_builtin"
   ],
   "note": "C104_order for gradients and losses that depend on the set of samples of a batch only; C104_builtin shows that those of the built-in losses do, for models that predict sample by sample. In exact arithmetic: sums of floating point numbers depend on the order."
  },
  {
   "property": "C105",
   "status": "partial",
   "theorems": [
    "Verif.Props.C105_same",
    "Verif.Props.C105_events",
    "Verif.Props.C105_lines",
    "Verif.Props.C105_summary_refuted",
    "Verif.Props.C105_none_refuted"
   ],
   "note": "C105_same, C105_events and C105_lines hold for all runs. The number of the best epoch in the summary is refuted: epochs are shown from 1, the summary counts from 0 (C105_summary_refuted), and a training in which nothing was better than the start also says 0 (C105_none_refuted)."
  },
  {
   "property": "C106",
   "status": "proved",
   "theorems": [
    "Verif.Props.C106_get",
    "Verif.Props.C106_get_error",
    "Verif.Props.C106_get_key",
    "Verif.Props.C106_set_ok",
    "Verif.Props.C106_set_frame",
    "Verif.Props.C106_get_slice",
    "Verif.Props.C106_set_slice",
    "Verif.Props.C106_slice"
   ],
   "note": "For slices without a step; a module in the tree is taken to have no items of its own (nested models do)."
  },
  {
   "property": "C107",
   "status": "partial",
   "theorems": [
    "Verif.Props.C107_epochs",
    "Verif.Props.C107_agree",
    "Verif.Props.C107_adam",
    "Verif.Props.C107_number",
    "Verif.Props.C107_given",
    "Verif.Props.C107_complex_batches",
    "Verif.Props.C107_complex_adam",
    "Verif.Props.C107_complex_refuted"
   ],
   "note": "Holds for the real optimiser (C107_epochs, C107_agree, C107_adam); C107_given says which rates that are. Refuted for the complex one (C107_complex_refuted), which takes the next rate with every batch and skips one per epoch (C107_complex_batches)."
  },
  {
   "property": "C108",
   "status": "proved",
   "theorems": [
    "Verif.Props.C108_call",
    "Verif.Props.C108_file",
    "Verif.Props.C108_rounds",
    "Verif.Props.C108_connections",
    "Verif.Props.C108_graph"
   ],
   "note": "C108_call: the restored object; C108_file: through the file; C108_rounds: any number of times. What a module computes is a function of its attributes (parameter); identifiers drawn by uuid are the same function of their place (their choice does not matter, C103); one call, not split into batches."
  },
  {
   "property": "C109",
   "status": "partial",
   "theorems": [
    "Verif.Props.C109_affine_hermitian",
    "Verif.Props.C109_affine_tensor",
    "Verif.Props.C109_observables",
    "Verif.Props.C109_observables_refuted",
    "Verif.Props.C109_low_rank",
    "Verif.Props.C109_prelu",
    "Verif.Props.C109_prelu_single",
    "Verif.Props.C109_bias",
    "Verif.Props.C109_bias_refuted",
    "Verif.Props.C109_unchecked_refuted"
   ],
   "note": "Holds for AffineHermitianMatrix (which also asks for Hermitian arrays), AffineTensor, LowRankAffineHermitianMatrix and PReLU. False for ExpectationValueSum and TransitionAmplitudeSum, which take observables of any matrix size (C109_observables_refuted), for Bias, which only compares the structure (C109_bias_refuted), and for Constant, Einsum and MatMul, which take anything (C109_unchecked_refuted). What Bias and the observables do take is proved (C109_bias, C109_observables)."
  },
  {
   "property": "C110",
   "status": "proved",
   "theorems": [
    "Verif.Props.C110_checkpoints",
    "Verif.Props.C110_lawful",
    "Verif.Props.C110_trained"
   ],
   "note": "For models that are ready and whose modules come back from a file (C39, Storable); the prebuilt classes are not covered (C95). training.train is arbitrary except that it returns optimiser states with the structure of the flags, which C110_lawful derives from how it puts them together. C110_trained says what training is given and what the model holds afterwards; that the returned state is held is not stated, library modules have none."
  },
  {
   "property": "C111",
   "status": "partial",
   "theorems": [
    "Verif.Props.C111_standard",
    "Verif.Props.C111_standard_back",
    "Verif.Props.C111_minmax",
    "Verif.Props.C111_minmax_back",
    "Verif.Props.C111_robust_partial",
    "Verif.Props.C111_robust_refuted"
   ],
   "note": "Proved for the standard scaler and, where both bounds are given, for the min-max scaler, forwards and backwards. The robust scaler violates it: eps is compared with a spread that has units (C111_robust_refuted); C111_robust_partial says what comes out in the one case that works with default settings (C45)."
  },
  {
   "property": "C112",
   "status": "proved",
   "theorems": [
    "Verif.Props.C112_run",
    "Verif.Props.C112_exactly",
    "Verif.Props.C112_each_sample_once"
   ],
   "note": "The description (Spec/TrainRun.lean) uses no function of the model; C112_exactly shows that it fixes the result. Gradients, losses, the update rule, permutations and key splitting are parameters."
  },
  {
   "property": "C113",
   "status": "proved",
   "theorems": [
    "Verif.Props.C113_same_result",
    "Verif.Props.C113_returns"
   ],
   "note": "For models in which no place is connected twice (numbered places are shared between the connections that lead there, so an additional one changes them) and modules that do not see the order of dictionary entries. C113_returns asks, like C103_returns, that places beside each other are all numbered or all named."
  },
  {
   "property": "C114",
   "status": "partial",
   "theorems": [
    "Verif.Props.C114_modules",
    "Verif.Props.C114_compiled",
    "Verif.Props.C114_rest_unchanged",
    "Verif.Props.C114_stays_hermitian",
    "Verif.Props.C114_stays_symmetric",
    "Verif.Props.C114_nearly_hermitian_refuted"
   ],
   "note": "Proved for exactly Hermitian (or symmetric real) matrices, assuming that JAX gives the partial derivatives of the loss (no differentiability is assumed) and that the callback does not write the array. Refuted for matrices given by the user that are Hermitian only within the tolerance of set_params (C114_nearly_hermitian_refuted): the tolerance is relative to the entries, which a training changes, so the trained matrices can be refused. Rounding is not modelled."
  },
  {
   "property": "C115",
   "status": "proved",
   "theorems": [
    "Verif.Props.C115_stratified",
    "Verif.Props.C115_stratified_units",
    "Verif.Props.C115_interval",
    "Verif.Props.C115_units"
   ],
   "note": "For a newly calibrated wrapper and one level, without corrections, with the global one (C115_interval, C115_units) and with stratified ones (C115_stratified, C115_stratified_units; for outputs of sample shape (1,), since the code refuses the others, see C53). Predictions and heuristic of the wrapped model enter as arrays; numbers are real numbers, infinite ones are treated like NaN."
  },
  {
   "property": "C116",
   "status": "partial",
   "theorems": [
    "Verif.Props.C116_append",
    "Verif.Props.C116_prefix",
    "Verif.Props.C116_transfer",
    "Verif.Props.C116_edit",
    "Verif.Props.C116_library",
    "Verif.Props.C116_dict_refuted",
    "Verif.Props.C116_graph_refuted"
   ],
   "note": "Proved for sequential models (C116_append, C116_prefix, C116_transfer, C116_edit, C116_library). Refuted for dictionaries, where a new name that comes earlier in the alphabet moves the others (C116_dict_refuted), and for graphs, where a module beside the others moves them in the order of execution (C116_graph_refuted)."
  },
  {
   "property": "C117",
   "status": "partial",
   "theorems": [
    "Verif.Props.C117_bias",
    "Verif.Props.C117_reorder",
    "Verif.Props.C117_rescale",
    "Verif.Props.C117_energy",
    "Verif.Props.C117_smoothing_refuted"
   ],
   "note": "Proved for eigenvalue and observable models: the bias as a feature with any smoothing (C117_bias), reordering and rescaling without smoothing (C117_reorder, C117_rescale); units and zero of the energy with smoothing, for orderings by value (C117_energy). With smoothing the order of the features matters, because the commutators change sign: C117_smoothing_refuted."
  },
  {
   "property": "C118",
   "status": "proved",
   "theorems": [
    "Verif.Props.C118_tensor",
    "Verif.Props.C118_low_rank",
    "Verif.Props.C118_single_state",
    "Verif.Props.C118_linear"
   ],
   "note": "Equality of results and of errors on data with at least one sample (C118_tensor); representability by low-rank modules as an equivalence (C118_low_rank); C118_single_state; C118_linear entry by entry."
  },
  {
   "property": "C119",
   "status": "proved",
   "theorems": [
    "Verif.Props.C119_call",
    "Verif.Props.C119_replace",
    "Verif.Props.C119_shape",
    "Verif.Props.C119_compile"
   ],
   "note": "Simulation between two models of different modules (C119_call), with replacement of modules as a special case (C119_replace); shapes (C119_shape) and compilation (C119_compile). For graphs with well-formed names."
  },
  {
   "property": "C120",
   "status": "proved",
   "theorems": [
    "Verif.Props.C120_step_real",
    "Verif.Props.C120_step_complex",
    "Verif.Props.C120_step_real_in_complex",
    "Verif.Props.C120_reachable",
    "Verif.Props.C120_momentum_can_climb"
   ],
   "note": "Proved about the whole training step with the real optimiser (C120_step_real), the complex one on complex arrays (C120_step_complex) and on real arrays (C120_step_real_in_complex); which states are met (C120_reachable). That the gradients are the derivatives is assumed of jax.value_and_grad. With momentum a later step may go uphill (C120_momentum_can_climb), as with every Adam."
  },
  {
   "property": "C121",
   "status": "proved",
   "theorems": [
    "Verif.Props.C121_gradient",
    "Verif.Props.C121_features",
    "Verif.Props.C121_matrices",
    "Verif.Props.C121_tangent",
    "Verif.Props.C121_crossing",
    "Verif.Props.C121_no_gradient"
   ],
   "note": "C121_gradient for any differentiable dependence of the matrix, C121_features and C121_matrices for the two most used ones, C121_tangent and C121_crossing for the smallest eigenvalue, C121_no_gradient where eigenvalues cross. About the exact function the modules compute; that jax.grad returns derivatives where they exist is assumed (as in C120). Selections by magnitude are not covered, as their order may change at a sign change."
  },
  {
   "property": "C122",
   "status": "proved",
   "theorems": [
    "Verif.Props.C122_larger",
    "Verif.Props.C122_ground",
    "Verif.Props.C122_envelope",
    "Verif.Props.C122_concave",
    "Verif.Props.C122_convex"
   ],
   "note": "C122_larger and C122_ground for larger matrices, C122_envelope for minima and maxima of affine functions, C122_concave and C122_convex (equivalences) for approximation. For models with a constant matrix and orderings by value. About which parameters exist, not about whether training finds them."
  },
  {
   "property": "C123",
   "status": "proved",
   "theorems": [
    "Verif.Props.C123_step_real",
    "Verif.Props.C123_step_complex",
    "Verif.Props.C123_reachable",
    "Verif.Props.C123_training_real",
    "Verif.Props.C123_training_complex",
    "Verif.Props.C123_default",
    "Verif.Props.C123_farther",
    "Verif.Props.C123_needs_b2"
   ],
   "note": "C123_step_real and C123_step_complex for one step, C123_training_real and C123_training_complex for whole trainings (with a callback that leaves the parameters alone), C123_reachable for the optimiser states, C123_default for the default coefficients, C123_farther and C123_needs_b2 for what the bound cannot be improved to. Over exact real arithmetic."
  },
  {
   "property": "C124",
   "status": "proved",
   "theorems": [
    "Verif.Props.C124_parameters",
    "Verif.Props.C124_training",
    "Verif.Props.C124_attained"
   ],
   "note": "C124_parameters for changed matrices with and without a constant one, C124_attained for the factor, C124_training for the predictions of the parameters a training keeps. Selections by value only."
  },
  {
   "property": "C125",
   "status": "proved",
   "theorems": [
    "Verif.Props.C125_either",
    "Verif.Props.C125_sum",
    "Verif.Props.C125_sign"
   ],
   "note": "C125_either (diagonal blocks), C125_sum (A x 1 + 1 x B) and C125_sign. For models with a constant matrix and orderings by value."
  },
  {
   "property": "C126",
   "status": "partial",
   "theorems": [
    "Verif.Props.C126_same",
    "Verif.Props.C126_real",
    "Verif.Props.C126_complex",
    "Verif.Props.C126_gradient",
    "Verif.Props.C126_eps_needed",
    "Verif.Props.C126_losses",
    "Verif.Props.C126_relative_refuted",
    "Verif.Props.C126_fit_loss",
    "Verif.Props.C126_energy"
   ],
   "note": "C126_same (any conversion of data, parameters, gradients and losses that the parts of a training respect), C126_real and C126_complex (loss and parameters multiplied), C126_gradient, C126_losses, C126_fit_loss and C126_energy (fits of eigenvalues). C126_eps_needed: eps has to be converted. C126_relative_refuted: the relative losses (mre, and likewise the others that add 1e-4 to a target) are not independent of the units."
  },
  {
   "property": "C127",
   "status": "proved",
   "theorems": [
    "Verif.Props.C127_gradient",
    "Verif.Props.C127_step",
    "Verif.Props.C127_training",
    "Verif.Props.C127_fresh",
    "Verif.Props.C127_predictions",
    "Verif.Props.C127_fit",
    "Verif.Props.C127_blocks",
    "Verif.Props.C127_real",
    "Verif.Props.C127_exchange"
   ],
   "note": "C127_gradient, C127_step and C127_training (any complex array and any loss with the symmetry), C127_fresh, C127_predictions, C127_fit, C127_blocks, C127_real, C127_exchange. Gradients are partial derivatives, 0 where there is none; at such points (degenerate predicted eigenvalues) the gradient of JAX may differ."
  },
  {
   "property": "C128",
   "status": "proved",
   "theorems": [
    "Verif.Props.C128_gradient",
    "Verif.Props.C128_step",
    "Verif.Props.C128_basis",
    "Verif.Props.C128_features",
    "Verif.Props.C128_rotation_matters"
   ],
   "note": "C128_gradient (any loss, no differentiability assumed), C128_step, C128_basis (any smoothing), C128_features (no smoothing; with smoothing predictions depend on the order, C117_smoothing_refuted), C128_rotation_matters (a rotation changes the result of a step). Gradients are partial derivatives, 0 where there is none."
  },
  {
   "property": "C129",
   "status": "proved",
   "theorems": [
    "Verif.Props.C129_loss",
    "Verif.Props.C129_gradient",
    "Verif.Props.C129_stationary",
    "Verif.Props.C129_first_step"
   ],
   "note": "C129_loss, C129_gradient, C129_stationary, C129_first_step (without smoothing, algebraic order of the eigenvalues). Gradients are those of the real function; that automatic differentiation gives them is assumed (FitsEigenvalues)."
  },
  {
   "property": "C130",
   "status": "proved",
   "theorems": [
    "Verif.Props.C130_continuous",
    "Verif.Props.C130_features",
    "Verif.Props.C130_jump"
   ],
   "note": "C130_continuous (any parametrisation), C130_features (no assumption on the norm), C130_jump (two levels crossing; holds for every solver). Selection by magnitude is not covered, as its order may change where signs change."
  },
  {
   "property": "C131",
   "status": "proved",
   "theorems": [
    "Verif.Props.C131_average",
    "Verif.Props.C131_mrd_average",
    "Verif.Props.C131_mean",
    "Verif.Props.C131_median"
   ],
   "note": "C131_average, C131_mean, C131_median. For mrd (training.py:1870-1890) C131_mrd_average: an average of an exact model and one with a loss below 2 has a loss above 10000, because predictions near the negative target make the divisor nearly zero."
  },
  {
   "property": "C132",
   "status": "partial",
   "theorems": [
    "Verif.Props.C132_softmax",
    "Verif.Props.C132_logSoftmax",
    "Verif.Props.C132_standardize",
    "Verif.Props.C132_samplewise",
    "Verif.Props.C132_glu_samplewise",
    "Verif.Props.C132_oneHot_samplewise",
    "Verif.Props.C132_scalar_refuted",
    "Verif.Props.C132_logSumExp",
    "Verif.Props.C132_shape_refuted",
    "Verif.Props.C132_extreme_refuted"
   ],
   "note": "C132_softmax, C132_logSoftmax, C132_standardize, C132_logSumExp, C132_samplewise, C132_glu_samplewise, C132_oneHot_samplewise. Refuted parts: for samples that are numbers the last axis is the batch, so samples influence each other (C132_scalar_refuted); LogSumExp, OneHot, GLU, AMax and AMin declare the shape of their input but give another (C132_shape_refuted, C132_extreme_refuted)."
  },
  {
   "property": "C133",
   "status": "proved",
   "theorems": [
    "Verif.Props.C133_restricted",
    "Verif.Props.C133_exact",
    "Verif.Props.C133_smoothing_matters",
    "Verif.Props.C133_features",
    "Verif.Props.C133_parameters",
    "Verif.Props.C133_sum"
   ],
   "note": "C133_restricted (Cauchy interlacing), C133_exact, C133_features, C133_parameters, C133_sum. C133_smoothing_matters: with smoothing a restriction can predict less than the full model, so the first two statements need a model without."
  },
  {
   "property": "C134",
   "status": "proved",
   "theorems": [
    "Verif.Props.C134_all_states",
    "Verif.Props.C134_bounds",
    "Verif.Props.C134_linear"
   ],
   "note": "C134_all_states, C134_bounds, C134_linear."
  },
  {
   "property": "C135",
   "status": "proved",
   "theorems": [
    "Verif.Props.C135_network",
    "Verif.Props.C135_lipschitz",
    "Verif.Props.C135_monotone",
    "Verif.Props.C135_range",
    "Verif.Props.C135_collapse",
    "Verif.Props.C135_hidden"
   ],
   "note": "C135_network (refinement of the compiled model), C135_lipschitz, C135_monotone, C135_range, C135_collapse, C135_hidden."
  },
  {
   "property": "C136",
   "status": "proved",
   "theorems": [
    "Verif.Props.C136_range",
    "Verif.Props.C136_homogeneous",
    "Verif.Props.C136_monotone",
    "Verif.Props.C136_lipschitz",
    "Verif.Props.C136_lists",
    "Verif.Props.C136_derivative",
    "Verif.Props.C136_fixed",
    "Verif.Props.C136_negative"
   ],
   "note": "C136_range, C136_monotone, C136_lipschitz, C136_homogeneous, C136_fixed, C136_negative, C136_lists, C136_derivative, for the formulas that JAX documents, over the real numbers."
  },
  {
   "property": "C137",
   "status": "proved",
   "theorems": [
    "Verif.Props.C137_complex",
    "Verif.Props.C137_real",
    "Verif.Props.C137_momentum",
    "Verif.Props.C137_observables"
   ],
   "note": "C137_complex, C137_real, C137_observables; C137_momentum shows that the optimiser has to be new."
  },
  {
   "property": "C138",
   "status": "proved",
   "theorems": [
    "Verif.Props.C138_real",
    "Verif.Props.C138_complex",
    "Verif.Props.C138_units"
   ],
   "note": "C138_real and C138_complex (any arrays and any loss with the symmetry), C138_units. Gradients are partial derivatives, 0 where there is none; at such points (an input of a ReLU that is exactly 0) the gradient of JAX may differ."
  },
  {
   "property": "C139",
   "status": "proved",
   "theorems": [
    "Verif.Props.C139_inactive"
   ],
   "note": "C139_inactive, for the first hidden layer. Gradients are partial derivatives, 0 where there is none."
  },
  {
   "property": "C140",
   "status": "partial",
   "theorems": [
    "Verif.Props.C140_scale",
    "Verif.Props.C140_shift",
    "Verif.Props.C140_units",
    "Verif.Props.C140_any_units_refuted",
    "Verif.Props.C140_sensitivity"
   ],
   "note": "Proved if the median absolute deviations of all components are at least 1e-12 in both units (C140_units), and in general if the floor is converted too (C140_scale). The floor is a fixed number: in large enough units every sensitivity is divided by infinity and vanishes (C140_any_units_refuted)."
  },
  {
   "property": "C141",
   "status": "proved",
   "theorems": [
    "Verif.Props.C141_distances",
    "Verif.Props.C141_cutoff",
    "Verif.Props.C141_inputs",
    "Verif.Props.C141_parameters"
   ],
   "note": "C141_inputs, C141_parameters, C141_distances and C141_cutoff. Derivatives are given arrays, related by the factors of the units as the chain rule has it."
  },
  {
   "property": "C142",
   "status": "proved",
   "theorems": [
    "Verif.Props.C142_continuous_activations",
    "Verif.Props.C142_continuous",
    "Verif.Props.C142_parameters",
    "Verif.Props.C142_training",
    "Verif.Props.C142_bound_needed",
    "Verif.Props.C142_activations",
    "Verif.Props.C142_library"
   ],
   "note": "C142_parameters, C142_bound_needed, C142_activations, C142_library, C142_continuous_activations, C142_continuous and C142_training. The training theorem is about networks whose layers all have biases (parameters of layers without biases have other positions); the constant exists and is not given in closed form in the statement."
  },
  {
   "property": "C143",
   "status": "proved",
   "theorems": [
    "Verif.Props.C143_features",
    "Verif.Props.C143_outputs",
    "Verif.Props.C143_unbiased"
   ],
   "note": "C143_features, C143_outputs and C143_unbiased, for the predictions of compiled sequential models of LinearNN modules whose parameters are set."
  },
  {
   "property": "C144",
   "status": "proved",
   "theorems": [
    "Verif.Props.C144_beside",
    "Verif.Props.C144_sum",
    "Verif.Props.C144_wider",
    "Verif.Props.C144_deeper"
   ],
   "note": "C144_beside, C144_sum, C144_wider and C144_deeper, for the predictions of compiled sequential models of LinearNN modules whose parameters are set. The combined network has biases in the combined layers."
  },
  {
   "property": "C145",
   "status": "proved",
   "theorems": [
    "Verif.Props.C145_fit",
    "Verif.Props.C145_approximation",
    "Verif.Props.C145_limits",
    "Verif.Props.C145_universal",
    "Verif.Props.C145_universal_like",
    "Verif.Props.C145_universal_library",
    "Verif.Props.C145_universal_slopes",
    "Verif.Props.C145_universal_bends",
    "Verif.Props.C145_universal_waves",
    "Verif.Props.C145_squares",
    "Verif.Props.C145_universal_sigmoids",
    "Verif.Props.C145_universal_bounded"
   ],
   "note": "C145_fit, C145_universal (C145_approximation for one feature), C145_universal_like, C145_universal_library, C145_universal_waves, C145_universal_sigmoids, C145_universal_bounded, C145_universal_slopes, C145_universal_bends, C145_squares and C145_limits, for the predictions of compiled sequential models of LinearNN modules whose parameters are set, over the real numbers. That a training finds such a network is not claimed."
  },
  {
   "property": "C146",
   "status": "proved",
   "theorems": [
    "Verif.Props.C146_real",
    "Verif.Props.C146_complex",
    "Verif.Props.C146_exact",
    "Verif.Props.C146_batches_needed"
   ],
   "note": "C146_real, C146_complex and C146_exact (losses that are means of losses of samples), over the real and complex numbers, for gradients that are the derivatives of the loss (as in C138). At a point where the loss is not differentiable the derivative counts as zero; what JAX returns there is not modelled. That a minimum for all data that is none for the batches is left: C146_batches_needed."
  },
  {
   "property": "C147",
   "status": "proved",
   "theorems": [
    "Verif.Props.C147_activations",
    "Verif.Props.C147_convex",
    "Verif.Props.C147_weights_needed",
    "Verif.Props.C147_lists"
   ],
   "note": "C147_convex, C147_activations, C147_lists and C147_weights_needed, for the predictions of compiled sequential models of LinearNN modules whose parameters are set, over the real numbers."
  }
 ]
}