{
 "claims": [
  {
   "property": "C01",
   "status": "proved",
   "theorems": [
    "Brevitas.Props.C01_code_in_range",
    "Brevitas.Props.C01_decoupled_code_in_range",
    "Brevitas.Props.C01_number_of_codes",
    "Brevitas.Props.C01_all_codes_reached"
   ],
   "note": ""
  },
  {
   "property": "C02",
   "status": "proved",
   "theorems": [
    "Brevitas.Props.C02_on_grid",
    "Brevitas.Props.C02_decoupled_on_grid",
    "Brevitas.Props.C02_decoupled_eq"
   ],
   "note": ""
  },
  {
   "property": "C03",
   "status": "proved",
   "theorems": [
    "Brevitas.Props.C03_fixes_grid",
    "Brevitas.Props.C03_idempotent"
   ],
   "note": ""
  },
  {
   "property": "C04",
   "status": "proved",
   "theorems": [
    "Brevitas.Props.C04_closest",
    "Brevitas.Props.C04_half_step",
    "Brevitas.Props.C04_one_step"
   ],
   "note": ""
  },
  {
   "property": "C05",
   "status": "proved",
   "theorems": [
    "Brevitas.Props.C05_monotone"
   ],
   "note": ""
  },
  {
   "property": "C06",
   "status": "proved",
   "theorems": [
    "Brevitas.Props.C06_saturates_high",
    "Brevitas.Props.C06_saturates_low"
   ],
   "note": ""
  },
  {
   "property": "C07",
   "status": "proved",
   "theorems": [
    "Brevitas.Props.C07_zero_exact",
    "Brevitas.Props.C07_odd",
    "Brevitas.Props.C07_odd_needs_narrow",
    "Brevitas.Props.C07_dpu_not_odd"
   ],
   "note": ""
  },
  {
   "property": "C08",
   "status": "proved",
   "theorems": [
    "Brevitas.Props.C08_round",
    "Brevitas.Props.C08_floor",
    "Brevitas.Props.C08_ceil",
    "Brevitas.Props.C08_round_to_zero",
    "Brevitas.Props.C08_dpu",
    "Brevitas.Props.C08_binary_sign"
   ],
   "note": ""
  },
  {
   "property": "C09",
   "status": "proved",
   "theorems": [
    "Brevitas.Props.C09_clamp",
    "Brevitas.Props.C09_inplace_agrees",
    "Brevitas.Props.C09_torch_clamp_agrees",
    "Brevitas.Props.C09_unordered",
    "Brevitas.Props.C09_list",
    "Brevitas.Props.C09_clamp_min"
   ],
   "note": ""
  },
  {
   "property": "C10",
   "status": "proved",
   "theorems": [
    "Brevitas.Props.C10_narrow_half_step",
    "Brevitas.Props.C10_full_range_one_step",
    "Brevitas.Props.C10_unsigned_half_step",
    "Brevitas.Props.C10_scale_value",
    "Brevitas.Props.C10_full_range_clips",
    "Brevitas.Props.C10_average_statistic",
    "Brevitas.Props.C10_average_of_maxima"
   ],
   "note": "Narrow-range signed and unsigned: error at most half a step. Full-range signed (also a default elsewhere): the positive maximum is clipped by exactly one step, proved in C10_full_range_clips; C10_full_range_one_step gives the true bound."
  },
  {
   "property": "C11",
   "status": "partial",
   "theorems": [
    "Brevitas.Props.C11_stats_scaling_min",
    "Brevitas.Props.C11_dynamic_group_min",
    "Brevitas.Props.C11_parameter_scaling_partial",
    "Brevitas.Props.C11_parameter_below_min",
    "Brevitas.Props.C11_const_ignores_min",
    "Brevitas.Props.C11_log_fp_same_scale"
   ],
   "note": "Holds for statistics-based scales. Learned scales apply the minimum before abs and per restriction (partial); ConstScaling ignores its minimum and learned scales can go below it: C11_const_ignores_min, C11_parameter_below_min are negations."
  },
  {
   "property": "C12",
   "status": "partial",
   "theorems": [
    "Brevitas.Props.C12_threshold_power_of_two",
    "Brevitas.Props.C12_stats_scaling_partial",
    "Brevitas.Props.C12_stats_scaling_no_min",
    "Brevitas.Props.C12_ceil_smallest",
    "Brevitas.Props.C12_min_val_not_power_of_two",
    "Brevitas.Props.C12_per_channel_not_power_of_two",
    "Brevitas.Props.C12_parameter_scaling"
   ],
   "note": "Proved when the scale is not lifted by scaling_min_val. Negations: min value 1e-10 is not a power of two (all-zero tensors), per-channel fixed-point quantizer is configured with float scales."
  },
  {
   "property": "C13",
   "status": "partial",
   "theorems": [
    "Brevitas.Props.C13_zero_point_in_range",
    "Brevitas.Props.C13_covers_partial",
    "Brevitas.Props.C13_all_negative_fails"
   ],
   "note": "Covers every tensor whose range includes zero; C13_all_negative_fails shows clipping for all-negative tensors."
  },
  {
   "property": "C14",
   "status": "proved",
   "theorems": [
    "Brevitas.Props.C14_delay_counts",
    "Brevitas.Props.C14_no_delay"
   ],
   "note": ""
  },
  {
   "property": "C15",
   "status": "proved",
   "theorems": [
    "Brevitas.Props.C15_buffer_is_average",
    "Brevitas.Props.C15_collecting_scale",
    "Brevitas.Props.C15_value_from_first_steps",
    "Brevitas.Props.C15_statistics_never_read_again",
    "Brevitas.Props.C15_calibrated_forever",
    "Brevitas.Props.C15_zero_point"
   ],
   "note": ""
  },
  {
   "property": "C16",
   "status": "partial",
   "theorems": [
    "Brevitas.Props.C16_eval_keeps_state",
    "Brevitas.Props.C16_eval_calls_irrelevant",
    "Brevitas.Props.C16_local_loss_partial",
    "Brevitas.Props.C16_local_loss_transition_changes_state",
    "Brevitas.Props.C16_zero_point_keeps_state",
    "Brevitas.Props.C16_parameter_stats_local_loss"
   ],
   "note": "Eval calls never change state; local-loss calls do not outside the collection/learning transition, where the claim is false (C16_local_loss_transition_changes_state)."
  },
  {
   "property": "C17",
   "status": "partial",
   "theorems": [
    "Brevitas.Props.C17_round_trip_partial",
    "Brevitas.Props.C17_round_trip_learned",
    "Brevitas.Props.C17_uncalibrated_not_loadable",
    "Brevitas.Props.C17_zero_point_round_trip_partial",
    "Brevitas.Props.C17_parameter_stats_round_trip_partial"
   ],
   "note": "Proved for every history with at least one training call; C17_uncalibrated_not_loadable shows that a strict load of a never-calibrated module fails."
  },
  {
   "property": "C18",
   "status": "partial",
   "theorems": [
    "Brevitas.Props.C18_integral_and_above_min",
    "Brevitas.Props.C18_initial_value",
    "Brevitas.Props.C18_load_constant_partial",
    "Brevitas.Props.C18_load_below_min_mirrors"
   ],
   "note": "All forward claims proved; loading a constant width below the minimum is mirrored (C18_load_below_min_mirrors)."
  },
  {
   "property": "C19",
   "status": "partial",
   "theorems": [
    "Brevitas.Props.C19_in_bounds",
    "Brevitas.Props.C19_difference_partial",
    "Brevitas.Props.C19_overremoval_fails",
    "Brevitas.Props.C19_removal_positive",
    "Brevitas.Props.C19_not_integral"
   ],
   "note": "Bounds always hold; equality with the difference only when not more bits are removed than present (C19_overremoval_fails). Integrality fails because of the epsilon (C19_not_integral)."
  },
  {
   "property": "C20",
   "status": "proved",
   "theorems": [
    "Brevitas.Props.C20_no_overflow",
    "Brevitas.Props.C20_zero_channel_divides_by_zero",
    "Brevitas.Props.C20_zero_channel_with_min"
   ],
   "note": "Every partial sum (any order, any inputs in range) stays inside the accumulator. The all-zero channel divides by zero because the declared pre_scaling_min_val is not forwarded (C20_zero_channel_divides_by_zero)."
  },
  {
   "property": "C21",
   "status": "proved",
   "theorems": [
    "Brevitas.Props.C21_no_overflow"
   ],
   "note": ""
  },
  {
   "property": "C22",
   "status": "proved",
   "theorems": [
    "Brevitas.Props.C22_representable",
    "Brevitas.Props.C22_bounded",
    "Brevitas.Props.C22_all_values_reached"
   ],
   "note": "Every finite input, every shipped rounding function, every format."
  },
  {
   "property": "C23",
   "status": "partial",
   "theorems": [
    "Brevitas.Props.C23_idempotent_partial",
    "Brevitas.Props.C23_monotone_partial",
    "Brevitas.Props.C23_monotone_directed_partial",
    "Brevitas.Props.C23_floor_epsilon_not_monotone",
    "Brevitas.Props.C23_nearest_partial",
    "Brevitas.Props.C23_ties_to_even",
    "Brevitas.Props.C23_error_partial",
    "Brevitas.Props.C23_odd",
    "Brevitas.Props.C23_epsilon_irrelevant",
    "Brevitas.Props.C23_wide_format_not_nearest"
   ],
   "note": "Nearest, monotone, idempotent, error bound; ties go to the even mantissa (C23_ties_to_even). Partial: formats whose subnormal step is not above twice the epsilon (there it fails)."
  },
  {
   "property": "C24",
   "status": "partial",
   "theorems": [
    "Brevitas.Props.C24_saturating",
    "Brevitas.Props.C24_infinity_codes",
    "Brevitas.Props.C24_nan_codes",
    "Brevitas.Props.C24_no_codes_error",
    "Brevitas.Props.C24_unsigned_nonnegative_partial",
    "Brevitas.Props.C24_unsigned_returns_negative_infinity",
    "Brevitas.Props.C24_forward_finite",
    "Brevitas.Props.C24_in_range",
    "Brevitas.Props.C24_infinite_input_becomes_nan",
    "Brevitas.Props.C24_infinite_input_becomes_nan_any"
   ],
   "note": "FloatClamp policy proved for every extended input; the quantiser as a whole maps infinite inputs to NaN for every policy, and unsigned non-saturating formats with inf codes return -inf."
  },
  {
   "property": "C25",
   "status": "partial",
   "theorems": [
    "Brevitas.Props.C25_no_special_codes",
    "Brevitas.Props.C25_errors",
    "Brevitas.Props.C25_result_is_an_ordinary_code",
    "Brevitas.Props.C25_largest_ordinary_code_partial",
    "Brevitas.Props.C25_largest_iff",
    "Brevitas.Props.C25_gap_in_special_codes",
    "Brevitas.Props.C25_smallest_positive"
   ],
   "note": "Proved when the special mantissas are the topmost ones; false for lists with a gap (C25_gap_in_special_codes). Error cases characterised exactly."
  },
  {
   "property": "C26",
   "status": "proved",
   "theorems": [
    "Brevitas.Props.C26_binary",
    "Brevitas.Props.C26_clamped_binary",
    "Brevitas.Props.C26_clamped_binary_needs_positive_scale",
    "Brevitas.Props.C26_ternary",
    "Brevitas.Props.C26_idempotent",
    "Brevitas.Props.C26_ternary_large_threshold"
   ],
   "note": "Binary, clamped binary and ternary maps for every input; idempotence of the ternary map needs threshold < 1 (a counterexample is proved)."
  },
  {
   "property": "C27",
   "status": "partial",
   "theorems": [
    "Brevitas.Props.C27_truncation",
    "Brevitas.Props.C27_floor_is_shift",
    "Brevitas.Props.C27_fits_partial",
    "Brevitas.Props.C27_round_does_not_fit"
   ],
   "note": "Truncation divides by the power of two with the configured rounding for every input; fits the output width for floor-style rounding; round-to-nearest does not fit (proved)."
  },
  {
   "property": "C28",
   "status": "partial",
   "theorems": [
    "Brevitas.Props.C28_round_trip_partial",
    "Brevitas.Props.C28_is_valid_iff_partial",
    "Brevitas.Props.C28_int_close",
    "Brevitas.Props.C28_quantizer_output",
    "Brevitas.Props.C28_int_fits_dtype",
    "Brevitas.Props.C28_uint32_overflows",
    "Brevitas.Props.C28_constant_binary_rejected",
    "Brevitas.Props.C28_binary_accepts_any_two_values",
    "Brevitas.Props.C28_binary_is_valid_iff"
   ],
   "note": "Round trip, is_valid characterised exactly for two or more bits and for one bit; link to the integer quantiser's output. Failures proved for unsigned 32-bit integers and for one-bit tensors."
  },
  {
   "property": "C29",
   "status": "partial",
   "theorems": [
    "Brevitas.Props.C29_exact",
    "Brevitas.Props.C29_declared_bit_width",
    "Brevitas.Props.C29_enough_bits_iff",
    "Brevitas.Props.C29_valid_partial",
    "Brevitas.Props.C29_mixed_sign_overflows",
    "Brevitas.Props.C29_one_bit_overflows",
    "Brevitas.Props.C29_different_scales_rejected",
    "Brevitas.Props.C29_close_scales_not_exact",
    "Brevitas.Props.C29_add_scalar"
   ],
   "note": "Exactness for equal scales; enough-bits is an iff; failures proved for mixed signs, one-bit operands and close-but-different scales."
  },
  {
   "property": "C30",
   "status": "proved",
   "theorems": [
    "Brevitas.Props.C30_enough_bits",
    "Brevitas.Props.C30_exact_and_valid",
    "Brevitas.Props.C30_zero_point_rejected",
    "Brevitas.Props.C30_division_value",
    "Brevitas.Props.C30_division_codes",
    "Brevitas.Props.C30_division_not_valid"
   ],
   "note": "Division covered too: scale, zero point and code range (C30_division_codes), and the proved disagreement C30_division_not_valid."
  },
  {
   "property": "C31",
   "status": "partial",
   "theorems": [
    "Brevitas.Props.C31_neg_value_iff",
    "Brevitas.Props.C31_neg_partial",
    "Brevitas.Props.C31_neg_overflows",
    "Brevitas.Props.C31_neg_wrong_with_zero_point",
    "Brevitas.Props.C31_sub_partial",
    "Brevitas.Props.C31_sub_wrong_with_zero_point",
    "Brevitas.Props.C31_abs_partial",
    "Brevitas.Props.C31_abs_overflows",
    "Brevitas.Props.C31_abs_wrong_with_zero_point"
   ],
   "note": "Exact iff the zero point is 0 and no most negative code; failures proved."
  },
  {
   "property": "C32",
   "status": "partial",
   "theorems": [
    "Brevitas.Props.C32_cat",
    "Brevitas.Props.C32_mismatch_rejected_partial",
    "Brevitas.Props.C32_training_mismatch_accepted",
    "Brevitas.Props.C32_order_dependent"
   ],
   "note": "Inference mode proved; training-mode mismatch accepted is proved as a failure."
  },
  {
   "property": "C33",
   "status": "partial",
   "theorems": [
    "Brevitas.Props.C33_unsigned_iff",
    "Brevitas.Props.C33_signed",
    "Brevitas.Props.C33_unsigned_narrow_signed",
    "Brevitas.Props.C33_unsigned_signed_partial",
    "Brevitas.Props.C33_full_range_weights_overflow",
    "Brevitas.Props.C33_comm",
    "Brevitas.Props.C33_conv_is_linear",
    "Brevitas.Props.C33_conv_transpose_partial",
    "Brevitas.Props.C33_conv_transpose_overflows",
    "Brevitas.Props.C33_conv_transpose_2d_sums_taps",
    "Brevitas.Props.C33_avg_pool_partial",
    "Brevitas.Props.C33_avg_pool_signed_overflows",
    "Brevitas.Props.C33_hadamard_always_overflows"
   ],
   "note": "Exact iff for unsigned operands and for unsigned input with full-range signed weights; signed operands and narrow weights always hold; transposed convolutions (1-D) when channels allow; failures proved for full-range signed weights, transposed convolutions, signed average pooling and the Hadamard classifier (always)."
  },
  {
   "property": "C34",
   "status": "partial",
   "theorems": [
    "Brevitas.Props.C34_no_bias",
    "Brevitas.Props.C34_bias_as_zero_point",
    "Brevitas.Props.C34_bias_same_scale",
    "Brevitas.Props.C34_fits",
    "Brevitas.Props.C34_bias_fits_partial",
    "Brevitas.Props.C34_zero_point_gives_plain",
    "Brevitas.Props.C34_bias_sign_ignored",
    "Brevitas.Props.C34_rank3_bias_misplaced",
    "Brevitas.Props.C34_quantized_bias_end_to_end"
   ],
   "note": "Linear layer with per-channel weight scales: no bias, bias as zero point, same-scale bias, quantised bias end to end; zero points give the plain tensor. Failures proved: sign of the bias ignored, bias misplaced for 3-D inputs."
  },
  {
   "property": "C35",
   "status": "partial",
   "theorems": [
    "Brevitas.Props.C35_blocks",
    "Brevitas.Props.C35_static_agrees",
    "Brevitas.Props.C35_declared_shapes",
    "Brevitas.Props.C35_round_trip_padded",
    "Brevitas.Props.C35_round_trip",
    "Brevitas.Props.C35_padding_kept",
    "Brevitas.Props.C35_group_shares_scale",
    "Brevitas.Props.C35_last_dim_blocks",
    "Brevitas.Props.C35_last_dim_partial",
    "Brevitas.Props.C35_last_dim_groups_wrong",
    "Brevitas.Props.C35_from_expanded",
    "Brevitas.Props.C35_from_expanded_last_dim_rejected"
   ],
   "note": "Static and dynamic block views, padding, flattening, scaling shapes, the per-element group statistic and re-expansion are proved for tensors of every rank, shape and group size with a non-negative group dimension (weights, convolution activations). For group_dim = -1 (activations of linear layers) the code shares a scale among ceil(n/group_size) elements instead of group_size (C35_last_dim_blocks, C35_last_dim_groups_wrong); C35_last_dim_partial covers the only case where the two sizes coincide. Padding is never removed (C35_padding_kept)."
  },
  {
   "property": "C36",
   "status": "partial",
   "theorems": [
    "Brevitas.Props.C36_abs_percentile_defined_iff",
    "Brevitas.Props.C36_abs_percentile_partial",
    "Brevitas.Props.C36_full_percentile",
    "Brevitas.Props.C36_share_missed",
    "Brevitas.Props.C36_low_percentile",
    "Brevitas.Props.C36_interval"
   ],
   "note": "The index is rounded to nearest, so the covered share may be up to half an element short (C36_share_missed) and small shares of small tensors raise (C36_abs_percentile_defined_iff); the exact half-element bound is proved. Arithmetic is exact."
  },
  {
   "property": "C37",
   "status": "partial",
   "theorems": [
    "Brevitas.Props.C37_grid_best",
    "Brevitas.Props.C37_grid_not_worse_than_init",
    "Brevitas.Props.C37_fib_partial",
    "Brevitas.Props.C37_fib_not_best",
    "Brevitas.Props.C37_fib_few_iterations",
    "Brevitas.Props.C37_fib_unimodal"
   ],
   "note": "Grid search: best of all candidates and never worse than the initial statistic, for any loss and any number of channels. Default Fibonacci search: in range and best of the last pair for any loss; within (init - init/num)/F(num) of the optimum for single-valley losses without ties; it need not return the best candidate evaluated (C37_fib_not_best)."
  },
  {
   "property": "C38",
   "status": "proved",
   "theorems": [
    "Brevitas.Props.C38_learned_eval",
    "Brevitas.Props.C38_learned_training",
    "Brevitas.Props.C38_learned_init",
    "Brevitas.Props.C38_learned_default_floors",
    "Brevitas.Props.C38_stochastic",
    "Brevitas.Props.C38_stochastic_unbiased",
    "Brevitas.Props.C38_stochastic_eval",
    "Brevitas.Props.C38_stochastic_other"
   ],
   "note": "Learned rounding over the reals, both implementations and the initialization recipe; stochastic rounding for every draw, expectation over the Bernoulli draw."
  },
  {
   "property": "C39",
   "status": "partial",
   "theorems": [
    "Brevitas.Props.C39_hessian",
    "Brevitas.Props.C39_batching_irrelevant",
    "Brevitas.Props.C39_dead_feature",
    "Brevitas.Props.C39_rows_partial",
    "Brevitas.Props.C39_rows_four_dims_wrong"
   ],
   "note": "The accumulation itself is proved for every batch history. Partial because the reshape of linear inputs with four or more dimensions uses the sum of the trailing sizes (C39_rows_four_dims_wrong), so for those inputs the rows are not the layer inputs. Empty batches as first batch raise ZeroDivisionError (modelled as none). The rows made of convolution inputs are the subject of C119."
  },
  {
   "property": "C40",
   "status": "partial",
   "theorems": [
    "Brevitas.Props.C40_every_column_quantized",
    "Brevitas.Props.C40_columns",
    "Brevitas.Props.C40_block_size_partial",
    "Brevitas.Props.C40_fixed_point",
    "Brevitas.Props.C40_block_size_matters_for_dynamic_scale",
    "Brevitas.Props.C40_dynamic_scale_not_fixed_point",
    "Brevitas.Props.C40_compensation_optimal",
    "Brevitas.Props.C40_dead_columns",
    "Brevitas.Props.C40_abort",
    "Brevitas.Props.C40_update",
    "Brevitas.Props.C40_damping",
    "Brevitas.Props.C40_updates_are_stored",
    "Brevitas.Props.C40_transposed_convolution_update_lost"
   ],
   "note": "Any quantizer: every column ends with a value the quantizer produced and W - Q = E h. Partial: independence of the block count needs a quantizer with fixed scales; for scales recomputed from the weights (the default) it is false (C40_block_size_matters_for_dynamic_scale) and the stored weights are not fixed points of the quantizer. For transposed convolutions the update is lost because flattening copies. Cholesky is a parameter; groups are independent and modelled one at a time."
  },
  {
   "property": "C41",
   "status": "proved",
   "theorems": [
    "Brevitas.Props.C41_residual",
    "Brevitas.Props.C41_layer_output",
    "Brevitas.Props.C41_target_optimal",
    "Brevitas.Props.C41_error_bound",
    "Brevitas.Props.C41_v2_equivalent",
    "Brevitas.Props.C41_v2_damping_shrinks"
   ],
   "note": "Residual identity, least-squares optimality of each target, end-to-end output identity, error bound, and equivalence of the memory-efficient variant without damping. The damped variant (default 0.01) shrinks its targets (C41_v2_damping_shrinks). The choice of samples (random indices, unfold stride) is not modelled."
  },
  {
   "property": "C42",
   "status": "partial",
   "theorems": [
    "Brevitas.Props.C42_factors_positive",
    "Brevitas.Props.C42_consistent_rescaling",
    "Brevitas.Props.C42_sink_scaled_in_range",
    "Brevitas.Props.C42_size_mismatch_unchanged",
    "Brevitas.Props.C42_network_partial",
    "Brevitas.Props.C42_sum_with_constant_changed",
    "Brevitas.Props.C42_square_changed",
    "Brevitas.Props.C42_shared_layer_changed",
    "Brevitas.Props.C42_second_concatenation_changed",
    "Brevitas.Props.C42_concatenations_partial",
    "Brevitas.Props.C42_concatenation_positions",
    "Brevitas.Props.C42_sum_before_concatenation_changed",
    "Brevitas.Props.C42_sum_beside_concatenation_changed"
   ],
   "note": "Proved for every graph of the class Plain (chains, residual sums, activations, pooling, depthwise and dense layers, unary other ops) and, in C42_concatenations_partial, of the class Concats, which adds concatenations of any number of operands, with sums and branches around them and operands that cannot be equalised: for any number of iterations, threshold and options the pass never fails and every output is unchanged. C42_concatenation_positions says which channels each source gets. C42_consistent_rescaling covers any graph with any consistent labelling. The full claim is false of the code: C42_sum_with_constant_changed, C42_square_changed, C42_shared_layer_changed, C42_second_concatenation_changed, C42_sum_before_concatenation_changed, C42_sum_beside_concatenation_changed."
  },
  {
   "property": "C43",
   "status": "proved",
   "theorems": [
    "Brevitas.Props.C43_balanced",
    "Brevitas.Props.C43_any_exponent",
    "Brevitas.Props.C43_degenerate_channel",
    "Brevitas.Props.C43_second_step",
    "Brevitas.Props.C43_two_layers",
    "Brevitas.Props.C43_two_layers_with_bias"
   ],
   "note": "Any region of distinct layers, both statistics, any exponent; two-layer corollaries in terms of weights, with and without merged biases."
  },
  {
   "property": "C44",
   "status": "partial",
   "theorems": [
    "Brevitas.Props.C44_layer",
    "Brevitas.Props.C44_batch_norm",
    "Brevitas.Props.C44_graph_partial",
    "Brevitas.Props.C44_shared_layer_changed"
   ],
   "note": "Layer level in full (every layer kind, with or without bias, batch norm after batch norm). Graph level proved for graphs that call each module once; false otherwise (C44_shared_layer_changed)."
  },
  {
   "property": "C45",
   "status": "partial",
   "theorems": [
    "Brevitas.Props.C45_pair",
    "Brevitas.Props.C45_channel_counts",
    "Brevitas.Props.C45_network_partial",
    "Brevitas.Props.C45_network_split_input_partial",
    "Brevitas.Props.C45_largest_channels",
    "Brevitas.Props.C45_sum_with_constant_changed",
    "Brevitas.Props.C45_square_changed",
    "Brevitas.Props.C45_shared_layer_changed",
    "Brevitas.Props.C45_gate_mismatch",
    "Brevitas.Props.C45_concatenations_partial"
   ],
   "note": "Layer pairs with any split list and any homogeneous activations/poolings between them: proved in full (C45_pair). Whole-network pass (region search, cleaning, splitting) proved for networks without products, concatenations or shared layers (C45_network_partial), with constants in the default mode, and for networks with concatenations (C45_concatenations_partial): regions with a concatenation are dropped because their layers disagree on the number of channels. The code is wrong for sums with constants and squares when producing weights are halved, for shared layers, and for gates; negations proved."
  },
  {
   "property": "C46",
   "status": "partial",
   "theorems": [
    "Brevitas.Props.C46_collapse_partial",
    "Brevitas.Props.C46_collapse_terminates",
    "Brevitas.Props.C46_nested",
    "Brevitas.Props.C46_repeated_operand_changed",
    "Brevitas.Props.C46_shared_operand_changed",
    "Brevitas.Props.C46_move_partial",
    "Brevitas.Props.C46_move_repeated_partial",
    "Brevitas.Props.C46_move_eps_changed",
    "Brevitas.Props.C46_move_name_clash_changed"
   ],
   "note": "Collapsing: graphs where no concatenation is an operand more than once; negations for repeated and shared operands. Moving a batch norm before a concatenation: one edit and any number of edits, for batch norms with the default eps, called once, and fresh module names; negations for another eps and for a clash with an existing module name."
  },
  {
   "property": "C47",
   "status": "proved",
   "theorems": [
    "Brevitas.Props.C47_compute_mean",
    "Brevitas.Props.C47_bias",
    "Brevitas.Props.C47_disabled",
    "Brevitas.Props.C47_mean_matched",
    "Brevitas.Props.C47_no_accumulation",
    "Brevitas.Props.C47_uneven_batches",
    "Brevitas.Props.C47_linear_four_dims",
    "Brevitas.Props.C47_reused"
   ],
   "note": "For every sequence of calls of any layers: the bias after correction, channel means as computed by transposition and reshaping, and the consequence that the mean outputs match. Batches count alike whatever their size (C47_uneven_batches), linear outputs with four dimensions are corrected along the wrong one (C47_linear_four_dims), and a reused object is wrong (C47_reused)."
  },
  {
   "property": "C48",
   "status": "partial",
   "theorems": [
    "Brevitas.Props.C48_inside",
    "Brevitas.Props.C48_quantisation_enabled",
    "Brevitas.Props.C48_return_flags_restored",
    "Brevitas.Props.C48_training_flags",
    "Brevitas.Props.C48_collection_ended",
    "Brevitas.Props.C48_restored_partial",
    "Brevitas.Props.C48_disabled_lost",
    "Brevitas.Props.C48_frozen_lost",
    "Brevitas.Props.C48_not_enabled",
    "Brevitas.Props.C48_made_before_entering",
    "Brevitas.Props.C48_collectors_changed",
    "Brevitas.Props.C48_gptq_quant_activations",
    "Brevitas.Props.C48_gptq",
    "Brevitas.Props.C48_gptq_restored_partial",
    "Brevitas.Props.C48_gpfq_return_flags_lost",
    "Brevitas.Props.C48_gpfq_return_flags",
    "Brevitas.Props.C48_gpfq_enabled",
    "Brevitas.Props.C48_gpfq_training_flags_lost",
    "Brevitas.Props.C48_gpfq_restored_partial",
    "Brevitas.Props.C48_gpfq_raises"
   ],
   "note": "Model of calibration_mode, gptq_mode and gpfq_mode acting on training, disable_quant, observer_only and return_quant_tensor flags of an arbitrary module tree; the body of the with statement is an arbitrary state change (so exceptions in it are covered). Leaving calibration always enables every quantiser, restores return flags exactly and sets training flags of quantisers to the model's flag. Full restoration is _partial: it needs the usual entry state, because a quantiser disabled or frozen on entry is enabled or unfrozen (C48_disabled_lost, C48_frozen_lost), enabled=False still finalises and enables (C48_not_enabled), gpfq_mode without quantised activations loses the return flags of every layer (C48_gpfq_return_flags_lost, for every model), gpfq_mode leaves quantisers in evaluation mode, and an exception in its unquantised pass leaves them disabled."
  },
  {
   "property": "C49",
   "status": "partial",
   "theorems": [
    "Brevitas.Props.C49_act_partial",
    "Brevitas.Props.C49_act_within_one_step",
    "Brevitas.Props.C49_odd_zero_point_tie",
    "Brevitas.Props.C49_refused",
    "Brevitas.Props.C49_weight",
    "Brevitas.Props.C49_weight_of_quantizer",
    "Brevitas.Props.C49_weight_of_decoupled_quantizer",
    "Brevitas.Props.C49_bias",
    "Brevitas.Props.C49_bias_scale_changed",
    "Brevitas.Props.C49_inference",
    "Brevitas.Props.C49_inference_ignores_rounding",
    "Brevitas.Props.C49_dynamic_act_partial",
    "Brevitas.Props.C49_dynamic_act_all_negative",
    "Brevitas.Props.C49_axis",
    "Brevitas.Props.C49_axis_two_dims",
    "Brevitas.Props.C49_axis_lower_rank"
   ],
   "note": "Activations: exact for even (in particular zero) zero points or inputs that are not half-way; within one step in general; differs for odd zero points on half-way inputs (C49_odd_zero_point_tie). Weights and biases: exact for every rounding (biases: with the scale they were quantised with). Inference export: exact for round-to-nearest, ignores other roundings (C49_inference_ignores_rounding). Dynamic ONNX export: exact unless the tensor is all negative (C49_dynamic_act_all_negative). Per-channel axis: exact for one non-singleton dimension at equal rank."
  },
  {
   "property": "C50",
   "status": "partial",
   "theorems": [
    "Brevitas.Props.C50_trunc_partial",
    "Brevitas.Props.C50_trunc_saturates",
    "Brevitas.Props.C50_overflow_clipped",
    "Brevitas.Props.C50_zero_point_differs",
    "Brevitas.Props.C50_wide_output_saturates",
    "Brevitas.Props.C50_refused"
   ],
   "note": "Exact for rounding truncation with zero zero point when the rounded code fits in at most 8 output bits; the export differs from the layer on overflow, non-zero zero points and outputs wider than 8 bits (C50_overflow_clipped, C50_zero_point_differs, C50_wide_output_saturates)."
  },
  {
   "property": "C51",
   "status": "partial",
   "theorems": [
    "Brevitas.Props.C51_adaptive_to_avg",
    "Brevitas.Props.C51_rewritten_iff",
    "Brevitas.Props.C51_every_call",
    "Brevitas.Props.C51_two_sizes_refused",
    "Brevitas.Props.C51_avg_to_conv",
    "Brevitas.Props.C51_conv_weight_exact",
    "Brevitas.Props.C51_count_include_pad_ignored",
    "Brevitas.Props.C51_ceil_mode_ignored",
    "Brevitas.Props.C51_divisor_override_ignored",
    "Brevitas.Props.C51_trunc_avg_pool",
    "Brevitas.Props.C51_trunc_adaptive_partial",
    "Brevitas.Props.C51_trunc_adaptive_uneven"
   ],
   "note": "Rewriting an adaptive pool is exact when it is rewritten; the average-pool-to-convolution rewrite is exact only with default flags (C51_count_include_pad_ignored, C51_ceil_mode_ignored, C51_divisor_override_ignored); truncated adaptive pooling differs from adaptive pooling for sizes that do not divide (C51_trunc_adaptive_uneven)."
  },
  {
   "property": "C52",
   "status": "proved",
   "theorems": [
    "Brevitas.Props.C52_forward",
    "Brevitas.Props.C52_backends_agree",
    "Brevitas.Props.C52_onnx",
    "Brevitas.Props.C52_onnx_total",
    "Brevitas.Props.C52_backward",
    "Brevitas.Props.C52_input_after",
    "Brevitas.Props.C52_quantizer_gradient_inside",
    "Brevitas.Props.C52_quantizer_gradient_above",
    "Brevitas.Props.C52_quantizer_gradient_below",
    "Brevitas.Props.C52_quantizer_gradient_ste",
    "Brevitas.Props.C52_quantizer_value",
    "Brevitas.Props.C52_scale_gradient",
    "Brevitas.Props.C52_binary_gradient",
    "Brevitas.Props.C52_clamped_binary_gradient",
    "Brevitas.Props.C52_ternary_gradient",
    "Brevitas.Props.C52_traced_blocks_gradient"
   ],
   "note": "All twelve functions, Python and native backends and ONNX symbolics; plus the gradients of the integer, binary and ternary quantisers for input, scale, zero point and bounds. While tracing, the plain operation is recorded and blocks the gradient (C52_traced_blocks_gradient)."
  },
  {
   "property": "C53",
   "status": "partial",
   "theorems": [
    "Brevitas.Props.C53_transparent_partial",
    "Brevitas.Props.C53_never_cached_outside_export",
    "Brevitas.Props.C53_training",
    "Brevitas.Props.C53_disabling_clears",
    "Brevitas.Props.C53_inference_sessions",
    "Brevitas.Props.C53_stale_after_update",
    "Brevitas.Props.C53_training_inside_export",
    "Brevitas.Props.C53_caching_left_on",
    "Brevitas.Props.C53_int_requant",
    "Brevitas.Props.C53_act_scale_uncached",
    "Brevitas.Props.C53_act_scale_stale"
   ],
   "note": "Over all histories of mode switches, caching flags, export sessions, calls and weight updates. Calls outside export mode never use the cache. Inference mode serves stale weights if the weight changed while a value was cached (C53_stale_after_update, C53_training_inside_export); activation scales stay stale after caching was used once (C53_act_scale_stale)."
  },
  {
   "property": "C54",
   "status": "proved",
   "theorems": [
    "Brevitas.Props.C54_row_major",
    "Brevitas.Props.C54_slice_is_column"
   ],
   "note": "Proved for every shape and index, plus the identification with the column of the flattened weight."
  },
  {
   "property": "C55",
   "status": "proved",
   "theorems": [
    "Brevitas.Props.C55_average",
    "Brevitas.Props.C55_raises_iff",
    "Brevitas.Props.C55_between",
    "Brevitas.Props.C55_parts",
    "Brevitas.Props.C55_reset",
    "Brevitas.Props.C55_batch_independent",
    "Brevitas.Props.C55_plain_output",
    "Brevitas.Props.C55_per_elem_ops",
    "Brevitas.Props.C55_scale_read_counts"
   ],
   "note": "All three losses, over all histories of outputs and resets: value, bounds, exceptions, list form. A hooked quantiser that is read outside a forward pass counts as one more output (C55_scale_read_counts)."
  },
  {
   "property": "C56",
   "status": "proved",
   "theorems": [
    "Brevitas.Props.C56_uses",
    "Brevitas.Props.C56_insertion",
    "Brevitas.Props.C56_identity"
   ],
   "note": "Syntactic effect (exactly the intended references, at any depth) and its meaning: the rewritten graph computes what the original computes when non-excluded users receive the module's output."
  },
  {
   "property": "C57",
   "status": "proved",
   "theorems": [
    "Brevitas.Props.C57_scale_best",
    "Brevitas.Props.C57_zero_point_best",
    "Brevitas.Props.C57_strictly_decreasing",
    "Brevitas.Props.C57_zero_point_search_not_repeatable",
    "Brevitas.Props.C57_scale_search_repeatable"
   ],
   "note": "Proved for arbitrary losses and update rules, with the concrete update rules as instances. The zero-point search mutates its beta, so results are not repeatable (C57_zero_point_search_not_repeatable)."
  },
  {
   "property": "C58",
   "status": "partial",
   "theorems": [
    "Brevitas.Props.C58_nearest",
    "Brevitas.Props.C58_let",
    "Brevitas.Props.C58_let_let",
    "Brevitas.Props.C58_shared_ancestor",
    "Brevitas.Props.C58_sound",
    "Brevitas.Props.C58_complete",
    "Brevitas.Props.C58_resolution",
    "Brevitas.Props.C58_terminates",
    "Brevitas.Props.C58_raises",
    "Brevitas.Props.C58_override",
    "Brevitas.Props.C58_unaffected",
    "Brevitas.Props.C58_repeatable_partial",
    "Brevitas.Props.C58_replaced_twice",
    "Brevitas.Props.C58_failed_read"
   ],
   "note": "The iterative resolver of __getattr__ is proved equal to the declarative meaning of the definitions (sound, complete, terminating, raising otherwise), dictionaries of classes are the nearest definitions in order of inheritance, overrides win and everything else is resolved with them. Restoration of the dictionary is proved for attributes replaced once (C58_repeatable_partial); replaced twice (C58_replaced_twice), after an exception (C58_failed_read) and with shared ancestors (C58_shared_ancestor) the code deviates."
  },
  {
   "property": "C59",
   "status": "partial",
   "theorems": [
    "Brevitas.Props.C59_mx_weight_tight",
    "Brevitas.Props.C59_mx_act_no_clip_partial",
    "Brevitas.Props.C59_mx_act_not_tight",
    "Brevitas.Props.C59_mx_act_flushes_to_zero"
   ],
   "note": "Weights: tight and non-clipping. Activations: non-clipping, but the scale is 2 for every group maximum below the threshold (C59_mx_act_not_tight, C59_mx_act_flushes_to_zero)."
  },
  {
   "property": "C60",
   "status": "partial",
   "theorems": [
    "Brevitas.Props.C60_running_average_partial",
    "Brevitas.Props.C60_resume_fails"
   ],
   "note": "Proved within one process; resuming from a checkpoint multiplies instead of averaging (C60_resume_fails)."
  },
  {
   "property": "C61",
   "status": "partial",
   "theorems": [
    "Brevitas.Props.C61_round_trip_partial",
    "Brevitas.Props.C61_quantizer_output_partial",
    "Brevitas.Props.C61_only_if_valid",
    "Brevitas.Props.C61_large_scale_rejected",
    "Brevitas.Props.C61_extra_bits_accepted",
    "Brevitas.Props.C61_out_of_range_accepted"
   ],
   "note": "Round trip proved for scales up to one and for the quantiser's output; fails above one (proved), and validity accepts values without a code (proved)."
  },
  {
   "property": "C62",
   "status": "partial",
   "theorems": [
    "Brevitas.Props.C62_neg_partial",
    "Brevitas.Props.C62_abs_partial",
    "Brevitas.Props.C62_abs_unsigned",
    "Brevitas.Props.C62_neg_unsigned_raises",
    "Brevitas.Props.C62_zero_point_wrong",
    "Brevitas.Props.C62_large_scale_raises"
   ],
   "note": "Proved for signed tensors with zero point 0 and scale up to one; negations for other zero points, unsigned negation and larger scales."
  },
  {
   "property": "C63",
   "status": "partial",
   "theorems": [
    "Brevitas.Props.C63_cat_partial",
    "Brevitas.Props.C63_no_infinity_raises",
    "Brevitas.Props.C63_mismatch_rejected_partial",
    "Brevitas.Props.C63_mantissa_mismatch_accepted",
    "Brevitas.Props.C63_nan_codes_mismatch_accepted"
   ],
   "note": "Proved for formats with infinity codes; concatenation raises for all formats without them; mismatches in one width or one list of special codes are accepted (proved)."
  },
  {
   "property": "C64",
   "status": "partial",
   "theorems": [
    "Brevitas.Props.C64_codes_are_valid",
    "Brevitas.Props.C64_relu",
    "Brevitas.Props.C64_hardtanh_partial",
    "Brevitas.Props.C64_max_pool",
    "Brevitas.Props.C64_dropout_eval_partial",
    "Brevitas.Props.C64_pixel_shuffle_partial",
    "Brevitas.Props.C64_pad_partial",
    "Brevitas.Props.C64_relu6_off_grid",
    "Brevitas.Props.C64_hardtanh_off_grid",
    "Brevitas.Props.C64_dropout_training",
    "Brevitas.Props.C64_pad_off_grid",
    "Brevitas.Props.C64_relu_zero_point_outside",
    "Brevitas.Props.C64_pixel_shuffle_per_channel"
   ],
   "note": "Proved for ReLU and max pooling / nearest interpolation with per-channel metadata; partial for clamping, padding, pixel shuffle and dropout, with negations."
  },
  {
   "property": "C65",
   "status": "partial",
   "theorems": [
    "Brevitas.Props.C65_permute_partial",
    "Brevitas.Props.C65_transpose_partial",
    "Brevitas.Props.C65_reshape_partial",
    "Brevitas.Props.C65_lower_rank_scale",
    "Brevitas.Props.C65_reshape_per_channel"
   ],
   "note": "Proved for metadata of the same rank or per-tensor; negations for lower-rank scales and for reshaping per-channel tensors."
  },
  {
   "property": "C66",
   "status": "partial",
   "theorems": [
    "Brevitas.Props.C66_rnn_matches_float",
    "Brevitas.Props.C66_rnn_given_states_partial",
    "Brevitas.Props.C66_given_states_raise",
    "Brevitas.Props.C66_lstm_matches_float",
    "Brevitas.Props.C66_lstm_given_states_partial",
    "Brevitas.Props.C66_lstm_given_states_raise",
    "Brevitas.Props.C66_coupled_gates"
   ],
   "note": "Float equivalence of QuantRNN and QuantLSTM proved for any number of layers, one or both directions, with loading of the float parameters. With initial states it is proved for bidirectional stacks and for one layer (_partial): a one-directional stack of two or more layers raises when states are passed (C66_given_states_raise, C66_lstm_given_states_raise)."
  },
  {
   "property": "C67",
   "status": "partial",
   "theorems": [
    "Brevitas.Props.C67_rnn_layer_pieces",
    "Brevitas.Props.C67_lstm_layer_pieces",
    "Brevitas.Props.C67_rnn_reverse",
    "Brevitas.Props.C67_lstm_reverse",
    "Brevitas.Props.C67_final_state_is_output",
    "Brevitas.Props.C67_causal",
    "Brevitas.Props.C67_lstm_causal",
    "Brevitas.Props.C67_rnn_batch_first",
    "Brevitas.Props.C67_lstm_batch_first",
    "Brevitas.Props.C67_rnn_samples_independent",
    "Brevitas.Props.C67_lstm_samples_independent",
    "Brevitas.Props.C67_rnn_pieces_partial",
    "Brevitas.Props.C67_lstm_pieces_partial",
    "Brevitas.Props.C67_missing_state_is_zero",
    "Brevitas.Props.C67_empty_sequence_raises"
   ],
   "note": "Pieces proved per layer and for stacks of one layer (_partial: deeper one-directional stacks raise when their own states are handed back). Reversal, causality, batch_first, independence of samples, missing states, empty sequences in full."
  },
  {
   "property": "C68",
   "status": "proved",
   "theorems": [
    "Brevitas.Props.C68_rnn_on_grid",
    "Brevitas.Props.C68_lstm_on_grid",
    "Brevitas.Props.C68_metadata",
    "Brevitas.Props.C68_coupled_forget_gate"
   ],
   "note": "Integer output quantisers with fixed scale; stacks of any shape."
  },
  {
   "property": "C71",
   "status": "partial",
   "theorems": [
    "Brevitas.Props.C71_disable_has_no_effect",
    "Brevitas.Props.C71_disable_input_partial",
    "Brevitas.Props.C71_disable_not_float"
   ],
   "note": "The property is false: in the code only quantisation of the input and of given states is disabled, the cell goes on quantising (C71_disable_has_no_effect, C71_disable_not_float). Partial theorem says what disabling does."
  },
  {
   "property": "C69",
   "status": "partial",
   "theorems": [
    "Brevitas.Props.C69_rnn_shared",
    "Brevitas.Props.C69_lstm_shared_partial",
    "Brevitas.Props.C69_lstm_gates_crossed",
    "Brevitas.Props.C69_coupled_not_shared"
   ],
   "note": "RNN in full; LSTM cell and output gates (_partial). Input and forget gates are crossed (C69_lstm_gates_crossed) and with coupled gates the input gate is not shared (C69_coupled_not_shared)."
  },
  {
   "property": "C70",
   "status": "partial",
   "theorems": [
    "Brevitas.Props.C70_float_keys_partial",
    "Brevitas.Props.C70_own_keys_kept",
    "Brevitas.Props.C70_eleven_layers_raise",
    "Brevitas.Props.C70_module_name_breaks_reload"
   ],
   "note": "Up to ten layers and module paths without a layer suffix (_partial); eleven layers or more raise (C70_eleven_layers_raise), a module called enc_l0 loses its own keys (C70_module_name_breaks_reload)."
  },
  {
   "property": "C72",
   "status": "partial",
   "theorems": [
    "Brevitas.Props.C72_inference_partial",
    "Brevitas.Props.C72_weight_partial",
    "Brevitas.Props.C72_reserved_codes",
    "Brevitas.Props.C72_overflow_ignores_scale"
   ],
   "note": "For formats with no reserved codes the handler agrees with evaluation everywhere (C72_inference_partial, C72_weight_partial); with reserved codes it does not, exactly for values above the largest finite value (C72_reserved_codes), and overflow to infinity is decided before scaling (C72_overflow_ignores_scale)."
  },
  {
   "property": "C73",
   "status": "partial",
   "theorems": [
    "Brevitas.Props.C73_unsigned_partial",
    "Brevitas.Props.C73_network_inputs_taken_for_unsigned",
    "Brevitas.Props.C73_network_inputs_clipped",
    "Brevitas.Props.C73_added_number_ignored",
    "Brevitas.Props.C73_buffer_ignored"
   ],
   "note": "Proved when signs are as declared (network inputs, buffers, added numbers non-negative, quantised modules with an input quantiser not declared signed return no negative values). False in general: values computed from the network inputs only are taken for unsigned although quantize() puts signed quantisers after them, and added numbers and buffers are ignored."
  },
  {
   "property": "C74",
   "status": "partial",
   "theorems": [
    "Brevitas.Props.C74_aligned_partial",
    "Brevitas.Props.C74_cat_partial",
    "Brevitas.Props.C74_one_quantiser_accepted",
    "Brevitas.Props.C74_buffer_ignored",
    "Brevitas.Props.C74_sum_on_grid_partial"
   ],
   "note": "Proved when no network input or buffer reaches the node without passing a quantiser; false otherwise (C74_buffer_ignored). The converse (C74_one_quantiser_accepted) needs no such condition."
  },
  {
   "property": "C75",
   "status": "partial",
   "theorems": [
    "Brevitas.Props.C75_layer_unchanged_partial",
    "Brevitas.Props.C75_unbatched_convolution",
    "Brevitas.Props.C75_extra_dimension",
    "Brevitas.Props.C75_unused_layer",
    "Brevitas.Props.C75_error_swallowed"
   ],
   "note": "Proved for every calibration data, exponent, statistic, weight and input, on two conditions: inputs have at least as many dimensions as the calibration inputs, and convolutions are calibrated on batched inputs. Without them the property is false: C75_unbatched_convolution, C75_extra_dimension. Errors in the body of the with statement are dropped (C75_error_swallowed). Attention layers and the graph version are not covered here."
  },
  {
   "property": "C76",
   "status": "proved",
   "theorems": [
    "Brevitas.Props.C76_balanced"
   ],
   "note": "Proved for the largest absolute value and exponent one half (the documented default), dense weights, calibration inputs with a batch dimension."
  },
  {
   "property": "C77",
   "status": "proved",
   "theorems": [
    "Brevitas.Props.C77_closest",
    "Brevitas.Props.C77_norm",
    "Brevitas.Props.C77_signs",
    "Brevitas.Props.C77_matrix",
    "Brevitas.Props.C77_no_rescaling"
   ],
   "note": "Proved for the l1-ball projection, the per-channel loop and one channel of apply_ep_init with the accumulator-aware quantiser (not the zero-centred one, whose norm is taken over centred weights)."
  },
  {
   "property": "C78",
   "status": "partial",
   "theorems": [
    "Brevitas.Mha.C78_attention_partial",
    "Brevitas.Mha.C78_float_padding_is_boolean",
    "Brevitas.Mha.C78_two_float_masks_raise",
    "Brevitas.Mha.C78_different_features_raise",
    "Brevitas.Mha.C78_packed_cross_attention_raises",
    "Brevitas.Mha.C78_float_padding_not_added",
    "Brevitas.Mha.C78_shared_memory"
   ],
   "note": "Full for boolean masks and single float masks. Float padding masks are treated as boolean next to an attention mask and raise next to a float one; keys and values with different features raise; a packed projection compares addresses only, so views sharing memory are taken for one tensor. The forward pass also renames the dimensions of the caller's query tensor in place, which is not modelled."
  },
  {
   "property": "C79",
   "status": "proved",
   "theorems": [
    "Brevitas.Props.C79_float_checkpoint",
    "Brevitas.Props.C79_other_names",
    "Brevitas.Props.C79_takes_other_layers",
    "Brevitas.Props.C79_wrapper",
    "Brevitas.Props.C79_wrapper_own_checkpoint",
    "Brevitas.Props.C79_wrapper_own_checkpoint_nested"
   ],
   "note": "Holds for state dicts restricted to the layer. When the whole dict is handed over, keys of other layers that contain the path are taken too; a wrapper at the root drops the output projection of its own checkpoints."
  },
  {
   "property": "C80",
   "status": "partial",
   "theorems": [
    "Brevitas.Awq.C80_opt_partial",
    "Brevitas.Awq.C80_llama",
    "Brevitas.Awq.C80_grouped_heads_raise",
    "Brevitas.Awq.C80_norm_last"
   ],
   "note": "C80_opt_partial needs do_layer_norm_before (C80_norm_last: otherwise, as in OPT-350m, the function changes) and an activation that commutes with positive scaling; C80_grouped_heads_raise: Llama layers with grouped heads whose value projection is smaller raise."
  },
  {
   "property": "C81",
   "status": "partial",
   "theorems": [
    "Brevitas.AwqSearch.C81_search_partial",
    "Brevitas.AwqSearch.C81_cpu_weights_changed",
    "Brevitas.AwqSearch.C81_scales_normalised",
    "Brevitas.AwqSearch.C81_weight_statistic",
    "Brevitas.AwqSearch.C81_activation_statistic"
   ],
   "note": "C81_search_partial is for parameters that are not on the CPU; C81_cpu_weights_changed: on the CPU v.cpu() is the parameter itself, so the search leaves the block multiplied by the first candidate's scales."
  },
  {
   "property": "C82",
   "status": "partial",
   "theorems": [
    "Brevitas.AwqClip.C82_fake_quant_partial",
    "Brevitas.AwqClip.C82_positive_group_collapses",
    "Brevitas.AwqClip.C82_raises"
   ],
   "note": "C82_fake_quant_partial bounds the error for groups whose range includes zero; C82_positive_group_collapses: in groups of positive weights nothing larger than max - min survives."
  },
  {
   "property": "C83",
   "status": "partial",
   "theorems": [
    "Brevitas.AwqClip.C83_clip_layer_partial",
    "Brevitas.AwqClip.C83_raises",
    "Brevitas.AwqClip.C83_per_channel_raises",
    "Brevitas.AwqClip.C83_block"
   ],
   "note": "C83_clip_layer_partial covers every case in which the search does not raise; C83_raises says when that is, and C83_per_channel_raises is the disagreement for the documented per-channel group size."
  },
  {
   "property": "C84",
   "status": "partial",
   "theorems": [
    "Brevitas.LnMerge.C84_merge_partial",
    "Brevitas.LnMerge.C84_norms_reset",
    "Brevitas.LnMerge.C84_succeeds",
    "Brevitas.LnMerge.C84_reshaping_diverges",
    "Brevitas.LnMerge.C84_merged_twice"
   ],
   "note": "C84_merge_partial excludes graphs in which a norm is read by a reshaping or scale invariant module, where the code diverges (C84_reshaping_diverges) or merges twice (C84_merged_twice), linear layers called more than once and norms with a zero weight."
  },
  {
   "property": "C85",
   "status": "partial",
   "theorems": [
    "Brevitas.Qonnx.C85_act_partial",
    "Brevitas.Qonnx.C85_binary",
    "Brevitas.Qonnx.C85_ternary",
    "Brevitas.Qonnx.C85_ternary_threshold",
    "Brevitas.Qonnx.C85_one_bit",
    "Brevitas.Qonnx.C85_refused",
    "Brevitas.Qonnx.C85_weight_partial",
    "Brevitas.Qonnx.C85_weight_untracked",
    "Brevitas.Qonnx.C85_bias_partial",
    "Brevitas.Qonnx.C85_bias_last_scale",
    "Brevitas.Qonnx.C85_bias_changed",
    "Brevitas.Qonnx.C85_trunc"
   ],
   "note": "Proved for integer quantisers of at least two bits, binary ones, and ternary ones with threshold one half. False as stated for one-bit integer quantisers (exported as bipolar), other ternary thresholds, and the bias of a layer called with several accumulator scales; each is proved."
  },
  {
   "property": "C86",
   "status": "proved",
   "theorems": [
    "Brevitas.Standardize.C86_duplicate",
    "Brevitas.Standardize.C86_called_once",
    "Brevitas.Standardize.C86_clash_swaps",
    "Brevitas.Standardize.C86_clash_overwrites_weights",
    "Brevitas.Standardize.C86_method_renamed"
   ],
   "note": "Proved for graphs whose generated names are free and where no method call has the name of a module; the three clashes are shown by concrete graphs."
  },
  {
   "property": "C87",
   "status": "proved",
   "theorems": [
    "Brevitas.FnToModule.C87_function",
    "Brevitas.FnToModule.C87_node_parameter_raises",
    "Brevitas.FnToModule.C87_builtin_raises",
    "Brevitas.FnToModule.C87_training_ignored"
   ],
   "note": "Proved for every signature and every way of passing one tensor and constants. The training argument is dropped, built-in functions without a signature and computed arguments raise: shown as negations. Effects of in-place functions are not modelled."
  },
  {
   "property": "C88",
   "status": "proved",
   "theorems": [
    "Brevitas.GpxqMode.C88_enter",
    "Brevitas.GpxqMode.C88_update_order",
    "Brevitas.GpxqMode.C88_schedule",
    "Brevitas.GpxqMode.C88_hooks_left",
    "Brevitas.GpxqMode.C88_name_clash",
    "Brevitas.GpxqMode.C88_split_group",
    "Brevitas.GpxqMode.C88_called_twice",
    "Brevitas.GpxqMode.C88_empty_round"
   ],
   "note": "Full statement proved. Outside its conditions: groups that are not contiguous, layers of a group called twice, empty rounds, names that clash with joined group names, and hooks left behind on exit are shown as negations."
  },
  {
   "property": "C89",
   "status": "partial",
   "theorems": [
    "Brevitas.Pack.C89_aligned_partial",
    "Brevitas.Pack.C89_stream_partial",
    "Brevitas.Pack.C89_decode",
    "Brevitas.Pack.C89_negative_destroys",
    "Brevitas.Pack.C89_odd_column_dropped",
    "Brevitas.Pack.C89_last_column_dropped",
    "Brevitas.Pack.C89_short_row_raises"
   ],
   "note": "proved for unsigned codes that fill whole bytes (2, 4, 8 bits) and for any codes in whole packs (3, 5, 6 bits); false otherwise: sign bits of a negative 2 or 4 bit code overwrite its neighbours, trailing columns are dropped, some lengths raise"
  },
  {
   "property": "C90",
   "status": "partial",
   "theorems": [
    "Brevitas.ScaleBias.C90_forward",
    "Brevitas.ScaleBias.C90_batch_norm_2d_partial",
    "Brevitas.ScaleBias.C90_round_trip",
    "Brevitas.ScaleBias.C90_strict_load_raises",
    "Brevitas.ScaleBias.C90_batch_norm_1d_wrong_shape",
    "Brevitas.ScaleBias.C90_batch_norm_1d_outer_product",
    "Brevitas.ScaleBias.C90_size_not_checked",
    "Brevitas.ScaleBias.C90_missing_counter_raises",
    "Brevitas.ScaleBias.C90_no_bias_raises",
    "Brevitas.ScaleBias.C90_float_layer_raises"
   ],
   "note": "proved for the two-dimensional layer with non-strict loading or missing keys ignored; false for strict loading (raises) and for the one-dimensional layer (wrong view shape)"
  },
  {
   "property": "C91",
   "status": "partial",
   "theorems": [
    "Brevitas.NormCorr.C91_mean_partial",
    "Brevitas.NormCorr.C91_variance",
    "Brevitas.NormCorr.C91_momentum_and_mode_lost",
    "Brevitas.NormCorr.C91_no_batch_destroys"
   ],
   "note": "proved for the mean; the variance becomes the geometric mean of the old and the new one, momentum is lost and the batch norms stay in training mode"
  },
  {
   "property": "C92",
   "status": "proved",
   "theorems": [
    "Brevitas.Modules.C92_layerwise",
    "Brevitas.Modules.C92_shared_in_one_module_stays_float",
    "Brevitas.Modules.C92_shared_in_two_modules_is_untied",
    "Brevitas.Modules.C92_blacklisted_alias_is_replaced",
    "Brevitas.Modules.C92_layer_itself_not_replaced",
    "Brevitas.Modules.C92_blacklist_covers_inside"
   ],
   "note": "Proved for models in which no module has two names and the model itself is not in the map; the four negation theorems show what happens to shared layers and to a model that is itself a layer."
  },
  {
   "property": "C93",
   "status": "partial",
   "theorems": [
    "Brevitas.Residual.C93_aligns_partial",
    "Brevitas.Residual.C93_only_quantisers",
    "Brevitas.Residual.C93_transpose_method_fails",
    "Brevitas.Residual.C93_overlapping_additions_fail",
    "Brevitas.Residual.C93_relu_plus_cat_fails"
   ],
   "note": "C93_aligns_partial needs additions and concatenations whose inputs have no nodes or modules in common and are not reached through the method transpose; the negation theorems show that alignment fails (RuntimeError after 9999 rounds) for every graph with a transposed input, for x + y and y + z, and for relu + cat. C93_only_quantisers holds for every graph."
  },
  {
   "property": "C94",
   "status": "partial",
   "theorems": [
    "Brevitas.Residual.C94_layers_partial",
    "Brevitas.Residual.C94_nothing_else_partial",
    "Brevitas.Residual.C94_inputs",
    "Brevitas.Residual.C94_additions",
    "Brevitas.Residual.C94_shared_layer_raises",
    "Brevitas.Residual.C94_second_input_not_quantised",
    "Brevitas.Residual.C94_buffer_not_quantised"
   ],
   "note": "Inputs and additions: every graph. Layers: graphs whose layers are called once and have a single name, whose raw values are network inputs; the first input of every layer. A layer that is called twice makes quantisation fail with a KeyError (proved for every graph); second inputs of layers and buffers stay as they are."
  },
  {
   "property": "C95",
   "status": "partial",
   "theorems": [
    "Brevitas.Props.C95_per_channel",
    "Brevitas.Props.C95_per_tensor",
    "Brevitas.Props.C95_grouped_transposed_raises",
    "Brevitas.Props.C95_abs_max",
    "Brevitas.Props.C95_half_step",
    "Brevitas.Props.C95_max_ave_partial",
    "Brevitas.Props.C95_max_ave_shared_raises"
   ],
   "note": "Mean of channel maxima over layers sharing a quantiser: proved when all have the same number of weights per channel (otherwise concatenating them raises). Everything else in full."
  },
  {
   "property": "C96",
   "status": "partial",
   "theorems": [
    "Brevitas.Props.C96_conv1d",
    "Brevitas.Props.C96_conv2d",
    "Brevitas.Props.C96_conv3d_partial",
    "Brevitas.Props.C96_conv3d_depth_not_padded",
    "Brevitas.Props.C96_conv3d_depth_raises"
   ],
   "note": "One and two dimensions in full; three dimensions unless only the depth needs padding, where the code does not pad (C96_conv3d_depth_not_padded)."
  },
  {
   "property": "C97",
   "status": "partial",
   "theorems": [
    "Brevitas.Props.C97_no_bias",
    "Brevitas.Props.C97_float_bias",
    "Brevitas.Props.C97_int_bias_partial",
    "Brevitas.Props.C97_channel_bias_in_zero_point",
    "Brevitas.Props.C97_reads_integers_partial",
    "Brevitas.Props.C97_depthwise",
    "Brevitas.Props.C97_zero_point_plain",
    "Brevitas.Props.C97_channel_input_not_integer",
    "Brevitas.Props.C97_channel_multiplier_scale_shape",
    "Brevitas.Props.C97_linear_float_bias_axis",
    "Brevitas.Props.C97_channel_bias_next_layer"
   ],
   "note": "partial: a quantised bias of a convolution with one weight scale per channel becomes a zero point (C97_channel_bias_in_zero_point, C97_channel_bias_next_layer) although its scale is the accumulator scale; the integers of transposed convolutions may not fit the declared width. Per-channel input scales work for depthwise convolutions only (C97_depthwise; negations C97_channel_input_not_integer, C97_channel_multiplier_scale_shape); a float bias of a linear layer on inputs of rank above 2 goes to the wrong axis (C97_linear_float_bias_axis)."
  },
  {
   "property": "C98",
   "status": "proved",
   "theorems": [
    "Brevitas.Props.C98_not_configured",
    "Brevitas.Props.C98_result_kind",
    "Brevitas.Props.C98_float_layer",
    "Brevitas.Props.C98_quantiser_codes",
    "Brevitas.Props.C98_error_bound",
    "Brevitas.Props.C98_integers",
    "Brevitas.Props.C98_integers_quantised_bias",
    "Brevitas.Props.C98_error_bound_quantised_bias",
    "Brevitas.Props.C98_output_quantiser",
    "Brevitas.Props.C98_output_codes",
    "Brevitas.Props.C98_zero_point_assertion",
    "Brevitas.Props.C98_unbatched_float_bias_raises",
    "Brevitas.Props.C98_input_scale_required"
   ],
   "note": "Proved for all layer kinds. C98_zero_point_assertion and C98_unbatched_float_bias_raises state where a layer raises although the float layer does not."
  },
  {
   "property": "C99",
   "status": "proved",
   "theorems": [
    "Brevitas.ExportRun.C99_restores",
    "Brevitas.ExportRun.C99_cleanup_failure",
    "Brevitas.ExportRun.C99_mode_after_export",
    "Brevitas.ExportRun.C99_frozen_module_thawed",
    "Brevitas.ExportRun.C99_traced_modules",
    "Brevitas.ExportRun.C99_traced_flags_torch",
    "Brevitas.ExportRun.C99_traced_flags_onnx",
    "Brevitas.ExportRun.C99_unsupported_raises",
    "Brevitas.ExportRun.C99_outside_unchanged",
    "Brevitas.ExportRun.C99_onnx_grads",
    "Brevitas.ExportRun.C99_nested_export",
    "Brevitas.ExportRun.C99_recovers",
    "Brevitas.ExportRun.C99_failed_torch_trace",
    "Brevitas.ExportRun.C99_failed_onnx_trace",
    "Brevitas.ExportRun.C99_unsupported_leaves_eval",
    "Brevitas.ExportRun.C99_grads_lost",
    "Brevitas.ExportRun.C99_retry_uses_stale_cache"
   ],
   "note": "Disagreements with what a user expects, proved as negations: modules frozen in evaluation mode are in training mode afterwards; an export that raises leaves the model in evaluation mode, and after a failed TorchScript trace a successful export leaves requires_grad off; a repeated ONNX export after a failed trace works with stale cached activations."
  },
  {
   "property": "C100",
   "status": "proved",
   "theorems": [
    "Brevitas.Props.C100_value",
    "Brevitas.Props.C100_value_last",
    "Brevitas.Props.C100_last_dim_groups_wrong",
    "Brevitas.Props.C100_weight",
    "Brevitas.Props.C100_int",
    "Brevitas.Props.C100_half_step",
    "Brevitas.Props.C100_groups_independent",
    "Brevitas.Props.C100_disabled",
    "Brevitas.Props.C100_padding_zero",
    "Brevitas.Props.C100_calibration_unreadable",
    "Brevitas.Props.C100_passthrough_unreadable",
    "Brevitas.Props.C100_passthrough_reshapes",
    "Brevitas.Props.C100_metadata_cache_raises",
    "Brevitas.Props.C100_negation_raises"
   ],
   "note": "C100_value, C100_int and the others hold for non-negative group dimensions, all ranks and sizes; for group_dim = -1 (last dimension) C100_value_last says which blocks are used instead, so the property fails there. Calibration mode, a disabled quantiser fed with a group-wise quant tensor, metadata caching and negation of group-wise tensors fail: see the negations."
  },
  {
   "property": "C101",
   "status": "proved",
   "theorems": [
    "Brevitas.InferMode.C101_restores",
    "Brevitas.InferMode.C101_first_call",
    "Brevitas.InferMode.C101_inside",
    "Brevitas.InferMode.C101_refuses",
    "Brevitas.InferMode.C101_flags_forced",
    "Brevitas.InferMode.C101_reuse_breaks",
    "Brevitas.InferMode.C101_hook_left_behind",
    "Brevitas.InferMode.C101_flags_not_restored",
    "Brevitas.InferMode.C101_disabled_not_neutral"
   ],
   "note": "The code disagrees with what a context manager promises in four ways, each proved: leaving without a completed call leaves the hook behind (C101_hook_left_behind), caching flags are forced rather than restored (C101_flags_forced, C101_flags_not_restored), enabled=False still changes flags (C101_disabled_not_neutral), and an object used twice breaks the model for good (C101_reuse_breaks)."
  },
  {
   "property": "C102",
   "status": "proved",
   "theorems": [
    "Brevitas.SubTensor.C102_whole",
    "Brevitas.SubTensor.C102_whole_plain",
    "Brevitas.SubTensor.C102_slice",
    "Brevitas.SubTensor.C102_restored",
    "Brevitas.SubTensor.C102_history",
    "Brevitas.SubTensor.C102_jit_is_eager",
    "Brevitas.SubTensor.C102_column",
    "Brevitas.SubTensor.C102_grouped_column",
    "Brevitas.SubTensor.C102_transposed_column",
    "Brevitas.SubTensor.C102_weight_norm_differs",
    "Brevitas.SubTensor.C102_reinit_stale",
    "Brevitas.SubTensor.C102_failed_call_poisons",
    "Brevitas.SubTensor.C102_row_slice_wrong",
    "Brevitas.SubTensor.C102_cache_holds_slice",
    "Brevitas.SubTensor.C102_jit_extra_none"
   ],
   "note": "Proved for all shapes, slices, roundings and histories within the provisos of the statement. Outside them the code does not do it, by witnesses: weight-normalising (A2Q) quantisers normalise the slice on its own, a quantiser built again after a sliced call is not told about slices, a call that raises leaves its slice set, a slice along the dimension of the scales comes back with the wrong shape, and the proxy caches a slice."
  },
  {
   "property": "C103",
   "status": "proved",
   "theorems": [
    "Brevitas.Props.C103_sum_codes",
    "Brevitas.Props.C103_add_tensor",
    "Brevitas.Props.C103_eltwise_codes",
    "Brevitas.Props.C103_result_kind",
    "Brevitas.Props.C103_error_bound",
    "Brevitas.Props.C103_float_sum",
    "Brevitas.Props.C103_output_quantiser",
    "Brevitas.Props.C103_order",
    "Brevitas.Props.C103_cat",
    "Brevitas.Props.C103_embedding_codes",
    "Brevitas.Props.C103_embedding_commutes",
    "Brevitas.Props.C103_embedding_float",
    "Brevitas.Props.C103_embedding_many_scales_raise",
    "Brevitas.Props.C103_quant_cat_raises",
    "Brevitas.Props.C103_tied_raises",
    "Brevitas.Props.C103_untied",
    "Brevitas.Props.C103_export_handler_raises",
    "Brevitas.Props.C103_different_scales_raise",
    "Brevitas.Props.C103_training_sum_not_valid",
    "Brevitas.Props.C103_mixed_order_matters",
    "Brevitas.Props.C103_cat_channels_broken"
   ],
   "note": "Disagreements: QuantCat.forward calls QuantTensor.cat, which does not exist, and raises for every input; tie_input_output_quant=True cannot be constructed and requires_export_handler raises when the input quantiser is off (both read act_quant, which does not exist); a quantised embedding with several scales raises even if a plain tensor is asked for; per-channel quant tensors concatenated along their channels keep the scales of the first; with dynamic scales the addition layer raises in evaluation and returns an invalid quant tensor in training; tensor + quant tensor is plain while quant tensor + tensor is quantised."
  },
  {
   "property": "C104",
   "status": "proved",
   "theorems": [
    "Brevitas.Props.C104_codes",
    "Brevitas.Props.C104_error_bound",
    "Brevitas.Props.C104_relu_absorbed",
    "Brevitas.Props.C104_hardtanh_replaced",
    "Brevitas.Props.C104_nonneg",
    "Brevitas.Props.C104_monotone",
    "Brevitas.Props.C104_idempotent",
    "Brevitas.Props.C104_off",
    "Brevitas.Props.C104_result_kind",
    "Brevitas.Props.C104_relu_passthrough",
    "Brevitas.Props.C104_hardtanh_off_is_identity",
    "Brevitas.Props.C104_hardtanh_exceeds",
    "Brevitas.Props.C104_hardtanh_passthrough_off_grid"
   ],
   "note": "Exact up to float arithmetic; the hard tanh is the exception: it is dropped when the layer is made, whatever the quantiser does later (three negations)."
  },
  {
   "property": "C105",
   "status": "proved",
   "theorems": [
    "Brevitas.Props.C105_linear_codes",
    "Brevitas.Props.C105_nearest_copies",
    "Brevitas.Props.C105_nearest_repeats",
    "Brevitas.Props.C105_same_size",
    "Brevitas.Props.C105_plain_result",
    "Brevitas.Props.C105_plain_input_raises",
    "Brevitas.Props.C105_bicubic_overflows",
    "Brevitas.Props.C105_fractional_zero_point"
   ],
   "note": "Plain tensors raise in every mode, bicubic leaves the container, and fractional zero points are rounded away (negations)."
  },
  {
   "property": "C106",
   "status": "partial",
   "theorems": [
    "Brevitas.Props.C106_entries",
    "Brevitas.Props.C106_rows_orthogonal",
    "Brevitas.Props.C106_size",
    "Brevitas.Props.C106_norm",
    "Brevitas.Props.C106_zero_point_raises",
    "Brevitas.Props.C106_codes_partial",
    "Brevitas.Props.C106_values",
    "Brevitas.Props.C106_default_raises",
    "Brevitas.Props.C106_plain_input_raises",
    "Brevitas.Props.C106_unsigned_overflows",
    "Brevitas.Props.C106_most_negative_overflows"
   ],
   "note": "Codes fit for signed inputs without the most negative code; unsigned inputs and the most negative code overflow the declared width, and the layer raises unless return_quant_tensor is set (negations)."
  },
  {
   "property": "C107",
   "status": "proved",
   "theorems": [
    "Brevitas.Props.C107_shifted_sums",
    "Brevitas.Props.C107_average",
    "Brevitas.Props.C107_plain_result",
    "Brevitas.Props.C107_float_average",
    "Brevitas.Props.C107_adaptive",
    "Brevitas.Props.C107_adaptive_float",
    "Brevitas.Props.C107_nine_of_sixteen",
    "Brevitas.Props.C107_wider_output",
    "Brevitas.Props.C107_zero_point",
    "Brevitas.Props.C107_uneven_windows",
    "Brevitas.Props.C107_accumulators_raise"
   ],
   "note": "Windows that are no power of two, quantisers wider than the input, zero points and uneven adaptive windows are outside the statement; C107_nine_of_sixteen, C107_wider_output, C107_zero_point and C107_uneven_windows show what the code does there. C107_accumulators_raise: the accumulator layers cannot be constructed."
  },
  {
   "property": "C108",
   "status": "partial",
   "theorems": [
    "Brevitas.Props.C108_symmetric",
    "Brevitas.Props.C108_shifted",
    "Brevitas.Props.C108_ternary",
    "Brevitas.Props.C108_none",
    "Brevitas.Props.C108_granularity_flag",
    "Brevitas.Props.C108_overrides",
    "Brevitas.Props.C108_act_signed",
    "Brevitas.Props.C108_act_unsigned",
    "Brevitas.Props.C108_int8",
    "Brevitas.Props.C108_shifted_uint8",
    "Brevitas.Props.C108_power_of_two",
    "Brevitas.Props.C108_fixed_point",
    "Brevitas.Props.C108_fixed_point_per_channel_partial",
    "Brevitas.Props.C108_per_channel_fixed_point_is_float",
    "Brevitas.Props.C108_shifted_negative_clips"
   ],
   "note": "Missing in C108_fixed_point_per_channel_partial: the class as shipped, whose restriction is floating point (C108_per_channel_fixed_point_is_float). All-negative weights are clipped by the shifted classes (C108_shifted_negative_clips), as the statement allows."
  },
  {
   "property": "C109",
   "status": "proved",
   "theorems": [
    "Brevitas.Props.C109_minifloat",
    "Brevitas.Props.C109_tops",
    "Brevitas.Props.C109_shipped",
    "Brevitas.Props.C109_recognised",
    "Brevitas.Props.C109_width_mismatch_raises",
    "Brevitas.Props.C109_half_precision_not_kept",
    "Brevitas.Props.C109_unscaled_raises",
    "Brevitas.Props.C109_bias_not_recognised"
   ],
   "note": "The half-precision, unscaled and overridden-bias cases outside the statement are C109_half_precision_not_kept, C109_unscaled_raises and C109_bias_not_recognised."
  },
  {
   "property": "C110",
   "status": "proved",
   "theorems": [
    "Brevitas.Props.C110_value",
    "Brevitas.Props.C110_nearest",
    "Brevitas.Props.C110_weight",
    "Brevitas.Props.C110_enabled",
    "Brevitas.Props.C110_disabled",
    "Brevitas.Props.C110_groups_independent",
    "Brevitas.Props.C110_last_dim_groups_wrong",
    "Brevitas.Props.C110_passthrough_unreadable",
    "Brevitas.Props.C110_mx_weight",
    "Brevitas.Props.C110_mx_act_scale_two",
    "Brevitas.Props.C110_mx_act_flushes"
   ],
   "note": "Proved for every shape, group size and format, for weights and activations, with non-negative group dimensions. Disagreements: with group_dim = -1 the groups are strided blocks of the wrong size; MX activations use a scale of 2 for every group within the range of the format, so small groups become zero; a quant tensor passing a disabled proxy cannot be read."
  },
  {
   "property": "C111",
   "status": "partial",
   "theorems": [
    "Brevitas.Props.C111_arithmetic_partial",
    "Brevitas.Props.C111_abs_unsigned_partial",
    "Brevitas.Props.C111_minifloat_raises"
   ],
   "note": "Proved: +, *, / and abs of unsigned tensors. Disproved for every tensor: is_valid, minifloat(), negation, abs of signed tensors and subtraction raise, because float_internal_scale is called without its eps argument."
  },
  {
   "property": "C112",
   "status": "proved",
   "theorems": [
    "Brevitas.Props.C112_weight_only",
    "Brevitas.Props.C112_weight_of",
    "Brevitas.Props.C112_int_symmetric",
    "Brevitas.Props.C112_int_asymmetric",
    "Brevitas.Props.C112_minifloat",
    "Brevitas.Props.C112_widths_anywhere",
    "Brevitas.Props.C112_width_checked",
    "Brevitas.Props.C112_bare_format_raises",
    "Brevitas.Props.C112_quantize_model_raises",
    "Brevitas.Props.C112_int_power_of_two",
    "Brevitas.Props.C112_top_clips",
    "Brevitas.Props.C112_po2_per_channel_is_float"
   ],
   "note": "Scales from statistics, integers and minifloats per tensor and per channel. Shown false of the code: a positive peak keeps half a scale (C112_top_clips); po2_scale per channel gives powers of two (C112_po2_per_channel_is_float); a format eEmM by itself is accepted (C112_bare_format_raises); quantize_model works with any documented options (C112_quantize_model_raises)."
  },
  {
   "property": "C113",
   "status": "proved",
   "theorems": [
    "Brevitas.Props.C113_symmetric",
    "Brevitas.Props.C113_asymmetric",
    "Brevitas.Props.C113_alone",
    "Brevitas.Props.C113_options_per_tensor",
    "Brevitas.Props.C113_options_per_row",
    "Brevitas.Props.C113_input_per_row_raises",
    "Brevitas.Props.C113_zeros_are_nan",
    "Brevitas.Props.C113_negatives_saturate"
   ],
   "note": "Symmetric and asymmetric, per tensor, row and column, for all shapes; the provisos on the elements that share a scale are necessary: C113_zeros_are_nan and C113_negatives_saturate show what happens otherwise. Inputs of convolutions and attention per row cannot be built (C113_input_per_row_raises)."
  },
  {
   "property": "C114",
   "status": "proved",
   "theorems": [
    "Brevitas.Props.C114_cast_unique",
    "Brevitas.Props.C114_casts_exist",
    "Brevitas.Props.C114_activation",
    "Brevitas.Props.C114_weight",
    "Brevitas.Props.C114_others_refused",
    "Brevitas.Props.C114_other_weights_refused",
    "Brevitas.Props.C114_default_raises",
    "Brevitas.Props.C114_unsigned_exported_as_signed",
    "Brevitas.Props.C114_not_saturating_exported_saturating",
    "Brevitas.Props.C114_bias_not_exported"
   ],
   "note": "Activations and weights (with export_weight_q_node=True) proved for the four FP8 types. By default the export of minifloat weights raises; unsigned FNUZ, non-saturating and custom-bias quantisers are exported with a different meaning (negation theorems)."
  },
  {
   "property": "C115",
   "status": "proved",
   "theorems": [
    "Brevitas.Props.C115_signature",
    "Brevitas.Props.C115_same_path",
    "Brevitas.Props.C115_runs_model",
    "Brevitas.Props.C115_traced_input",
    "Brevitas.Props.C115_traces",
    "Brevitas.Props.C115_leaf_with_submodules_false",
    "Brevitas.Props.C115_other_branch_false",
    "Brevitas.Props.C115_optional_argument_false",
    "Brevitas.Props.C115_late_attribute_false",
    "Brevitas.Props.C115_buffer_update_false",
    "Brevitas.Props.C115_augmented_assignment_false",
    "Brevitas.Props.C115_tracing_raises_false"
   ],
   "note": "Proved for all programs, values, inputs and states, for every behaviour of the operations, under the provisos of the statement; each proviso is shown necessary by a witness. Tracing a leaf module whose forward calls submodules with values always raises (unbounded recursion), and so do named tuples, torch.cat without dim and operators of constant tensors with traced arguments."
  },
  {
   "property": "C116",
   "status": "proved",
   "theorems": [
    "Brevitas.Props.C116_pool_factor",
    "Brevitas.Props.C116_pool_average",
    "Brevitas.Props.C116_pool_codes",
    "Brevitas.Props.C116_signed_width_false",
    "Brevitas.Props.C116_zero_point_false",
    "Brevitas.Props.C116_ceil_mode_false",
    "Brevitas.Props.C116_fixed_point_false",
    "Brevitas.Props.C116_leaky_close",
    "Brevitas.Props.C116_leaky_monotone",
    "Brevitas.Props.C116_leaky_codes",
    "Brevitas.Props.C116_steep_slope_false",
    "Brevitas.Props.C116_slope_scale",
    "Brevitas.Props.C116_leaky_calibrated",
    "Brevitas.Props.C116_shared_slopes_false",
    "Brevitas.Props.C116_leaky_from_map_false"
   ],
   "note": "C116_pool_factor/average/codes: pooling; C116_leaky_close/monotone: the leaky ReLU for any scales; C116_slope_scale and C116_leaky_calibrated: after any history of calls. Negations: ceil_mode, zero points, the lowest signed code, the divisor is not fixed point although its quantiser says so, slopes above 1, default quantisers shared by layers of different slopes, quantize_flexml raises on nn.LeakyReLU."
  },
  {
   "property": "C117",
   "status": "proved",
   "theorems": [
    "Brevitas.Props.C117_sigma_share",
    "Brevitas.Props.C117_sigma_quantised",
    "Brevitas.Props.C117_sigma_per_channel",
    "Brevitas.Props.C117_single_weight_nan",
    "Brevitas.Props.C117_learned_sigma_raises",
    "Brevitas.Props.C117_average_share",
    "Brevitas.Props.C117_channel_maxima"
   ],
   "note": "Full for mean plus sigma deviations (Cantelli bound, end to end with the integer quantiser and per channel), averages and channel maxima. Disagreements proved: a channel with a single weight has a NaN scale (C117_single_weight_nan); the learned variant raises for every tensor (C117_learned_sigma_raises)."
  },
  {
   "property": "C118",
   "status": "proved",
   "theorems": [
    "Brevitas.Props.C118_least_divergence",
    "Brevitas.Props.C118_bounds",
    "Brevitas.Props.C118_defined_iff",
    "Brevitas.Props.C118_default_widths",
    "Brevitas.Props.C118_constant_clipped",
    "Brevitas.Props.C118_sign_matters",
    "Brevitas.Props.C118_nonneg"
   ],
   "note": "Optimality, bounds and exact definedness. Disagreements proved: all elements equal and positive are clipped to the smallest candidate although the opposite sign is not clipped (C118_constant_clipped, C118_sign_matters)."
  },
  {
   "property": "C119",
   "status": "proved",
   "theorems": [
    "Brevitas.Props.C119_linear",
    "Brevitas.Props.C119_convolution",
    "Brevitas.Props.C119_transposed_convolution",
    "Brevitas.Props.C119_grouped_transpose_raises",
    "Brevitas.Props.C119_output_padding_missed"
   ],
   "note": "The layer functions are those of Spec/LayerFn (C94), the unfolding functions of the unfoldNd package are specified in Spec/Unfold. Not covered, with witnesses: grouped transposed convolutions raise (C119_grouped_transpose_raises), output padding is not unfolded, so that taps that only reach the padded outputs are missed (C119_output_padding_missed). Padding modes other than zeros are outside the statement."
  },
  {
   "property": "C120",
   "status": "proved",
   "theorems": [
    "Brevitas.Props.C120_paired",
    "Brevitas.Props.C120_windows",
    "Brevitas.Props.C120_windows_missed",
    "Brevitas.Props.C120_foreign_windows",
    "Brevitas.Props.C120_smaller_batch_raises",
    "Brevitas.Props.C120_larger_batch_ignored",
    "Brevitas.Props.C120_drawn_with_replacement",
    "Brevitas.Props.C120_linear",
    "Brevitas.Props.C120_linear_four_axes"
   ],
   "note": "For convolutions with a stride other than the size of the kernel the code unfolds with the wrong stride: windows are missed (C120_windows_missed) or windows that the layer does not have are used (C120_foreign_windows). A later batch with one sample less can raise (C120_smaller_batch_raises), the extra samples of a larger one are ignored (C120_larger_batch_ignored), with p = 1 windows are drawn with replacement (C120_drawn_with_replacement); linear inputs with four axes are cut wrongly (C120_linear_four_axes). Layers whose passes with and without quantisation have different numbers of windows cannot occur; that is a hypothesis of C120_paired."
  },
  {
   "property": "C121",
   "status": "proved",
   "theorems": [
    "Brevitas.Props.C121_linear",
    "Brevitas.Props.C121_convolution",
    "Brevitas.Props.C121_float_first_raises"
   ],
   "note": "Real numbers for float32. Transposed convolutions are not covered. The update that uses H and G is C40/C41. C121_float_first_raises: a pass without quantisation that was not preceded by one with quantisation raises."
  },
  {
   "property": "C122",
   "status": "proved",
   "theorems": [
    "Brevitas.Props.C122_stochastic",
    "Brevitas.Props.C122_read_twice_wrong",
    "Brevitas.Props.C122_by_name_wrong",
    "Brevitas.Props.C122_other_readers_raise",
    "Brevitas.Props.C122_mean",
    "Brevitas.Props.C122_mean_runs",
    "Brevitas.Props.C122_mean_keyword_raises",
    "Brevitas.Props.C122_mean_rewritten_raises"
   ],
   "note": "The provisos on how stochastic nodes are read and named, and on the form of the mean call, are necessary: C122_read_twice_wrong, C122_by_name_wrong, C122_other_readers_raise, C122_mean_keyword_raises and C122_mean_rewritten_raises show what happens outside."
  },
  {
   "property": "C123",
   "status": "partial",
   "theorems": [
    "Brevitas.Props.C123_operator",
    "Brevitas.Props.C123_export_partial",
    "Brevitas.Props.C123_axes_swapped",
    "Brevitas.Props.C123_no_bias_raises",
    "Brevitas.Props.C123_partially_quantised_raises",
    "Brevitas.Props.C123_quantised_arguments",
    "Brevitas.Props.C123_attribute_name_differs"
   ],
   "note": "The operator is right for every input. The axis squeezed afterwards is not the direction axis: the exported layer is the layer only for a batch of one (sequence first) or a sequence of one (batch first), and an invalid graph otherwise. Layers without biases cannot be exported. One attribute of the quantised operator has a name that does not follow the others."
  },
  {
   "property": "C124",
   "status": "proved",
   "theorems": [
    "Brevitas.Props.C124_rename",
    "Brevitas.Props.C124_rename_postfix",
    "Brevitas.Props.C124_act_layer",
    "Brevitas.Props.C124_clash_loses",
    "Brevitas.Props.C124_convert",
    "Brevitas.Props.C124_scale_from_stats",
    "Brevitas.Props.C124_scale_parameter",
    "Brevitas.Props.C124_min_value_differs",
    "Brevitas.Props.C124_round_differs",
    "Brevitas.Props.C124_bias",
    "Brevitas.Props.C124_no_bias"
   ],
   "note": "The clash of old and new names (C124_clash_loses), a minimal scale that bites (C124_min_value_differs) and rounding of powers of two with ties to even (C124_round_differs) are shown to break the claim and are the provisos in the statement."
  },
  {
   "property": "C125",
   "status": "partial",
   "theorems": [
    "Brevitas.Props.C125_enabled",
    "Brevitas.Props.C125_disabled_plain",
    "Brevitas.Props.C125_disabled_kind",
    "Brevitas.Props.C125_passes_partial",
    "Brevitas.Props.C125_widths_swapped",
    "Brevitas.Props.C125_becomes_invalid",
    "Brevitas.Props.C125_int_raises",
    "Brevitas.Props.C125_no_quantiser",
    "Brevitas.Props.C125_query_enabled",
    "Brevitas.Props.C125_query_disabled",
    "Brevitas.Props.C125_cache"
   ],
   "note": "A quant tensor that passes a disabled quantiser keeps its format only if exponent and mantissa are equally wide (C125_passes_partial): the two widths are exchanged (C125_widths_swapped), after which a valid tensor can be reported as invalid (C125_becomes_invalid). An integer quant tensor raises there (C125_int_raises), as does an activation function without quantiser (C125_no_quantiser)."
  },
  {
   "property": "C126",
   "status": "proved",
   "theorems": [
    "Brevitas.Props.C126_no_overflow",
    "Brevitas.Props.C126_plain_input_refused",
    "Brevitas.Props.C126_quant_weight",
    "Brevitas.Props.C126_stale_quant_weight"
   ],
   "note": "Scales are positive and channels not empty. C126_stale_quant_weight shows what the last sentence of the statement says: weights for a cached narrower input overflow with a wider one."
  },
  {
   "property": "C127",
   "status": "proved",
   "theorems": [
    "Brevitas.Props.C127_forward",
    "Brevitas.Props.C127_quant_bias",
    "Brevitas.Props.C127_questions",
    "Brevitas.Props.C127_own_scale",
    "Brevitas.Props.C127_shared_raises",
    "Brevitas.Props.C127_recorded_scale_is_kept"
   ],
   "note": "Integer biases; a layer with a minifloat bias quantiser raises a TypeError in every forward pass (its proxy takes two arguments, the layer gives three). C127_shared_raises: a quantiser shared by two layers raises in every forward pass (type[x] == type[y] compares the modules). C127_recorded_scale_is_kept: with caching off, or after the input scale changed, quant_bias() keeps the recorded scale."
  },
  {
   "property": "C128",
   "status": "proved",
   "theorems": [
    "Brevitas.Props.C128_regulariser_bounds",
    "Brevitas.Props.C128_regulariser_zero",
    "Brevitas.Props.C128_exponent",
    "Brevitas.Props.C128_loss",
    "Brevitas.Props.C128_gap",
    "Brevitas.Props.C128_weights",
    "Brevitas.Props.C128_start_is_nearest",
    "Brevitas.Props.C128_every_layer_once"
   ],
   "note": "Real numbers for floats; the optimiser and the scheduler are arbitrary functions of the learned parameters that keep their number. Layers are assumed to share no weight quantiser. The schedule theorem needs the warm-up and decay fractions in [0,1) and the end value not above the start value, as in the defaults; the gap bound needs an exponent of at least 1."
  },
  {
   "property": "C129",
   "status": "proved",
   "theorems": [
    "Brevitas.Props.C129_layer_options",
    "Brevitas.Props.C129_layer_no_activation",
    "Brevitas.Props.C129_one_quantiser",
    "Brevitas.Props.C129_no_interference",
    "Brevitas.Props.C129_accepts",
    "Brevitas.Props.C129_existing_quantiser",
    "Brevitas.Props.C129_activation_options",
    "Brevitas.Props.C129_activation_function",
    "Brevitas.Props.C129_attention_options",
    "Brevitas.Props.C129_lstm_options",
    "Brevitas.Props.C129_rnn_options",
    "Brevitas.Props.C129_rnn_ignores_gate_acc",
    "Brevitas.Props.C129_tied_quantisers_raise"
   ],
   "note": "Model KwOptions (on the injection model of C58). One existing quantiser given for two roles of the same layer is not modelled. Disagreements proved: QuantRNN ignores gate_acc_* keywords (it reads gate_acc_quant_*), and tie_input_output_quant=True always raises."
  },
  {
   "property": "C130",
   "status": "proved",
   "theorems": [
    "Brevitas.Props.C130_affine_scale",
    "Brevitas.Props.C130_initial_scale",
    "Brevitas.Props.C130_without_factor",
    "Brevitas.Props.C130_shift_always_raises",
    "Brevitas.Props.C130_log_scale_at_least_one",
    "Brevitas.Props.C130_log_scale_inverted",
    "Brevitas.Props.C130_training_forward",
    "Brevitas.Props.C130_eval_forward",
    "Brevitas.Props.C130_construct",
    "Brevitas.Props.C130_wrong_rank",
    "Brevitas.Props.C130_load"
   ],
   "note": "Disagreements: affine_shift_scale=True raises for every configuration (C130_shift_always_raises); with LOG_FP or POWER_OF_TWO scales the magnitude is taken in the log domain, so scales are never below one (C130_log_scale_at_least_one) and small scales are inverted at construction (C130_log_scale_inverted)."
  },
  {
   "property": "C131",
   "status": "proved",
   "theorems": [
    "Brevitas.Props.C131_fused_self_attention",
    "Brevitas.Props.C131_fused_cross_attention",
    "Brevitas.Props.C131_load_own_state",
    "Brevitas.Props.C131_bias_never_loads",
    "Brevitas.Props.C131_equal_sizes_refuse_encoder",
    "Brevitas.Props.C131_incomplete_refused",
    "Brevitas.Props.C131_different_sizes_need_encoder",
    "Brevitas.Props.C131_caller_dict_is_changed",
    "Brevitas.Props.C131_head_size"
   ],
   "note": "Disagreements: state dicts with projection biases never load (C131_bias_never_loads); a fused layer refuses encoder states of the same size, which the replaced layer accepts (C131_equal_sizes_refuse_encoder); loading changes the dict of the caller (C131_caller_dict_is_changed). The class Attention is external: only the names and shapes of its parameters and its documented projections are assumed."
  },
  {
   "property": "C132",
   "status": "proved",
   "theorems": [
    "Brevitas.Props.C132_at_most_one_module",
    "Brevitas.Props.C132_output_is_plain",
    "Brevitas.Props.C132_chain_output_is_plain",
    "Brevitas.Props.C132_two_heads",
    "Brevitas.Props.C132_read_twice",
    "Brevitas.Props.C132_inner_layer_changed"
   ],
   "note": "Disagreements: with two outputs only one becomes plain (C132_two_heads), an output that is read elsewhere stays a quant tensor (C132_read_twice), and if the last layer returns plain tensors already an inner layer is changed (C132_inner_layer_changed). Recurrent stacks, which have no return_quant_tensor attribute, are outside of the model."
  },
  {
   "property": "C133",
   "status": "proved",
   "theorems": [
    "Brevitas.Props.C133_windows",
    "Brevitas.Props.C133_reported_perplexity",
    "Brevitas.Props.C133_text_perplexity",
    "Brevitas.Props.C133_uniform_model",
    "Brevitas.Props.C133_two_rows",
    "Brevitas.Props.C133_uneven_windows"
   ],
   "note": "Exact logits; the language model is any function from a window to logits. Negations: tokens in several rows give windows beyond the end, windows of different lengths are weighted wrongly."
  },
  {
   "property": "C134",
   "status": "proved",
   "theorems": [
    "Brevitas.Props.C134_attention",
    "Brevitas.Props.C134_hidden_gets_no_weight",
    "Brevitas.Props.C134_no_mask_raises",
    "Brevitas.Props.C134_one_position_mask_raises"
   ],
   "note": "Composes with C78: the wrapped layer is the modelled QuantMultiheadAttention. Negations: a missing mask raises, a mask of one row for one query and several keys raises."
  },
  {
   "property": "C135",
   "status": "proved",
   "theorems": [
    "Brevitas.Props.C135_option_kept",
    "Brevitas.Props.C135_default",
    "Brevitas.Props.C135_override",
    "Brevitas.Props.C135_bias",
    "Brevitas.Props.C135_replacement_is_made",
    "Brevitas.Props.C135_linear",
    "Brevitas.Props.C135_conv",
    "Brevitas.Props.C135_conv_transpose",
    "Brevitas.Props.C135_lstm_without_bias",
    "Brevitas.Props.C135_lstm_dropout_lost",
    "Brevitas.Props.C135_attention_bias",
    "Brevitas.Props.C135_dtype_not_kept",
    "Brevitas.Props.C135_two_arguments_need_name"
   ],
   "note": "Attributes that torch layers store are trusted tables. Negations: an LSTM without bias is replaced by one with bias, dropout and projection of an LSTM are lost, attention always gets a bias and no learned key and value, device and number format are not kept, two-argument lambdas raise when replacing by class or name."
  },
  {
   "property": "C136",
   "status": "proved",
   "theorems": [
    "Brevitas.Props.C136_inside",
    "Brevitas.Props.C136_formats_restored",
    "Brevitas.Props.C136_nothing_changes",
    "Brevitas.Props.C136_mask_is_converted",
    "Brevitas.Props.C136_counter_is_converted",
    "Brevitas.Props.C136_double_precision_lost"
   ],
   "note": "Number formats after cast_to_float32 in full, for every block and every sharing of tensors; exactness for unchanged models without float64 and non-persistent buffers. Non-persistent buffers, new integer tensors and float64 are shown to be changed."
  },
  {
   "property": "C137",
   "status": "proved",
   "theorems": [
    "Brevitas.Props.C137_loss",
    "Brevitas.Props.C137_loss_zero",
    "Brevitas.Props.C137_gradient",
    "Brevitas.Props.C137_factor_ignored",
    "Brevitas.Props.C137_twice_the_loss"
   ],
   "note": "Loss and gradient in full over the reals, for tensors of equal shape. The incoming gradient is shown to be overwritten, so that scaled losses get a wrong gradient."
  },
  {
   "property": "C138",
   "status": "proved",
   "theorems": [
    "Brevitas.Props.C138_gradient",
    "Brevitas.Props.C138_learned_scale",
    "Brevitas.Props.C138_learned_bits",
    "Brevitas.Props.C138_tensor"
   ],
   "note": "C138_gradient is the general statement; C138_learned_scale, C138_learned_bits and C138_tensor are the closed forms. Exact reals; the rules of autograd for each operation are those of the Ste model."
  },
  {
   "property": "C139",
   "status": "proved",
   "theorems": [
    "Brevitas.Props.C139_value",
    "Brevitas.Props.C139_gradient",
    "Brevitas.Props.C139_clipped",
    "Brevitas.Props.C139_ratio",
    "Brevitas.Props.C139_scale_starves",
    "Brevitas.Props.C139_not_straight_through"
   ],
   "note": "Closed forms and bounds over exact reals; formats that map overflow to infinity or NaN are not covered. C139_not_straight_through shows that the ratio is not 1 in general, C139_scale_starves that learned scales hardly receive gradients."
  },
  {
   "property": "C140",
   "status": "proved",
   "theorems": [
    "Brevitas.Props.C140_gradient",
    "Brevitas.Props.C140_value",
    "Brevitas.Props.C140_pairing"
   ],
   "note": "Exact reals; no affine rescaling. The rules of autograd for each operation are those of the Ste model, and PyTorch documentation for the maximum."
  },
  {
   "property": "C141",
   "status": "proved",
   "theorems": [
    "Brevitas.Props.C141_contents",
    "Brevitas.Props.C141_round_trip",
    "Brevitas.Props.C141_missing",
    "Brevitas.Props.C141_errors",
    "Brevitas.Props.C141_any_checkpoint"
   ],
   "note": "Every module tree with distinct names. Contents of checkpoints, round trip (with shared tensors) and missing keys."
  },
  {
   "property": "C142",
   "status": "proved",
   "theorems": [
    "Brevitas.Props.C142_value",
    "Brevitas.Props.C142_gradient",
    "Brevitas.Props.C142_derivative",
    "Brevitas.Props.C142_scale_bound"
   ],
   "note": "Over exact reals. Value, closed form of the gradient, derivative along any path with rounding errors held, and a bound for the gradient of the scale."
  },
  {
   "property": "C143",
   "status": "proved",
   "theorems": [
    "Brevitas.Props.C143_unbiased",
    "Brevitas.Props.C143_variance",
    "Brevitas.Props.C143_clipped"
   ],
   "note": "Any ordered field with floor. Mean and variance of weighted sums over independent draws, and clipping."
  },
  {
   "property": "C144",
   "status": "proved",
   "theorems": [
    "Brevitas.Props.C144_direction",
    "Brevitas.Props.C144_close",
    "Brevitas.Props.C144_init",
    "Brevitas.Props.C144_zero_channel"
   ],
   "note": "Over exact reals, any channel. Direction only, closeness and clipping, initialisation; a channel of zeros gives NaN (proved)."
  },
  {
   "property": "C145",
   "status": "proved",
   "theorems": [
    "Brevitas.Props.C145_value",
    "Brevitas.Props.C145_gradient",
    "Brevitas.Props.C145_orthogonal",
    "Brevitas.Props.C145_learned_norm"
   ],
   "note": "Over exact reals, any channel. Value, closed form of the gradient, orthogonality, gradient of the learned norm."
  }
 ]
}