{
 "claims": [
  {
   "property": "C01",
   "status": "proved",
   "theorems": [
    "Decomon.C01_box_sound_and_exact",
    "Decomon.C01_box_identity_shortcut"
   ],
   "note": "Soundness, exactness at corners, and the identity shortcut."
  },
  {
   "property": "C02",
   "status": "proved",
   "theorems": [
    "Decomon.C02_constructor",
    "Decomon.C02_other_p_raises",
    "Decomon.C02_ball_sound_and_exact",
    "Decomon.C02_ballDomain_sound"
   ],
   "note": "p in {1,2,inf}; other p raise; constructor check."
  },
  {
   "property": "C03",
   "status": "proved",
   "theorems": [
    "Decomon.C03_mode_roundtrip",
    "Decomon.C03_flags_roundtrip",
    "Decomon.C03_length",
    "Decomon.C03_extract_then_full",
    "Decomon.C03_full_then_extract",
    "Decomon.C03_split_concat",
    "Decomon.C03_by_type"
   ],
   "note": "Modes, list packing, splitting and the by-type view of merge inputs."
  },
  {
   "property": "C04",
   "status": "proved",
   "theorems": [
    "Decomon.C04_tighten_valid",
    "Decomon.C04_tighten_never_looser",
    "Decomon.C04_tighten_uses_affine"
   ],
   "note": "Tightening keeps validity, never loosens, and is inside the concretised affine bounds."
  },
  {
   "property": "C05",
   "status": "partial",
   "theorems": [
    "Decomon.C05_relu_hull_partial",
    "Decomon.C05_relu_hull_lower",
    "Decomon.C05_relu_hull_upper_within_eps",
    "Decomon.C05_upper_refuted",
    "Decomon.C05_relu_hull_upper_tight"
   ],
   "note": "Proved outside the sliver l<0<u, u-l<eps; there the upper side is refuted, with an error below eps."
  },
  {
   "property": "C06",
   "status": "partial",
   "theorems": [
    "Decomon.C06_relu_valid_partial",
    "Decomon.C06_relu_valid_ibp",
    "Decomon.C06_relu_const_tight",
    "Decomon.C06_relu_affine_refuted"
   ],
   "note": "Proved outside the sliver (ibp without restriction); refuted inside it in affine mode."
  },
  {
   "property": "C07",
   "status": "proved",
   "theorems": [
    "Decomon.C07_add_valid",
    "Decomon.C07_minus_valid",
    "Decomon.C07_subtract_valid",
    "Decomon.C07_ibp_exact"
   ],
   "note": "All modes, with the dc decomposition."
  },
  {
   "property": "C08",
   "status": "partial",
   "theorems": [
    "Decomon.C08_sliver_refuted",
    "Decomon.C08_maximum_valid_partial",
    "Decomon.C08_minimum_valid_partial",
    "Decomon.C08_maximum_minimum_ibp"
   ],
   "note": "Proved outside the sliver of the inner ReLU (refuted inside); ibp without restriction."
  },
  {
   "property": "C09",
   "status": "proved",
   "theorems": [
    "Decomon.C09_multiply_valid",
    "Decomon.C09_multiply_ibp_exact_nonneg"
   ],
   "note": "McCormick, all sign patterns, all modes."
  },
  {
   "property": "C10",
   "status": "proved",
   "theorems": [
    "Decomon.C10_dense_valid",
    "Decomon.C10_dense_any_rank_valid",
    "Decomon.C10_dense_ibp_exact",
    "Decomon.C10_dense_identity_exact"
   ],
   "note": "Any rank, all modes, with dc; ibp bounds shown exact; identity branch."
  },
  {
   "property": "C11",
   "status": "proved",
   "theorems": [
    "Decomon.C11_conv_index",
    "Decomon.C11_conv_valid",
    "Decomon.C11_linear_valid"
   ],
   "note": "Any stride, dilation and padding; index map tied to the textbook convolution."
  },
  {
   "property": "C12",
   "status": "proved",
   "theorems": [
    "Decomon.C12_batchnorm_valid",
    "Decomon.C12_training_raises"
   ],
   "note": "Inference, all modes, any sign of gamma."
  },
  {
   "property": "C13",
   "status": "proved",
   "theorems": [
    "Decomon.C13_reindex_valid",
    "Decomon.C13_reindex_unmixed",
    "Decomon.C13_dropout"
   ],
   "note": "Re-indexing layers and Dropout."
  },
  {
   "property": "C14",
   "status": "partial",
   "theorems": [
    "Decomon.C14_add_valid",
    "Decomon.C14_average_valid",
    "Decomon.C14_subtract_valid",
    "Decomon.C14_maximum_valid_partial",
    "Decomon.C14_minimum_valid_partial",
    "Decomon.C14_maximum_minimum_ibp",
    "Decomon.C14_multiply_valid",
    "Decomon.C14_concat_valid",
    "Decomon.C14_sliver_refuted"
   ],
   "note": "All merges proved for any number of inputs; Maximum/Minimum outside the ReLU sliver (refuted inside; ibp unrestricted)."
  },
  {
   "property": "C15",
   "status": "proved",
   "theorems": [
    "Decomon.C15_maxpool_fast_valid",
    "Decomon.C15_maxpool_fast_shape"
   ],
   "note": "Any windows, all modes."
  },
  {
   "property": "C16",
   "status": "partial",
   "theorems": [
    "Decomon.C16_filters_ok_iff_partial",
    "Decomon.C16_index_error_refuted",
    "Decomon.C16_collision_refuted",
    "Decomon.C16_square_channel",
    "Decomon.C16_sum_refuted",
    "Decomon.C16_same_padding_refuted"
   ],
   "note": "Characterisation: holds exactly for square windows and height-one windows; IndexError, collisions and zero padding proved as counterexamples."
  },
  {
   "property": "C17",
   "status": "partial",
   "theorems": [
    "Decomon.C17_upper_refuted",
    "Decomon.C17_upper_hull_partial",
    "Decomon.C17_lower_valid",
    "Decomon.C17_lower_finetune_refuted"
   ],
   "note": "Lower hull proved; upper hull refuted for every box with a single, non-collapsed, largest upper end and proved for the others; lower with per-entry finetuning refuted."
  },
  {
   "property": "C18",
   "status": "partial",
   "theorems": [
    "Decomon.C18_upper_secant_partial",
    "Decomon.C18_lower_secant_partial",
    "Decomon.C18_upper_const_partial",
    "Decomon.C18_lower_const_partial",
    "Decomon.C18_upper_search_refuted",
    "Decomon.C18_lower_search_refuted",
    "Decomon.C18_narrow_refuted",
    "Decomon.C18_layer_valid_partial",
    "Decomon.C18_instances",
    "Decomon.C18_softsign_refuted",
    "Decomon.C18_iff"
   ],
   "note": "Secant and constant branches proved for sigmoid, tanh, softsign at hull and layer level; the grid-search branch is refuted for every interval that reaches it, and narrow intervals are refuted; C18_iff characterises exactly when the hull is right."
  },
  {
   "property": "C19",
   "status": "proved",
   "theorems": [
    "Decomon.C19_s_shape_const",
    "Decomon.C19_exp_softplus_const",
    "Decomon.C19_tight"
   ],
   "note": "Constant bounds of monotone activations."
  },
  {
   "property": "C20",
   "status": "partial",
   "theorems": [
    "Decomon.C20_lower_partial",
    "Decomon.C20_upper_refuted",
    "Decomon.C20_slopes"
   ],
   "note": "Lower line proved for all slopes and finetuning; the upper line is refuted on every interval."
  },
  {
   "property": "C21",
   "status": "partial",
   "theorems": [
    "Decomon.C21_log_valid",
    "Decomon.C21_exp_valid_partial",
    "Decomon.C21_exp_refuted",
    "Decomon.C21_log_affine_clamp_refuted"
   ],
   "note": "log proved; exp proved outside the epsilon sliver, refuted inside; log in affine mode refuted below the clamp."
  },
  {
   "property": "C22",
   "status": "partial",
   "theorems": [
    "Decomon.C22_softmin_ibp_partial",
    "Decomon.C22_clip",
    "Decomon.C22_softmax_refuted"
   ],
   "note": "The ibp bounds are proved to enclose the soft-min; softmax is refuted on a point box."
  },
  {
   "property": "C23",
   "status": "partial",
   "theorems": [
    "Decomon.C23_abs_nonneg_partial",
    "Decomon.C23_abs_refuted"
   ],
   "note": "Refuted; holds only for inputs known to be non-negative."
  },
  {
   "property": "C24",
   "status": "partial",
   "theorems": [
    "Decomon.C24_frac_pos_const_partial",
    "Decomon.C24_frac_pos_affine_refuted"
   ],
   "note": "Constant bounds proved; affine bounds refuted."
  },
  {
   "property": "C25",
   "status": "proved",
   "theorems": [
    "Decomon.C25_network_sorts",
    "Decomon.C25_sort_valid_ibp"
   ],
   "note": "Any length; ibp mode."
  },
  {
   "property": "C26",
   "status": "proved",
   "theorems": [
    "Decomon.C26_merge_with_previous_sound",
    "Decomon.C26_diagonal",
    "Decomon.C26_merge_exact",
    "Decomon.C26_identity_left"
   ],
   "note": ""
  },
  {
   "property": "C27",
   "status": "partial",
   "theorems": [
    "Decomon.C27_forward_valid_partial",
    "Decomon.C27_forward_valid_ibp",
    "Decomon.C27_input_box",
    "Decomon.C27_box_ibp",
    "Decomon.C27_box_partial",
    "Decomon.C27_input_ball",
    "Decomon.C27_ball_ibp",
    "Decomon.C27_ball_partial",
    "Decomon.C27_forward_refuted"
   ],
   "note": "Any graph of layers, any depth; unconditional in ibp mode; affine and hybrid modes under the hypothesis that no ReLU meets the sliver 0 < upper <= eps or -eps <= lower < 0; refuted by any amount without it."
  },
  {
   "property": "C28",
   "status": "partial",
   "theorems": [
    "Decomon.C28_crown_valid_partial",
    "Decomon.C28_box_partial",
    "Decomon.C28_crown_refuted"
   ],
   "note": "Chains of layers under the sliver hypothesis; refuted by any amount without it."
  },
  {
   "property": "C29",
   "status": "partial",
   "theorems": [
    "Decomon.C29_convert2Mode_valid",
    "Decomon.C29_dummy_valid_partial",
    "Decomon.C29_dummy_shape_refuted",
    "Decomon.C29_convert2BackwardMode_valid"
   ],
   "note": "Seven pairs of modes and Convert2BackwardMode proved; from ibp to affine or hybrid the values are valid but the shapes are refuted."
  },
  {
   "property": "C30",
   "status": "partial",
   "theorems": [
    "Decomon.C30_back_bounds_partial",
    "Decomon.C30_sliver_refuted"
   ],
   "note": "Under the sliver hypothesis of C28; refuted by any amount without it."
  },
  {
   "property": "C31",
   "status": "proved",
   "theorems": [
    "Decomon.C31_hybrid_inside_ibp",
    "Decomon.C31_box",
    "Decomon.C31_box_with_multiply"
   ],
   "note": ""
  },
  {
   "property": "C32",
   "status": "proved",
   "theorems": [
    "Decomon.C32_ibp_monotone"
   ],
   "note": ""
  },
  {
   "property": "C33",
   "status": "proved",
   "theorems": [
    "Decomon.C33_mask_exact",
    "Decomon.C33_adv_box_bounds",
    "Decomon.C33_negative_is_robust",
    "Decomon.C33_forward_ibp"
   ],
   "note": "Any model with valid bounds, any batch size and number of sub-boxes; end to end for forward-ibp models."
  },
  {
   "property": "C34",
   "status": "proved",
   "theorems": [
    "Decomon.C34_range_sound",
    "Decomon.C34_batch_size",
    "Decomon.C34_empty_box",
    "Decomon.C34_forward_ibp"
   ],
   "note": "Includes independence of the batch size."
  },
  {
   "property": "C35",
   "status": "partial",
   "theorems": [
    "Decomon.C35_covers_partial",
    "Decomon.C35_count",
    "Decomon.C35_widths",
    "Decomon.C35_images_refuted"
   ],
   "note": "Flat inputs; refuted for inputs of higher rank."
  },
  {
   "property": "C36",
   "status": "partial",
   "theorems": [
    "Decomon.C36_one_output_partial",
    "Decomon.C36_two_outputs_refuted"
   ],
   "note": "One output; refuted for two outputs."
  },
  {
   "property": "C37",
   "status": "partial",
   "theorems": [
    "Decomon.C37_upper_sound_partial",
    "Decomon.C37_lower_sound_partial",
    "Decomon.C37_count",
    "Decomon.C37_longest_edge",
    "Decomon.C37_small_boxes",
    "Decomon.C37_random_refuted",
    "Decomon.C37_range_refuted",
    "Decomon.C37_adv_iff"
   ],
   "note": "Deterministic splitting; random splitting and get_range_box/get_adv_box calls refuted."
  },
  {
   "property": "C38",
   "status": "partial",
   "theorems": [
    "Decomon.C38_positive_is_adversarial_partial",
    "Decomon.C38_negative_refuted"
   ],
   "note": "Documented meaning refuted; the converse (positive score proves an adversarial example) is proved."
  },
  {
   "property": "C39",
   "status": "partial",
   "theorems": [
    "Decomon.C39_noise_sound_partial",
    "Decomon.C39_other_p_raises",
    "Decomon.C39_box_model_raises",
    "Decomon.C39_negative_eps_refuted",
    "Decomon.C39_keras_model_partial"
   ],
   "note": "eps >= 0 and p in {1,2,inf}; negative eps refuted."
  },
  {
   "property": "C40",
   "status": "partial",
   "theorems": [
    "Decomon.C40_ibp_sound_partial",
    "Decomon.C40_raises_refuted"
   ],
   "note": "Only ibp models succeed; the rest raises."
  },
  {
   "property": "C41",
   "status": "partial",
   "theorems": [
    "Decomon.C41_one_hot_partial",
    "Decomon.C41_never_certifies_refuted",
    "Decomon.C41_two_sources_refuted"
   ],
   "note": "One source: sound but never negative; several sources: refuted."
  },
  {
   "property": "C42",
   "status": "partial",
   "theorems": [
    "Decomon.C42_score_sound_partial",
    "Decomon.C42_score_backward_refuted",
    "Decomon.C42_check_refuted",
    "Decomon.C42_score_loose_refuted"
   ],
   "note": "AdversarialScore forward proved in every mode; backward score and AdversarialCheck refuted."
  },
  {
   "property": "C43",
   "status": "partial",
   "theorems": [
    "Decomon.C43_round_trip_partial",
    "Decomon.C43_ball_refuted",
    "Decomon.C43_ball_negative_refuted",
    "Decomon.C43_ball_shape_refuted"
   ],
   "note": "Values round-trip in every mode; for a ball the restored x has one axis too many and the loss is refuted."
  },
  {
   "property": "C44",
   "status": "proved",
   "theorems": [
    "Decomon.C44_fusion_sound",
    "Decomon.C44_fusion_mode"
   ],
   "note": "Upper bound, exact on point bounds, from any mode."
  },
  {
   "property": "C45",
   "status": "proved",
   "theorems": [
    "Decomon.C45_radius_robust",
    "Decomon.C45_radius_backward",
    "Decomon.C45_radius_iff",
    "Decomon.C45_radius_backward_iff"
   ],
   "note": "Forward and backward versions."
  },
  {
   "property": "C46",
   "status": "partial",
   "theorems": [
    "Decomon.C46_upper_tuning",
    "Decomon.C46_lower_tuning_partial",
    "Decomon.C46_lower_tuning_refuted",
    "Decomon.C46_sub_boxes_refuted"
   ],
   "note": "Upper tuning proved; lower tuning and sub-boxes refuted."
  },
  {
   "property": "C47",
   "status": "partial",
   "theorems": [
    "Decomon.C47_depth",
    "Decomon.C47_visit",
    "Decomon.C47_convert_partial",
    "Decomon.C47_value_unique",
    "Decomon.C47_shallow_output_refuted",
    "Decomon.C47_shared_output_refuted",
    "Decomon.C47_unordered_refuted"
   ],
   "note": "Depths, visiting order, and value of a graph with one output; several outputs: shallow ones dropped, shared ones duplicated (refuted)."
  },
  {
   "property": "C48",
   "status": "partial",
   "theorems": [
    "Decomon.C48_layer",
    "Decomon.C48_layer_noShape",
    "Decomon.C48_layer_error",
    "Decomon.C48_dense",
    "Decomon.C48_backward_bounds_refuted",
    "Decomon.C48_merge",
    "Decomon.C48_convert2mode_partial",
    "Decomon.C48_convert2mode_refuted",
    "Decomon.C48_convert2mode_ibp_iff",
    "Decomon.C48_backward",
    "Decomon.C48_backward_unknown"
   ],
   "note": "Layers, merge layers, backward layers for all ranks; Dense call shapes; Convert2Mode from ibp to affine or hybrid and backward bounds refuted."
  },
  {
   "property": "C49",
   "status": "partial",
   "theorems": [
    "Decomon.C49_forward_partial",
    "Decomon.C49_batchnorm_refuted",
    "Decomon.C49_back_weights_refuted",
    "Decomon.C49_back_alpha_attribute_refuted",
    "Decomon.C49_back_alpha_ibp_refuted",
    "Decomon.C49_grid_refuted",
    "Decomon.C49_back_alpha_partial",
    "Decomon.C49_keras_partial",
    "Decomon.C49_keras_refuted"
   ],
   "note": "Under Keras 3 nothing is ever frozen: restoring and idempotence proved, removing refuted. The attribute _trainable_weights: forward models and finetuned backward activations, all call sequences; other cases refuted."
  },
  {
   "property": "C50",
   "status": "partial",
   "theorems": [
    "Decomon.C50_nonPos",
    "Decomon.C50_nonNeg",
    "Decomon.C50_clip",
    "Decomon.C50_grid",
    "Decomon.C50_idempotent",
    "Decomon.C50_sumtoone_refuted",
    "Decomon.C50_sumtoone_shape_refuted",
    "Decomon.C50_multiple_partial",
    "Decomon.C50_initializers"
   ],
   "note": "All constraints but ClipAlphaAndSumtoOne, whose result never has the shape of the weight (refuted)."
  },
  {
   "property": "C51",
   "status": "partial",
   "theorems": [
    "Decomon.C51_affine_partial",
    "Decomon.C51_smaller_partial",
    "Decomon.C51_ibp_no_effect",
    "Decomon.C51_larger_refuted",
    "Decomon.C51_other_type"
   ],
   "note": "Affine mode for any new ball, all modes for points of both balls, other types refused; ibp and hybrid refuted for larger balls."
  },
  {
   "property": "C52",
   "status": "partial",
   "theorems": [
    "Decomon.C52_table",
    "Decomon.C52_clone_partial",
    "Decomon.C52_case_refuted",
    "Decomon.C52_convert_default_refuted"
   ],
   "note": "Table of methods and clone for exact names; upper case and defaults of convert refuted."
  },
  {
   "property": "C53",
   "status": "partial",
   "theorems": [
    "Decomon.C53_split",
    "Decomon.C53_logits_partial",
    "Decomon.C53_shared_refuted"
   ],
   "note": "Split keeps the function of every chain; logits when the last layer is not used earlier, else refuted."
  },
  {
   "property": "C54",
   "status": "partial",
   "theorems": [
    "Decomon.C54_add_sound",
    "Decomon.C54_subtract_sound",
    "Decomon.C54_maximum_sound_partial",
    "Decomon.C54_scale_sound",
    "Decomon.C54_scale_refuted",
    "Decomon.C54_minus_negates_output",
    "Decomon.C54_minus_refuted",
    "Decomon.C54_addLayer",
    "Decomon.C54_average_two_sound_partial",
    "Decomon.C54_minimum_refuted",
    "Decomon.C54_average_three_refuted"
   ],
   "note": "add, subtract, scale by s >= 0, two-input layers proved, maximum under the sliver hypothesis; negative scale, minus, minimum and three-input average refuted."
  },
  {
   "property": "C55",
   "status": "partial",
   "theorems": [
    "Decomon.C55_lower_sound",
    "Decomon.C55_upper_partial",
    "Decomon.C55_upper_finetune_one",
    "Decomon.C55_upper_finetune_refuted",
    "Decomon.C55_lower_corner_alone"
   ],
   "note": "Lower bounds proved for all keyword arguments; upper bounds without finetuning; finetuned upper bounds refuted."
  },
  {
   "property": "C56",
   "status": "partial",
   "theorems": [
    "Decomon.C56_constants",
    "Decomon.C56_negative_axis_partial",
    "Decomon.C56_positive_axis_refuted",
    "Decomon.C56_axis_out_of_range",
    "Decomon.C56_negative_position_refuted",
    "Decomon.C56_low_rank_and_dc"
   ],
   "note": "Constants for all axes, weights for negative axes; every nonnegative axis refuted."
  },
  {
   "property": "C57",
   "status": "partial",
   "theorems": [
    "Decomon.C57_toeplitz_conv_partial",
    "Decomon.C57_non_square_raises",
    "Decomon.C57_channels_first_refuted",
    "Decomon.C57_channels_first_apply",
    "Decomon.C57_channels_first_single_partial"
   ],
   "note": "Square kernels, channels last: every size, stride, dilation, padding. Non-square kernels raise; channels first refuted."
  },
  {
   "property": "C58",
   "status": "proved",
   "theorems": [
    "Decomon.C58_crown_never_silent",
    "Decomon.C58_exception",
    "Decomon.C58_forward_exceptions"
   ],
   "note": "Which exception comes first is stated for crown-forward-*; for crown it is that of some merge layer."
  },
  {
   "property": "C59",
   "status": "proved",
   "theorems": [
    "Decomon.C59_sum_valid"
   ],
   "note": "All modes."
  },
  {
   "property": "C60",
   "status": "proved",
   "theorems": [
    "Decomon.C60_pow_valid"
   ],
   "note": "All modes."
  },
  {
   "property": "C61",
   "status": "partial",
   "theorems": [
    "Decomon.C61_dense_back_shift",
    "Decomon.C61_dense_back_necessary",
    "Decomon.C61_dense_back_valid_partial",
    "Decomon.C61_dense_back_tighter_partial",
    "Decomon.C61_dense_back_refuted",
    "Decomon.C61_set_back_bounds_refuted"
   ],
   "note": "ibp bounds of the combination, never looser, when the two ways to combine the bias agree (no bias, a constant bias, a diagonal C); otherwise refuted (C61_dense_back_refuted), and C61_dense_back_necessary shows that no other biases are handled. Affine raises. C61_set_back_bounds_refuted: the method that should switch the feature on raises."
  },
  {
   "property": "C62",
   "status": "proved",
   "theorems": [
    "Decomon.C62_dot_valid"
   ],
   "note": "Default axes, all modes."
  },
  {
   "property": "C63",
   "status": "partial",
   "theorems": [
    "Decomon.C63_max_valid_partial",
    "Decomon.C63_min_valid_partial",
    "Decomon.C63_max_ibp_exact",
    "Decomon.C63_sliver_refuted"
   ],
   "note": "ibp unrestricted; affine and hybrid outside the ReLU sliver, refuted inside."
  },
  {
   "property": "C64",
   "status": "proved",
   "theorems": [
    "Decomon.C64_unreachable",
    "Decomon.C64_lower_ascii",
    "Decomon.C64_accepted",
    "Decomon.C64_rejected",
    "Decomon.C64_resolved",
    "Decomon.C64_callable",
    "Decomon.C64_relu_parameters",
    "Decomon.C64_relu_error"
   ],
   "note": ""
  },
  {
   "property": "C65",
   "status": "partial",
   "theorems": [
    "Decomon.C65_each_entry_partial",
    "Decomon.C65_returned_partial",
    "Decomon.C65_backward_max_refuted"
   ],
   "note": "The bounds in each entry are sound for any number of entries (the inner calls use a BoxDomain whatever the domain); their merge is refuted."
  },
  {
   "property": "C66",
   "status": "proved",
   "theorems": [
    "Decomon.C66_inline_graph",
    "Decomon.C66_inline_unique",
    "Decomon.C66_inline_objects",
    "Decomon.C66_inline_fn",
    "Decomon.C66_disconnected",
    "Decomon.C66_backward_raises",
    "Decomon.C66_backward_no_bounds",
    "Decomon.C66_backward_returns",
    "Decomon.C66_backward_order",
    "Decomon.C66_backward_order_first",
    "Decomon.C66_nested_refuted"
   ],
   "note": "Nested models with one output are inlined by clone/convert (graphs, and layer objects of chains); the backward pass alone is proved to raise ValueError on a nested model."
  },
  {
   "property": "C67",
   "status": "partial",
   "theorems": [
    "Decomon.C67_ball_crown_refuted",
    "Decomon.C67_ball_affine_partial",
    "Decomon.C67_ball_crown_relu"
   ],
   "note": "Affine and hybrid modes proved under the sliver hypothesis; methods in ibp mode refuted."
  },
  {
   "property": "C68",
   "status": "proved",
   "theorems": [
    "Decomon.C68_permute_iff_square"
   ],
   "note": "Exact characterisation: correct iff the shape is square."
  },
  {
   "property": "C69",
   "status": "partial",
   "theorems": [
    "Decomon.C69_multiply_rank_refuted",
    "Decomon.C69_multiply_value_partial"
   ],
   "note": "Values sound for one coordinate; rank refuted for all sizes."
  },
  {
   "property": "C70",
   "status": "partial",
   "theorems": [
    "Decomon.C70_concat_shape_refuted",
    "Decomon.C70_concat_meaning",
    "Decomon.C70_concat_single_partial"
   ],
   "note": "Proved for one input; refuted for two non-empty inputs or more, with the meaning of what is returned."
  },
  {
   "property": "C71",
   "status": "partial",
   "theorems": [
    "Decomon.C71_linear_exact_partial",
    "Decomon.C71_crown_inside_ibp_refuted"
   ],
   "note": "Chains without ReLU: bounds are exact; refuted with one ReLU."
  },
  {
   "property": "C72",
   "status": "partial",
   "theorems": [
    "Decomon.C72_independent_partial",
    "Decomon.C72_no_target_refuted"
   ],
   "note": "Samples with at least one pair; refuted without pair."
  },
  {
   "property": "C73",
   "status": "partial",
   "theorems": [
    "Decomon.C73_integer_labels_raise_partial",
    "Decomon.C73_integer_labels_mask",
    "Decomon.C73_integer_labels_refuted"
   ],
   "note": "Exact condition for acceptance; soundness refuted."
  },
  {
   "property": "C74",
   "status": "partial",
   "theorems": [
    "Decomon.C74_upper_sound_partial",
    "Decomon.C74_affine_raises_refuted",
    "Decomon.C74_negative_coefficient_refuted"
   ],
   "note": "Non-negative coefficients, ibp and hybrid; affine raises, negative coefficients refuted."
  },
  {
   "property": "C75",
   "status": "partial",
   "theorems": [
    "Decomon.C75_build_refuted",
    "Decomon.C75_shift_refuted",
    "Decomon.C75_unpack_partial"
   ],
   "note": "AttributeError for every model and shifted tensors proved; reading is right only with an extra tensor in front."
  },
  {
   "property": "C76",
   "status": "proved",
   "theorems": [
    "Decomon.C76_losses_sound"
   ],
   "note": "All modes, through packing, batch mean."
  },
  {
   "property": "C77",
   "status": "partial",
   "theorems": [
    "Decomon.C77_adv_loss_sound_partial",
    "Decomon.C77_hybrid_refuted",
    "Decomon.C77_sigmoid"
   ],
   "note": "ibp and affine; hybrid refuted."
  },
  {
   "property": "C78",
   "status": "proved",
   "theorems": [
    "Decomon.C78_asymptotic"
   ],
   "note": "Upper bound, clip and attained."
  },
  {
   "property": "C79",
   "status": "partial",
   "theorems": [
    "Decomon.C79_cce_valid_partial",
    "Decomon.C79_cce_ibp",
    "Decomon.C79_sliver_refuted"
   ],
   "note": "ibp unconditional; hybrid and affine outside refuted cases of exp and log, refuted for an output narrower than epsilon."
  },
  {
   "property": "C80",
   "status": "partial",
   "theorems": [
    "Decomon.C80_backward_refuted",
    "Decomon.C80_backward_partial"
   ],
   "note": "Refuted as an upper bound; entries are positive and sum to one."
  },
  {
   "property": "C81",
   "status": "partial",
   "theorems": [
    "Decomon.C81_outputs_refuted",
    "Decomon.C81_outputs_length_partial"
   ],
   "note": "Refuted: the final conversion keeps the tensors of the first output only; number of tensors proved."
  },
  {
   "property": "C82",
   "status": "partial",
   "theorems": [
    "Decomon.C82_names_refuted",
    "Decomon.C82_function_refuted",
    "Decomon.C82_function_partial"
   ],
   "note": "Names and a final Activation softmax refuted; otherwise the function of the user layers is kept."
  },
  {
   "property": "C83",
   "status": "partial",
   "theorems": [
    "Decomon.C83_sum_partial",
    "Decomon.C83_expand_dims_partial",
    "Decomon.C83_concatenate_partial",
    "Decomon.C83_concatenate_values",
    "Decomon.C83_negative_axis_refuted",
    "Decomon.C83_sum_refuted"
   ],
   "note": "Axis -1 and positive axes proved for all ranks; every other negative axis refuted."
  },
  {
   "property": "C84",
   "status": "proved",
   "theorems": [
    "Decomon.C84_forward_box",
    "Decomon.C84_forward_box_values",
    "Decomon.C84_crown_box",
    "Decomon.C84_forward_ball"
   ],
   "note": "Forward: every graph, mode and slope, boxes and balls; CROWN: every chain."
  },
  {
   "property": "C85",
   "status": "partial",
   "theorems": [
    "Decomon.C85_upper_lowest_partial",
    "Decomon.C85_vslope_middle",
    "Decomon.C85_vslope_eq_aslope",
    "Decomon.C85_vslope_smallest_area",
    "Decomon.C85_sliver_refuted"
   ],
   "note": "Proved outside the sliver l<0<u, u-l<eps; inside it refuted."
  },
  {
   "property": "C86",
   "status": "partial",
   "theorems": [
    "Decomon.C86_range_ibp_partial",
    "Decomon.C86_adv_ibp_partial",
    "Decomon.C86_affine_refuted"
   ],
   "note": "ibp mode, range and score; affine and hybrid refuted."
  },
  {
   "property": "C87",
   "status": "proved",
   "theorems": [
    "Decomon.C87_range_converges",
    "Decomon.C87_score_converges",
    "Decomon.C87_adv_complete",
    "Decomon.C87_range_hybrid"
   ],
   "note": "Any network in ibp mode; hybrid without Multiply."
  },
  {
   "property": "C88",
   "status": "partial",
   "theorems": [
    "Decomon.C88_add_average_partial",
    "Decomon.C88_multiply_partial",
    "Decomon.C88_maximum_refuted",
    "Decomon.C88_minimum_refuted",
    "Decomon.C88_maximum_affine_refuted",
    "Decomon.C88_multiply_upper_refuted",
    "Decomon.C88_multiply_three_refuted"
   ],
   "note": "Add, Average, and the symmetric parts of Multiply; the rest refuted."
  },
  {
   "property": "C89",
   "status": "partial",
   "theorems": [
    "Decomon.C89_exact_partial",
    "Decomon.C89_maximum_upper_iff",
    "Decomon.C89_maximum_lower_iff",
    "Decomon.C89_multiply_upper_iff",
    "Decomon.C89_multiply_lower_iff",
    "Decomon.C89_loose_refuted"
   ],
   "note": "ReLU, Add, Subtract exact; exact conditions for Maximum and Multiply, refuted outside."
  },
  {
   "property": "C90",
   "status": "partial",
   "theorems": [
    "Decomon.C90_candidate_partial",
    "Decomon.C90_tie_refuted",
    "Decomon.C90_point_refuted",
    "Decomon.C90_looser_than_constant_refuted"
   ],
   "note": "Proved when a candidate with a score below the largest magnitude exists; ties, fixed entries and tightness refuted."
  },
  {
   "property": "C91",
   "status": "partial",
   "theorems": [
    "Decomon.C91_forward_ibp_partial",
    "Decomon.C91_forward_partial",
    "Decomon.C91_crown_partial",
    "Decomon.C91_batchnorm_refuted",
    "Decomon.C91_crown_forward_batchnorm_refuted"
   ],
   "note": "Proved without BatchNormalization (with it for crown), slivers excluded as in C27; refuted with BatchNormalization for forward and crown-forward-ibp."
  },
  {
   "property": "C92",
   "status": "partial",
   "theorems": [
    "Decomon.C92_forward_fixed",
    "Decomon.C92_forward_ibp_partial",
    "Decomon.C92_crown_refuted",
    "Decomon.C92_crown_forward_refuted"
   ],
   "note": "The forward bounds never change (all modes) and stay valid in ibp mode; refuted for crown and crown-forward-ibp."
  },
  {
   "property": "C93",
   "status": "partial",
   "theorems": [
    "Decomon.C93_copies",
    "Decomon.C93_frame",
    "Decomon.C93_unbuilt",
    "Decomon.C93_atomic_partial",
    "Decomon.C93_succeeds",
    "Decomon.C93_shape_mismatch_refuted"
   ],
   "note": "Copy, frame, exact errors proved; atomicity proved for equal shapes, refuted otherwise."
  },
  {
   "property": "C94",
   "status": "partial",
   "theorems": [
    "Decomon.C94_success_iff",
    "Decomon.C94_errors",
    "Decomon.C94_bounds_partial",
    "Decomon.C94_activation_refuted"
   ],
   "note": "Success condition and errors proved; the bounded function is proved without activation argument, refuted with."
  },
  {
   "property": "C95",
   "status": "partial",
   "theorems": [
    "Decomon.C95_keras_layer_partial",
    "Decomon.C95_merge_refuted",
    "Decomon.C95_unknown",
    "Decomon.C95_decomon_layer_refuted",
    "Decomon.C95_maxpooling_refuted"
   ],
   "note": "Proved for Keras layers of eleven classes, which are all that are accepted; refuted for decomon layers, MaxPooling2D and six merge layers."
  },
  {
   "property": "C96",
   "status": "partial",
   "theorems": [
    "Decomon.C96_activation_partial",
    "Decomon.C96_activation_slope",
    "Decomon.C96_slope_lost_refuted",
    "Decomon.C96_backward_activation",
    "Decomon.C96_convert2mode_partial",
    "Decomon.C96_convert2mode_refuted",
    "Decomon.C96_kernel_partial",
    "Decomon.C96_not_shared",
    "Decomon.C96_shared_refuted"
   ],
   "note": "Proved for BackwardActivation and default slope, input_dim, unshared weights; refuted otherwise."
  },
  {
   "property": "C97",
   "status": "partial",
   "theorems": [
    "Decomon.C97_identity",
    "Decomon.C97_diag_partial",
    "Decomon.C97_diag_refuted",
    "Decomon.C97_single_shape_partial",
    "Decomon.C97_scalar_shape_refuted"
   ],
   "note": "Identity proved for all ranks; diagonal for matrices, refuted from rank 3; scalar shape refuted."
  },
  {
   "property": "C98",
   "status": "partial",
   "theorems": [
    "Decomon.C98_dot_valid_partial",
    "Decomon.C98_dot_dc",
    "Decomon.C98_normalize_refuted",
    "Decomon.C98_arity",
    "Decomon.C98_shape_partial",
    "Decomon.C98_vectors_refuted"
   ],
   "note": "Proved for normalize=False and ranks of at least 3; refuted for normalize=True and for two vectors."
  },
  {
   "property": "C99",
   "status": "partial",
   "theorems": [
    "Decomon.C99_box",
    "Decomon.C99_ball_ibp_partial",
    "Decomon.C99_ball_refuted",
    "Decomon.C99_ball_coords"
   ],
   "note": "Proved for boxes and for balls in ibp mode; refuted for balls in affine and hybrid mode."
  },
  {
   "property": "C100",
   "status": "partial",
   "theorems": [
    "Decomon.C100_reset_method_partial",
    "Decomon.C100_reset_raises_refuted",
    "Decomon.C100_reset_backward_refuted",
    "Decomon.C100_tuning_refuted",
    "Decomon.C100_tuning_no_boxes"
   ],
   "note": "Refuted for Keras 3: tuning raises on every input, reset_finetuning raises on tuned forward activations and never resets backward ones. Proved for forward activations when Variable.value is a method."
  },
  {
   "property": "C101",
   "status": "partial",
   "theorems": [
    "Decomon.C101_name",
    "Decomon.C101_keys_partial",
    "Decomon.C101_empty_refuted"
   ],
   "note": "Exactly the layers whose Keras name contains the pattern are found; refuted for all others and for the domains of the library."
  },
  {
   "property": "C102",
   "status": "partial",
   "theorems": [
    "Decomon.C102_targets_partial",
    "Decomon.C102_batches_refuted",
    "Decomon.C102_int_refuted",
    "Decomon.C102_check_refuted"
   ],
   "note": "One batch with one target vector per sample proved; integer targets, several batches and check_adv_box refuted."
  },
  {
   "property": "C103",
   "status": "partial",
   "theorems": [
    "Decomon.C103_by_type_partial",
    "Decomon.C103_affine_refuted"
   ],
   "note": "Proved in ibp and hybrid mode and in affine mode without the computation; refuted with it."
  },
  {
   "property": "C104",
   "status": "proved",
   "theorems": [
    "Decomon.C104_forward_near",
    "Decomon.C104_box",
    "Decomon.C104_box_concretised",
    "Decomon.C104_gain_relu_chain",
    "Decomon.C104_ball",
    "Decomon.C104_quarter_sharp"
   ],
   "note": "Any network without Multiply, every mode, box and ball; one quarter is sharp."
  },
  {
   "property": "C105",
   "status": "proved",
   "theorems": [
    "Decomon.C105_crown_near",
    "Decomon.C105_box",
    "Decomon.C105_back_bounds",
    "Decomon.C105_certificate",
    "Decomon.C105_ball_affine"
   ],
   "note": "Chains (other networks raise, C58); box in every mode, ball in affine and hybrid mode (ibp mode is refuted in C67); with and without back_bounds."
  },
  {
   "property": "C106",
   "status": "partial",
   "theorems": [
    "Decomon.C106_attained",
    "Decomon.C106_positive",
    "Decomon.C106_one_step_partial",
    "Decomon.C106_equal_steps_exact",
    "Decomon.C106_upper",
    "Decomon.C106_pair",
    "Decomon.C106_maximum_refuted",
    "Decomon.C106_bounds_refuted"
   ],
   "note": "Attained, sign, within one step, exact for equal steps proved; optimality in general refuted."
  },
  {
   "property": "C107",
   "status": "proved",
   "theorems": [
    "Decomon.C107_shared",
    "Decomon.C107_split",
    "Decomon.C107_all",
    "Decomon.C107_guards",
    "Decomon.C107_missing_attribute",
    "Decomon.C107_untracked_refuted",
    "Decomon.C107_repeated_name_refuted",
    "Decomon.C107_reset_all"
   ],
   "note": "Layers of the same class whose build sets the shared attributes; the failure otherwise and all error cases are proved too."
  },
  {
   "property": "C108",
   "status": "proved",
   "theorems": [
    "Decomon.C108_forward_sound",
    "Decomon.C108_box",
    "Decomon.C108_ball",
    "Decomon.C108_monotone",
    "Decomon.C108_point",
    "Decomon.C108_shrink",
    "Decomon.C108_range_converges",
    "Decomon.C108_score_converges",
    "Decomon.C108_adv_complete"
   ],
   "note": "Forward ibp; softmax is not among the layers (C22), nor are the activations that raise (C64); affine and hybrid modes are C18, C20, C21, C27."
  },
  {
   "property": "C109",
   "status": "partial",
   "theorems": [
    "Decomon.C109_success",
    "Decomon.C109_errors",
    "Decomon.C109_attributes_partial",
    "Decomon.C109_attributes_refuted"
   ],
   "note": "Success, exceptions and attributes proved; the attributes are refuted when both final flags are False."
  },
  {
   "property": "C110",
   "status": "partial",
   "theorems": [
    "Decomon.C110_forward",
    "Decomon.C110_backward",
    "Decomon.C110_layer_fn_partial",
    "Decomon.C110_layer_fn_refuted",
    "Decomon.C110_layer_fn_crown_refuted",
    "Decomon.C110_kwargs_refuted",
    "Decomon.C110_softmax_refuted",
    "Decomon.C110_finetune_refuted"
   ],
   "note": "Proved for the default layer_fn and for those with a parameter input_dim; five ways in which an option is lost are proved."
  },
  {
   "property": "C111",
   "status": "proved",
   "theorems": [
    "Decomon.C111_width",
    "Decomon.C111_sharp",
    "Decomon.C111_range",
    "Decomon.C111_adv"
   ],
   "note": "Explicit constant read off the weights; exact for affine networks."
  },
  {
   "property": "C112",
   "status": "partial",
   "theorems": [
    "Decomon.C112_success",
    "Decomon.C112_bounds",
    "Decomon.C112_convex",
    "Decomon.C112_sum_partial",
    "Decomon.C112_sum_ibp",
    "Decomon.C112_functions",
    "Decomon.C112_max",
    "Decomon.C112_max_bounds_refuted",
    "Decomon.C112_sum_refuted",
    "Decomon.C112_input"
   ],
   "note": "Convexity proved in all modes; the sum in ibp mode, in the other ones outside slivers (refuted inside); bounds of max_ refuted."
  },
  {
   "property": "C113",
   "status": "partial",
   "theorems": [
    "Decomon.C113_names",
    "Decomon.C113_raises",
    "Decomon.C113_sshape_iff",
    "Decomon.C113_softplus_lower_partial",
    "Decomon.C113_softplus_upper_refuted",
    "Decomon.C113_shapes",
    "Decomon.C113_merge_refuted",
    "Decomon.C113_merge_rank2",
    "Decomon.C113_crown_partial",
    "Decomon.C113_point",
    "Decomon.C113_exponential_raises",
    "Decomon.C113_sshape_crown_refuted",
    "Decomon.C113_softplus_crown_refuted"
   ],
   "note": "Characterised: sound exactly on one-sided intervals (sigmoid, tanh, softsign); softplus upper bound and shapes of rank 3 and more refuted; exact on points."
  },
  {
   "property": "C114",
   "status": "partial",
   "theorems": [
    "Decomon.C114_dense",
    "Decomon.C114_dense_flat",
    "Decomon.C114_dense_crown_refuted",
    "Decomon.C114_batchnorm",
    "Decomon.C114_batchnorm_crown_refuted",
    "Decomon.C114_batchnorm_axis_refuted",
    "Decomon.C114_batchnorm_flat_partial",
    "Decomon.C114_permute"
   ],
   "note": "Proved after a forward pass for every rank and axis (Dense, BatchNormalization); refuted for pure crown, with the cases that work."
  },
  {
   "property": "C115",
   "status": "partial",
   "theorems": [
    "Decomon.C115_pool_partial",
    "Decomon.C115_valid_padding_ibp",
    "Decomon.C115_nonnegative_ibp",
    "Decomon.C115_same_padding_iff",
    "Decomon.C115_tall_refuted",
    "Decomon.C115_wide_refuted",
    "Decomon.C115_same_padding_refuted"
   ],
   "note": "Square and height-one windows: proved without padding and on non-negative images (ibp), outside the ReLU sliver (other modes), exact condition for padding same; other windows and negative images with padding same refuted."
  },
  {
   "property": "C116",
   "status": "partial",
   "theorems": [
    "Decomon.C116_entry_iff",
    "Decomon.C116_entry_ge",
    "Decomon.C116_shrunk",
    "Decomon.C116_forward_partial",
    "Decomon.C116_crown_partial",
    "Decomon.C116_dummy_iff",
    "Decomon.C116_forward_ibp",
    "Decomon.C116_backward_partial",
    "Decomon.C116_build_iff",
    "Decomon.C116_default_refuted",
    "Decomon.C116_unpack",
    "Decomon.C116_crown_ibp_refuted"
   ],
   "note": "Certificates proved outside the sliver of the ReLU hull; forward-ibp without restriction; which models can be built and run characterised, default methods refuted."
  },
  {
   "property": "C117",
   "status": "partial",
   "theorems": [
    "Decomon.C117_names_partial",
    "Decomon.C117_flat_partial",
    "Decomon.C117_again_partial",
    "Decomon.C117_nested_refuted",
    "Decomon.C117_sequential_refuted",
    "Decomon.C117_input_refuted"
   ],
   "note": "Proved when no numbered input name begins with the name of a layer and nested models have at most one fused activation (none for Sequential); otherwise refuted."
  },
  {
   "property": "C118",
   "status": "partial",
   "theorems": [
    "Decomon.C118_slack_partial",
    "Decomon.C118_certificate_partial",
    "Decomon.C118_cast",
    "Decomon.C118_one_sign_partial",
    "Decomon.C118_float_error",
    "Decomon.C118_float_monotone",
    "Decomon.C118_point_refuted"
   ],
   "note": "Sound up to an explicit slack, and without slack for weights of one sign; refuted in float32 otherwise."
  },
  {
   "property": "C119",
   "status": "partial",
   "theorems": [
    "Decomon.C119_eval",
    "Decomon.C119_forward_partial",
    "Decomon.C119_crown_partial",
    "Decomon.C119_input_units",
    "Decomon.C119_input_units_crown",
    "Decomon.C119_permute",
    "Decomon.C119_guard_refuted",
    "Decomon.C119_product_sign_refuted"
   ],
   "note": "Boxes only; with factors other than 1 at a ReLU the guard must not be met; products keep their signs; backward methods without merge layers."
  },
  {
   "property": "C120",
   "status": "proved",
   "theorems": [
    "Decomon.C120_eval",
    "Decomon.C120_forward",
    "Decomon.C120_crown_forward",
    "Decomon.C120_crown",
    "Decomon.C120_ibp",
    "Decomon.C120_dense_batchNorm",
    "Decomon.C120_batchNorm_dense",
    "Decomon.C120_conv_batchNorm",
    "Decomon.C120_skip",
    "Decomon.C120_forward_ball",
    "Decomon.C120_dense_refuted",
    "Decomon.C120_affine_refuted",
    "Decomon.C120_crown_forward_refuted"
   ],
   "note": "Folding leaves all methods unchanged; any merging leaves crown unchanged and tightens forward-ibp; the other two cases shown by concrete networks."
  },
  {
   "property": "C121",
   "status": "partial",
   "theorems": [
    "Decomon.C121_ibp_partial",
    "Decomon.C121_eval",
    "Decomon.C121_transfer",
    "Decomon.C121_continuous",
    "Decomon.C121_forward_refuted",
    "Decomon.C121_crown_refuted"
   ],
   "note": "Proved for forward-ibp; refuted for the methods that use affine forms with the default slope."
  },
  {
   "property": "C122",
   "status": "partial",
   "theorems": [
    "Decomon.C122_box_ordered_partial",
    "Decomon.C122_box_halves",
    "Decomon.C122_noise_ordered_partial",
    "Decomon.C122_noise_other_p",
    "Decomon.C122_negative_eps_refuted",
    "Decomon.C122_ibp_ordered",
    "Decomon.C122_forward_refuted",
    "Decomon.C122_crown_refuted"
   ],
   "note": "Proved for valid bounds and for forward-ibp; refuted by any amount for the other methods on boxes narrower than epsilon, and for negative eps."
  },
  {
   "property": "C123",
   "status": "proved",
   "theorems": [
    "Decomon.C123_slack",
    "Decomon.C123_certificate",
    "Decomon.C123_exact_function",
    "Decomon.C123_no_error",
    "Decomon.C123_rounded",
    "Decomon.C123_rounded_exists",
    "Decomon.C123_rounded_certificate"
   ],
   "note": "Forward-ibp; the error model is a parameter, instantiated for rounded arithmetic. That no slack at all is needed is refuted in C118."
  },
  {
   "property": "C124",
   "status": "partial",
   "theorems": [
    "Decomon.C124_inside_partial",
    "Decomon.C124_back_bounds_partial",
    "Decomon.C124_box_partial",
    "Decomon.C124_one_relu",
    "Decomon.C124_ball_partial",
    "Decomon.C124_crown_refuted",
    "Decomon.C124_hybrid_range_refuted",
    "Decomon.C124_finetune_refuted",
    "Decomon.C124_sliver_refuted"
   ],
   "note": "Proved for the affine bounds of crown-forward-affine and crown-forward-hybrid outside the sliver of the ReLU hull and with equal finetuning; refuted for crown (from several ReLU layers on), for the constants of hybrid mode, for different finetuning and in the sliver."
  },
  {
   "property": "C125",
   "status": "proved",
   "theorems": [
    "Decomon.C125_forward",
    "Decomon.C125_forward_box",
    "Decomon.C125_crown_box",
    "Decomon.C125_back_bounds",
    "Decomon.C125_range",
    "Decomon.C125_range_crown",
    "Decomon.C125_adv",
    "Decomon.C125_forward_ball",
    "Decomon.C125_crown_ball",
    "Decomon.C125_sharp"
   ],
   "note": "Forward conversion on boxes and balls, backward conversion of chains, back_bounds, get_range_box for every method and get_adv_box in affine and hybrid mode (ibp mode is C111). The layers are those of Net; networks with Multiply are excluded."
  },
  {
   "property": "C126",
   "status": "partial",
   "theorems": [
    "Decomon.C126_concretise",
    "Decomon.C126_forward",
    "Decomon.C126_crown_partial",
    "Decomon.C126_range_noise",
    "Decomon.C126_forward_range",
    "Decomon.C126_forward_ibp",
    "Decomon.C126_adv_ibp",
    "Decomon.C126_crown_ibp_refuted",
    "Decomon.C126_nested_refuted"
   ],
   "note": "Forward conversion in every mode and backward conversion in affine and hybrid mode are proved. Refuted: the backward methods in ibp mode (C126_crown_ibp_refuted, one coordinate, the cause is C67) and the claim that a smaller ball gets tighter bounds (C126_nested_refuted, affine mode)."
  },
  {
   "property": "C127",
   "status": "proved",
   "theorems": [
    "Decomon.C127_forward",
    "Decomon.C127_forward_box",
    "Decomon.C127_crown_box",
    "Decomon.C127_back_box",
    "Decomon.C127_forward_ball",
    "Decomon.C127_crown_ball",
    "Decomon.C127_range",
    "Decomon.C127_adv",
    "Decomon.C127_range_net",
    "Decomon.C127_adv_net",
    "Decomon.C127_interval_methods"
   ],
   "note": "The two methods that the claim leaves out are shown not to have the property (C127_interval_methods)."
  },
  {
   "property": "C128",
   "status": "partial",
   "theorems": [
    "Decomon.C128_forward_partial",
    "Decomon.C128_ibp",
    "Decomon.C128_hybrid_inside_ibp_partial",
    "Decomon.C128_box_partial",
    "Decomon.C128_ball_partial",
    "Decomon.C128_point",
    "Decomon.C128_sshape_iff",
    "Decomon.C128_softplus_refuted",
    "Decomon.C128_range_partial",
    "Decomon.C128_adv_partial"
   ],
   "note": "Proved for every network in which no activation receives an interval on which its own lines are wrong; outside this condition the claim is false (C128_softplus_refuted, C128_sshape_iff)."
  },
  {
   "property": "C129",
   "status": "partial",
   "theorems": [
    "Decomon.C129_order",
    "Decomon.C129_channels_last",
    "Decomon.C129_constants",
    "Decomon.C129_channels_first_partial",
    "Decomon.C129_forward_iff",
    "Decomon.C129_backward_iff",
    "Decomon.C129_range_refuted"
   ],
   "note": "Right for channels_last, for the constants, and for one channel or one place; with channels_first and several channels and places the affine and backward bounds are wrong (C129_forward_iff, C129_backward_iff, C129_range_refuted)."
  },
  {
   "property": "C130",
   "status": "proved",
   "theorems": [
    "Decomon.C130_same_shape",
    "Decomon.C130_exact",
    "Decomon.C130_channels_last_iff",
    "Decomon.C130_channels_first_iff",
    "Decomon.C130_rank_two",
    "Decomon.C130_refuted"
   ],
   "note": "Outside the shapes named by the claim the weights are wrong (C130_refuted)."
  },
  {
   "property": "C131",
   "status": "partial",
   "theorems": [
    "Decomon.C131_affine_refuted",
    "Decomon.C131_convert",
    "Decomon.C131_sound_partial",
    "Decomon.C131_box_partial",
    "Decomon.C131_ball_partial",
    "Decomon.C131_ibp_box",
    "Decomon.C131_point",
    "Decomon.C131_shapes",
    "Decomon.C131_value"
   ],
   "note": "In ibp mode for all graphs (C131_ibp_box); in affine and hybrid mode for graphs whose activations are all given intervals on which their lines are right (the others are refuted in C13, C18, C20, C21; for a whole graph in C131_affine_refuted, in both modes and for every epsilon)."
  },
  {
   "property": "C132",
   "status": "partial",
   "theorems": [
    "Decomon.C132_row_major",
    "Decomon.C132_output",
    "Decomon.C132_onBox_partial",
    "Decomon.C132_adv_shape",
    "Decomon.C132_adv_axes_refuted",
    "Decomon.C132_range_partial",
    "Decomon.C132_adv_partial",
    "Decomon.C132_range_ibp",
    "Decomon.C132_adv_ibp",
    "Decomon.C132_noise_partial"
   ],
   "note": "In ibp mode for all graphs (outputs with one axis for get_adv_box, refuted otherwise); in affine and hybrid mode for boxes on which no activation is given an interval where its lines are wrong."
  },
  {
   "property": "C133",
   "status": "proved",
   "theorems": [
    "Decomon.C133_maximum",
    "Decomon.C133_minimum",
    "Decomon.C133_max",
    "Decomon.C133_min",
    "Decomon.C133_sort"
   ],
   "note": "Every mode, every number of inputs, no interval excluded."
  },
  {
   "property": "C134",
   "status": "partial",
   "theorems": [
    "Decomon.C134_margin",
    "Decomon.C134_linear_adv_partial",
    "Decomon.C134_linear_adv_refuted",
    "Decomon.C134_positive_refuted"
   ],
   "note": "For sources whose lower line has a non-negative bias; false otherwise (refuted). The margin bound with the missing bias is proved without restriction."
  },
  {
   "property": "C135",
   "status": "partial",
   "theorems": [
    "Decomon.C135_linear_prod_partial",
    "Decomon.C135_linear_prod_shape_refuted"
   ],
   "note": "For backward bounds with the extra axis of size one; false for the shape the backward layers return (refuted)."
  },
  {
   "property": "C136",
   "status": "partial",
   "theorems": [
    "Decomon.C136_sort_raises_refuted",
    "Decomon.C136_sort_batch_refuted",
    "Decomon.C136_sort_one_partial"
   ],
   "note": "Only for one sample with one entry; raises in general (refuted)."
  },
  {
   "property": "C137",
   "status": "partial",
   "theorems": [
    "Decomon.C137_hull_raises_refuted",
    "Decomon.C137_hull_square_partial",
    "Decomon.C137_hull_clip_refuted"
   ],
   "note": "Holds for l_c >= 1 if K.power(z) is read as the square; the function raises, and the lines are false below one (refuted)."
  },
  {
   "property": "C138",
   "status": "partial",
   "theorems": [
    "Decomon.C138_softsign_partial",
    "Decomon.C138_softsign_sound_partial",
    "Decomon.C138_softsign_axis_refuted",
    "Decomon.C138_softsign_batch_refuted"
   ],
   "note": "For one sample and weights with the extra axis of size one; other shapes refuted."
  },
  {
   "property": "C139",
   "status": "partial",
   "theorems": [
    "Decomon.C139_refuted",
    "Decomon.C139_convert",
    "Decomon.C139_sound_partial",
    "Decomon.C139_final_partial",
    "Decomon.C139_box_partial",
    "Decomon.C139_ball_partial",
    "Decomon.C139_backBounds_partial",
    "Decomon.C139_matrix_partial",
    "Decomon.C139_point",
    "Decomon.C139_backBounds_several",
    "Decomon.C139_raises"
   ],
   "note": "Soundness when the bounds that reach the activations are outside the ranges on which their lines are wrong (relu slivers, s-shaped activations on intervals that are not one-sided); not from ibp to another mode; not softplus. C139_refuted: false in every mode, with and without a forward pass, for a graph of a relu and a dense layer. The traversal, the exactness on a point and the exceptions are proved without these conditions."
  },
  {
   "property": "C140",
   "status": "partial",
   "theorems": [
    "Decomon.C140_onBox_partial",
    "Decomon.C140_range_partial",
    "Decomon.C140_adv_partial",
    "Decomon.C140_point",
    "Decomon.C140_noise_partial",
    "Decomon.C140_linear_range",
    "Decomon.C140_linear_adv",
    "Decomon.C140_refuted"
   ],
   "note": "Complete for models of linear layers, for single points, and for forward-ibp (C132). Otherwise when the bounds that reach the activations are outside the ranges on which their lines are wrong. C140_refuted: false for every other method, by any amount, for the range and for the score. Not from ibp to another mode (C29), and get_range_noise not with the crown methods in ibp mode."
  },
  {
   "property": "C141",
   "status": "proved",
   "theorems": [
    "Decomon.C141_expression",
    "Decomon.C141_value",
    "Decomon.C141_forward",
    "Decomon.C141_backward",
    "Decomon.C141_backBounds"
   ],
   "note": ""
  },
  {
   "property": "C142",
   "status": "proved",
   "theorems": [
    "Decomon.C142_onBox",
    "Decomon.C142_range",
    "Decomon.C142_adv",
    "Decomon.C142_noise"
   ],
   "note": ""
  },
  {
   "property": "C143",
   "status": "proved",
   "theorems": [
    "Decomon.C143_monotone",
    "Decomon.C143_shrink",
    "Decomon.C143_adv_more",
    "Decomon.C143_score_converges",
    "Decomon.C143_adv_complete",
    "Decomon.C143_range_more",
    "Decomon.C143_range_converges"
   ],
   "note": ""
  },
  {
   "property": "C144",
   "status": "proved",
   "theorems": [
    "Decomon.C144_range",
    "Decomon.C144_adv",
    "Decomon.C144_adv_complete"
   ],
   "note": ""
  },
  {
   "property": "C145",
   "status": "proved",
   "theorems": [
    "Decomon.C145_width",
    "Decomon.C145_range",
    "Decomon.C145_score",
    "Decomon.C145_adv_complete",
    "Decomon.C145_noise"
   ],
   "note": ""
  },
  {
   "property": "C146",
   "status": "proved",
   "theorems": [
    "Decomon.C146_onBox",
    "Decomon.C146_range",
    "Decomon.C146_range_split",
    "Decomon.C146_adv",
    "Decomon.C146_decides",
    "Decomon.C146_noise"
   ],
   "note": ""
  },
  {
   "property": "C147",
   "status": "proved",
   "theorems": [
    "Decomon.C147_gain",
    "Decomon.C147_onBox",
    "Decomon.C147_range",
    "Decomon.C147_range_split",
    "Decomon.C147_adv",
    "Decomon.C147_noise"
   ],
   "note": ""
  },
  {
   "property": "C148",
   "status": "proved",
   "theorems": [
    "Decomon.C148_forward",
    "Decomon.C148_weights",
    "Decomon.C148_crown",
    "Decomon.C148_same_slope",
    "Decomon.C148_tie",
    "Decomon.C148_thin"
   ],
   "note": ""
  },
  {
   "property": "C149",
   "status": "proved",
   "theorems": [
    "Decomon.C149_computed",
    "Decomon.C149_box",
    "Decomon.C149_range",
    "Decomon.C149_range_certificate",
    "Decomon.C149_score_certificate",
    "Decomon.C149_exact",
    "Decomon.C149_zero",
    "Decomon.C149_dense_rounded",
    "Decomon.C149_cost_sharp"
   ],
   "note": ""
  },
  {
   "property": "C150",
   "status": "proved",
   "theorems": [
    "Decomon.C150_computed",
    "Decomon.C150_back_bounds",
    "Decomon.C150_box",
    "Decomon.C150_range",
    "Decomon.C150_range_certificate",
    "Decomon.C150_back_certificate",
    "Decomon.C150_exact",
    "Decomon.C150_exact_back",
    "Decomon.C150_zero"
   ],
   "note": ""
  },
  {
   "property": "C151",
   "status": "proved",
   "theorems": [
    "Decomon.C151_rounded",
    "Decomon.C151_range",
    "Decomon.C151_score",
    "Decomon.C151_call",
    "Decomon.C151_range_certificate",
    "Decomon.C151_score_certificate",
    "Decomon.C151_exists",
    "Decomon.C151_zero"
   ],
   "note": ""
  },
  {
   "property": "C152",
   "status": "proved",
   "theorems": [
    "Decomon.C152_range",
    "Decomon.C152_back_bounds",
    "Decomon.C152_range_certificate",
    "Decomon.C152_back_certificate",
    "Decomon.C152_exists",
    "Decomon.C152_exact",
    "Decomon.C152_exact_back",
    "Decomon.C152_zero"
   ],
   "note": ""
  },
  {
   "property": "C153",
   "status": "proved",
   "theorems": [
    "Decomon.C153_rounded",
    "Decomon.C153_range",
    "Decomon.C153_score",
    "Decomon.C153_range_certificate",
    "Decomon.C153_adv_certificate",
    "Decomon.C153_affine",
    "Decomon.C153_zero",
    "Decomon.C153_exists",
    "Decomon.C153_exact"
   ],
   "note": ""
  },
  {
   "property": "C154",
   "status": "proved",
   "theorems": [
    "Decomon.C154_range",
    "Decomon.C154_back_bounds",
    "Decomon.C154_score",
    "Decomon.C154_crown_score",
    "Decomon.C154_range_certificate",
    "Decomon.C154_adv_certificate",
    "Decomon.C154_crown_certificate",
    "Decomon.C154_back_certificate",
    "Decomon.C154_exists",
    "Decomon.C154_exact",
    "Decomon.C154_exact_back",
    "Decomon.C154_zero"
   ],
   "note": ""
  },
  {
   "property": "C155",
   "status": "proved",
   "theorems": [
    "Decomon.C155_bounds",
    "Decomon.C155_exact_function",
    "Decomon.C155_certificate",
    "Decomon.C155_score",
    "Decomon.C155_no_overflow",
    "Decomon.C155_normal",
    "Decomon.C155_float",
    "Decomon.C155_overflow_refuted",
    "Decomon.C155_underflow_refuted"
   ],
   "note": ""
  },
  {
   "property": "C156",
   "status": "proved",
   "theorems": [
    "Decomon.C156_covers",
    "Decomon.C156_refine_box_covers",
    "Decomon.C156_inside",
    "Decomon.C156_refine_box_inside",
    "Decomon.C156_count",
    "Decomon.C156_exact",
    "Decomon.C156_format",
    "Decomon.C156_mode",
    "Decomon.C156_rounded",
    "Decomon.C156_range",
    "Decomon.C156_score",
    "Decomon.C156_range_box",
    "Decomon.C156_refine_box",
    "Decomon.C156_adv_certificate",
    "Decomon.C156_range_certificate",
    "Decomon.C156_unconverted",
    "Decomon.C156_exists",
    "Decomon.C156_unconverted_refuted"
   ],
   "note": ""
  },
  {
   "property": "C157",
   "status": "proved",
   "theorems": [
    "Decomon.C157_errors",
    "Decomon.C157_rounded",
    "Decomon.C157_range",
    "Decomon.C157_score",
    "Decomon.C157_call",
    "Decomon.C157_range_certificate",
    "Decomon.C157_adv_certificate",
    "Decomon.C157_exists",
    "Decomon.C157_results_exist",
    "Decomon.C157_net",
    "Decomon.C157_format"
   ],
   "note": ""
  },
  {
   "property": "C158",
   "status": "proved",
   "theorems": [
    "Decomon.C158_eval",
    "Decomon.C158_forward",
    "Decomon.C158_crown",
    "Decomon.C158_ranges",
    "Decomon.C158_off_forward",
    "Decomon.C158_off_crown",
    "Decomon.C158_off_crown_forward",
    "Decomon.C158_remove_off_forward",
    "Decomon.C158_remove_off_crown",
    "Decomon.C158_off_limit_refuted"
   ],
   "note": ""
  },
  {
   "property": "C159",
   "status": "proved",
   "theorems": [
    "Decomon.C159_eval",
    "Decomon.C159_forward",
    "Decomon.C159_crown",
    "Decomon.C159_uneven_refuted",
    "Decomon.C159_sign_refuted"
   ],
   "note": ""
  },
  {
   "property": "C160",
   "status": "proved",
   "theorems": [
    "Decomon.C160_fewer_labels",
    "Decomon.C160_pairs",
    "Decomon.C160_hybrid_refuted"
   ],
   "note": ""
  },
  {
   "property": "C161",
   "status": "proved",
   "theorems": [
    "Decomon.C161_score_range",
    "Decomon.C161_separate_ranges",
    "Decomon.C161_crown",
    "Decomon.C161_hybrid_refuted"
   ],
   "note": ""
  },
  {
   "property": "C162",
   "status": "proved",
   "theorems": [
    "Decomon.C162_raises",
    "Decomon.C162_labels_not_read",
    "Decomon.C162_first_only",
    "Decomon.C162_every_label",
    "Decomon.C162_certificate_refuted"
   ],
   "note": "The documented meaning is refuted (C162_certificate_refuted); the other theorems say what the score is."
  },
  {
   "property": "C163",
   "status": "proved",
   "theorems": [
    "Decomon.C163_eval",
    "Decomon.C163_forward",
    "Decomon.C163_crown",
    "Decomon.C163_clone",
    "Decomon.C163_temperature",
    "Decomon.C163_biases",
    "Decomon.C163_no_source_refuted"
   ],
   "note": "For labels with a source and a target; C163_no_source_refuted shows that this is needed."
  },
  {
   "property": "C164",
   "status": "partial",
   "theorems": [
    "Decomon.C164_sort_partial",
    "Decomon.C164_split_partial",
    "Decomon.C164_split_refuted",
    "Decomon.C164_negative_axis_refuted",
    "Decomon.C164_negative_axis_raises_refuted"
   ],
   "note": "Holds for sort along axis -1 and positive axes, and would hold for split if K.split accepted its keyword argument; C164_split_refuted and C164_negative_axis_refuted show what is false."
  },
  {
   "property": "C165",
   "status": "partial",
   "theorems": [
    "Decomon.C165_sigmoid",
    "Decomon.C165_tanh",
    "Decomon.C165_softsign",
    "Decomon.C165_relu_partial",
    "Decomon.C165_relu_below",
    "Decomon.C165_relu_refuted",
    "Decomon.C165_layers",
    "Decomon.C165_relu_softplus_layers"
   ],
   "note": "Proved for sigmoid, tanh and softsign; for relu off 0, and refuted at 0 (C165_relu_refuted), where the slope is still that of a line below relu (C165_relu_below)."
  },
  {
   "property": "C166",
   "status": "partial",
   "theorems": [
    "Decomon.C166_count_partial",
    "Decomon.C166_depths",
    "Decomon.C166_chain",
    "Decomon.C166_nested_refuted"
   ],
   "note": "Proved as a number of nodes; refuted for nested models (C166_nested_refuted)."
  },
  {
   "property": "C167",
   "status": "proved",
   "theorems": [
    "Decomon.C167_prepare",
    "Decomon.C167_wrap",
    "Decomon.C167_single"
   ],
   "note": "For tensors, lists and tuples of any length."
  }
 ]
}