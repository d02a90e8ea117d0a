{
 "claims": [
  {
   "property": "C01",
   "status": "proved",
   "theorems": [
    "Verif.Props.C01_truncation_sound",
    "Verif.Props.C01_truncation_error_iff"
   ],
   "note": ""
  },
  {
   "property": "C02",
   "status": "proved",
   "theorems": [
    "Verif.Props.C02_default_truncation_resolvable",
    "Verif.Props.C02_default_truncation_defined"
   ],
   "note": ""
  },
  {
   "property": "C03",
   "status": "proved",
   "theorems": [
    "Verif.Props.C03_clenshaw_curtis_exact",
    "Verif.Props.C03_clenshaw_curtis_nodes",
    "Verif.Props.C03_clenshaw_curtis_error_iff"
   ],
   "note": ""
  },
  {
   "property": "C04",
   "status": "proved",
   "theorems": [
    "Verif.Props.C04_gauss_rule",
    "Verif.Props.C04_weights_sum_of_exact",
    "Verif.Props.C04_clenshaw_curtis_sum",
    "Verif.Props.C04_legendre_gauss_sum",
    "Verif.Props.C04_trapezoidal_affine",
    "Verif.Props.C04_trapezoidal_periodic",
    "Verif.Props.C04_trapezoidal_periodic_exact",
    "Verif.Props.C04_trapezoidal_error_iff"
   ],
   "note": ""
  },
  {
   "property": "C05",
   "status": "proved",
   "theorems": [
    "Verif.Props.C05_lobatto_latitudes",
    "Verif.Props.C05_longitudes",
    "Verif.Props.C05_latitudes",
    "Verif.Props.C05_equiangular_latitudes",
    "Verif.Props.C05_trapezoidal_latitudes",
    "Verif.Props.C05_gauss_latitudes",
    "Verif.Props.C05_unknown_grid",
    "Verif.Props.C05_periodic_flag"
   ],
   "note": ""
  },
  {
   "property": "C06",
   "status": "proved",
   "theorems": [
    "Verif.Props.C06_lobatto_pos",
    "Verif.Props.C06_latitude_weights_pos",
    "Verif.Props.C06_clenshaw_curtis_pos",
    "Verif.Props.C06_clenshaw_curtis_symm",
    "Verif.Props.C06_gauss_pos",
    "Verif.Props.C06_trapezoidal_pos",
    "Verif.Props.C06_lobatto_nonneg",
    "Verif.Props.C06_latitude_weights"
   ],
   "note": ""
  },
  {
   "property": "C07",
   "status": "proved",
   "theorems": [
    "Verif.Props.C07_error_iff",
    "Verif.Props.C07_endpoints",
    "Verif.Props.C07_symmetric",
    "Verif.Props.C07_exact_at_convergence",
    "Verif.Props.C07_symmetricExact",
    "Verif.Props.C07_limit",
    "Verif.Props.C07_rule_exists",
    "Verif.Props.C07_converges",
    "Verif.Props.C07_limit_all",
    "Verif.Props.C07_tolerance",
    "Verif.Props.C07_increasing",
    "Verif.Props.C07_error_bound",
    "Verif.Props.C07_default"
   ],
   "note": "Convergence for every n, error bounds at a finite tolerance and for the default arguments, in real arithmetic; rounding is not modelled."
  },
  {
   "property": "C08",
   "status": "proved",
   "theorems": [
    "Verif.Props.C08_band_limited_exact",
    "Verif.Props.C08_equiangular_exact",
    "Verif.Props.C08_gauss_exact",
    "Verif.Props.C08_linear",
    "Verif.Props.C08_constant",
    "Verif.Props.C08_constant_grid",
    "Verif.Props.C08_shift_invariant",
    "Verif.Props.C08_unknown_grid"
   ],
   "note": ""
  },
  {
   "property": "C09",
   "status": "proved",
   "theorems": [
    "Verif.Props.C09_legpoly_value",
    "Verif.Props.C09_legpoly_ok_iff",
    "Verif.Props.C09_legpoly_shape",
    "Verif.Props.C09_legpoly_orthonormal",
    "Verif.Props.C09_legpoly_size_independent"
   ],
   "note": ""
  },
  {
   "property": "C10",
   "status": "proved",
   "theorems": [
    "Verif.Props.C10_norm_rescale",
    "Verif.Props.C10_ortho_inverse_same",
    "Verif.Props.C10_csphase"
   ],
   "note": ""
  },
  {
   "property": "C11",
   "status": "proved",
   "theorems": [
    "Verif.Props.C11_theta_derivative",
    "Verif.Props.C11_derivative_of_table",
    "Verif.Props.C11_m_over_sin",
    "Verif.Props.C11_error_iff"
   ],
   "note": ""
  },
  {
   "property": "C12",
   "status": "proved",
   "theorems": [
    "Verif.Props.C12_rfft_value",
    "Verif.Props.C12_rfft_default",
    "Verif.Props.C12_rfft_rejects_n"
   ],
   "note": ""
  },
  {
   "property": "C13",
   "status": "proved",
   "theorems": [
    "Verif.Props.C13_irfft_value",
    "Verif.Props.C13_irfft_ignores_imag",
    "Verif.Props.C13_irfft_rfft",
    "Verif.Props.C13_rfft_irfft",
    "Verif.Props.C13_irfft_error"
   ],
   "note": ""
  },
  {
   "property": "C14",
   "status": "proved",
   "theorems": [
    "Verif.Props.C14_default_lobatto",
    "Verif.Props.C14_analysis_of_synthesis",
    "Verif.Props.C14_roundtrip",
    "Verif.Props.C14_default",
    "Verif.Props.C14_shape_errors",
    "Verif.Props.C14_unknown_grid"
   ],
   "note": ""
  },
  {
   "property": "C15",
   "status": "proved",
   "theorems": [
    "Verif.Props.C15_analysis_admissible",
    "Verif.Props.C15_synthesis_admissible",
    "Verif.Props.C15_idempotent",
    "Verif.Props.C15_fixes_range"
   ],
   "note": ""
  },
  {
   "property": "C16",
   "status": "proved",
   "theorems": [
    "Verif.Props.C16_analysis_linear",
    "Verif.Props.C16_synthesis_linear",
    "Verif.Props.C16_analysis_rotation",
    "Verif.Props.C16_synthesis_rotation"
   ],
   "note": ""
  },
  {
   "property": "C17",
   "status": "proved",
   "theorems": [
    "Verif.Props.C17_parseval"
   ],
   "note": ""
  },
  {
   "property": "C18",
   "status": "proved",
   "theorems": [
    "Verif.Props.C18_analysis_of_synthesis",
    "Verif.Props.C18_roundtrip",
    "Verif.Props.C18_default",
    "Verif.Props.C18_nyquist_not_recovered",
    "Verif.Props.C18_shape_errors"
   ],
   "note": ""
  },
  {
   "property": "C19",
   "status": "proved",
   "theorems": [
    "Verif.Props.C19_vector_synthesis"
   ],
   "note": ""
  },
  {
   "property": "C20",
   "status": "proved",
   "theorems": [
    "Verif.Props.C20_value",
    "Verif.Props.C20_coefficients",
    "Verif.Props.C20_reanalysis",
    "Verif.Props.C20_groups",
    "Verif.Props.C20_rotation",
    "Verif.Props.C20_default",
    "Verif.Props.C20_error_groups",
    "Verif.Props.C20_error_shape",
    "Verif.Props.C20_error_channels",
    "Verif.Props.C20_broadcast_wrong"
   ],
   "note": ""
  },
  {
   "property": "C21",
   "status": "proved",
   "theorems": [
    "Verif.Props.C21_value",
    "Verif.Props.C21_zero_coefficient",
    "Verif.Props.C21_zero_integral",
    "Verif.Props.C21_linear",
    "Verif.Props.C21_modes",
    "Verif.Props.C21_spectrum",
    "Verif.Props.C21_alpha_error",
    "Verif.Props.C21_grid_error",
    "Verif.Props.C21_shape_error",
    "Verif.Props.C21_default"
   ],
   "note": ""
  },
  {
   "property": "C22",
   "status": "proved",
   "theorems": [
    "Verif.Props.C22_conserved",
    "Verif.Props.C22_shape_error",
    "Verif.Props.C22_mass",
    "Verif.Props.C22_default"
   ],
   "note": ""
  },
  {
   "property": "C23",
   "status": "proved",
   "theorems": [
    "Verif.Props.C23_scheme",
    "Verif.Props.C23_second_step_not_ab2",
    "Verif.Props.C23_error",
    "Verif.Props.C23_timestep"
   ],
   "note": ""
  },
  {
   "property": "C24",
   "status": "proved",
   "theorems": [
    "Verif.Props.C24_vorticity_of_wind",
    "Verif.Props.C24_roundtrip",
    "Verif.Props.C24_wind",
    "Verif.Props.C24_shape_errors",
    "Verif.Props.C24_poisson"
   ],
   "note": ""
  },
  {
   "property": "C25",
   "status": "proved",
   "theorems": [
    "Verif.Props.C25_transparent",
    "Verif.Props.C25_lru",
    "Verif.Props.C25_bounded",
    "Verif.Props.C25_evaluations",
    "Verif.Props.C25_no_copy_aliases",
    "Verif.Props.C25_stale_argument",
    "Verif.Props.C25_untyped_confuses"
   ],
   "note": ""
  },
  {
   "property": "C26",
   "status": "proved",
   "theorems": [
    "Verif.Props.C26_value",
    "Verif.Props.C26_bounds",
    "Verif.Props.C26_constant",
    "Verif.Props.C26_nodes",
    "Verif.Props.C26_linear",
    "Verif.Props.C26_built",
    "Verif.Props.C26_spherical_value",
    "Verif.Props.C26_spherical_negative_linear",
    "Verif.Props.C26_spherical_negative_wrong",
    "Verif.Props.C26_unknown_mode",
    "Verif.Props.C26_unknown_grid",
    "Verif.Props.C26_single_longitude"
   ],
   "note": ""
  },
  {
   "property": "C27",
   "status": "proved",
   "theorems": [
    "Verif.Props.C27_identity",
    "Verif.Props.C27_rotation",
    "Verif.Props.C27_single_latitude_error"
   ],
   "note": ""
  },
  {
   "property": "C28",
   "status": "proved",
   "theorems": [
    "Verif.Props.C28_contraction",
    "Verif.Props.C28_ok_iff",
    "Verif.Props.C28_channels",
    "Verif.Props.C28_layer"
   ],
   "note": ""
  },
  {
   "property": "C29",
   "status": "proved",
   "theorems": [
    "Verif.Props.C29_rotation",
    "Verif.Props.C29_transpose_rotation"
   ],
   "note": ""
  },
  {
   "property": "C30",
   "status": "proved",
   "theorems": [
    "Verif.Props.C30_forward",
    "Verif.Props.C30_equals_reference",
    "Verif.Props.C30_ok_iff",
    "Verif.Props.C30_collision_wrong",
    "Verif.Props.C30_unsorted_wrong"
   ],
   "note": ""
  },
  {
   "property": "C31",
   "status": "proved",
   "theorems": [
    "Verif.Props.C31_stable_sort",
    "Verif.Props.C31_row_runs",
    "Verif.Props.C31_no_abort",
    "Verif.Props.C31_abort_iff",
    "Verif.Props.C31_empty",
    "Verif.Props.C31_device_arrays_unsorted"
   ],
   "note": ""
  },
  {
   "property": "C32",
   "status": "proved",
   "theorems": [
    "Verif.Props.C32_transpose_layer",
    "Verif.Props.C32_adjoint",
    "Verif.Props.C32_ok_iff",
    "Verif.Props.C32_backward_kernel",
    "Verif.Props.C32_kernels_adjoint"
   ],
   "note": ""
  },
  {
   "property": "C33",
   "status": "proved",
   "theorems": [
    "Verif.Props.C33_dense",
    "Verif.Props.C33_kpack_none_iff",
    "Verif.Props.C33_kpack"
   ],
   "note": ""
  },
  {
   "property": "C34",
   "status": "proved",
   "theorems": [
    "Verif.Props.C34_weight_first",
    "Verif.Props.C34_spatial_first",
    "Verif.Props.C34_orders_agree",
    "Verif.Props.C34_input_gradient",
    "Verif.Props.C34_fused_forward",
    "Verif.Props.C34_fused_equals_reference",
    "Verif.Props.C34_input_gradient_adjoint",
    "Verif.Props.C34_weight_gradient",
    "Verif.Props.C34_groups_separate"
   ],
   "note": ""
  },
  {
   "property": "C35",
   "status": "proved",
   "theorems": [
    "Verif.Props.C35_nodal",
    "Verif.Props.C35_merge_once",
    "Verif.Props.C35_contraction",
    "Verif.Props.C35_transpose_nodal",
    "Verif.Props.C35_transpose_contraction",
    "Verif.Props.C35_modal",
    "Verif.Props.C35_modal_isotropic",
    "Verif.Props.C35_mean",
    "Verif.Props.C35_support",
    "Verif.Props.C35_geometric",
    "Verif.Props.C35_none",
    "Verif.Props.C35_error_iff"
   ],
   "note": ""
  },
  {
   "property": "C36",
   "status": "proved",
   "theorems": [
    "Verif.Props.C36_nonneg",
    "Verif.Props.C36_support",
    "Verif.Props.C36_partition_of_unity",
    "Verif.Props.C36_isotropic_even_centre",
    "Verif.Props.C36_all_present",
    "Verif.Props.C36_shape"
   ],
   "note": ""
  },
  {
   "property": "C37",
   "status": "proved",
   "theorems": [
    "Verif.Props.C37_polar",
    "Verif.Props.C37_azimuth",
    "Verif.Props.C37_entries",
    "Verif.Props.C37_within_cutoff",
    "Verif.Props.C37_within_cutoff_pl",
    "Verif.Props.C37_shifted",
    "Verif.Props.C37_stored_form",
    "Verif.Props.C37_no_collision",
    "Verif.Props.C37_no_collision_same_grid",
    "Verif.Props.C37_layer",
    "Verif.Props.C37_layer_exists",
    "Verif.Props.C37_error",
    "Verif.Props.C37_transpose_layer",
    "Verif.Props.C37_transpose_error",
    "Verif.Props.C37_transpose_exists"
   ],
   "note": ""
  },
  {
   "property": "C38",
   "status": "proved",
   "theorems": [
    "Verif.Props.C38_one_pass",
    "Verif.Props.C38_denominator_pos",
    "Verif.Props.C38_no_overflow",
    "Verif.Props.C38_denominator_lower",
    "Verif.Props.C38_reference_denominator_tiny",
    "Verif.Props.C38_reference",
    "Verif.Props.C38_reference_errors",
    "Verif.Props.C38_order",
    "Verif.Props.C38_cpu",
    "Verif.Props.C38_cpu_is_reference",
    "Verif.Props.C38_cpu_errors"
   ],
   "note": ""
  },
  {
   "property": "C39",
   "status": "proved",
   "theorems": [
    "Verif.Props.C39_convex",
    "Verif.Props.C39_bounds",
    "Verif.Props.C39_constant",
    "Verif.Props.C39_score_shift",
    "Verif.Props.C39_empty",
    "Verif.Props.C39_upsample_bounds"
   ],
   "note": ""
  },
  {
   "property": "C40",
   "status": "proved",
   "theorems": [
    "Verif.Props.C40_gather",
    "Verif.Props.C40_upsample"
   ],
   "note": ""
  },
  {
   "property": "C41",
   "status": "proved",
   "theorems": [
    "Verif.Props.C41_reference",
    "Verif.Props.C41_neighbours",
    "Verif.Props.C41_max_written",
    "Verif.Props.C41_reference_errors",
    "Verif.Props.C41_cpu"
   ],
   "note": ""
  },
  {
   "property": "C42",
   "status": "proved",
   "theorems": [
    "Verif.Props.C42_reference",
    "Verif.Props.C42_reference_entry",
    "Verif.Props.C42_upsample_reference",
    "Verif.Props.C42_reference_empty_row",
    "Verif.Props.C42_cpu",
    "Verif.Props.C42_cpu_upsample"
   ],
   "note": ""
  },
  {
   "property": "C43",
   "status": "proved",
   "theorems": [
    "Verif.Props.C43_neighbourhood",
    "Verif.Props.C43_global",
    "Verif.Props.C43_full_disk",
    "Verif.Props.C43_neighbourhood_is_global",
    "Verif.Props.C43_constructible",
    "Verif.Props.C43_refused",
    "Verif.Props.C43_shape_errors"
   ],
   "note": ""
  },
  {
   "property": "C44",
   "status": "proved",
   "theorems": [
    "Verif.Props.C44_layout",
    "Verif.Props.C44_layout_back",
    "Verif.Props.C44_layout_error",
    "Verif.Props.C44_heads_reference",
    "Verif.Props.C44_heads_cpu",
    "Verif.Props.C44_heads_back",
    "Verif.Props.C44_heads_error",
    "Verif.Props.C44_operator_reference",
    "Verif.Props.C44_operator_cpu",
    "Verif.Props.C44_operators_agree",
    "Verif.Props.C44_gradient_reference",
    "Verif.Props.C44_gradient_cpu"
   ],
   "note": ""
  },
  {
   "property": "C45",
   "status": "proved",
   "theorems": [
    "Verif.Props.C45_split_shapes_balanced",
    "Verif.Props.C45_split_shapes_error_iff",
    "Verif.Props.C45_split_shapes_blocks"
   ],
   "note": ""
  },
  {
   "property": "C46",
   "status": "proved",
   "theorems": [
    "Verif.Props.C46_scatter",
    "Verif.Props.C46_scatter_error",
    "Verif.Props.C46_gather",
    "Verif.Props.C46_gather_scatter",
    "Verif.Props.C46_scatter_gather"
   ],
   "note": ""
  },
  {
   "property": "C47",
   "status": "proved",
   "theorems": [
    "Verif.Props.C47_transpose",
    "Verif.Props.C47_transpose_error",
    "Verif.Props.C47_transpose_roundtrip"
   ],
   "note": ""
  },
  {
   "property": "C48",
   "status": "proved",
   "theorems": [
    "Verif.Props.C48_reduce_scatter",
    "Verif.Props.C48_reduce_scatter_eq_reduce_split"
   ],
   "note": ""
  },
  {
   "property": "C49",
   "status": "proved",
   "theorems": [
    "Verif.Props.C49_copy_adjoint",
    "Verif.Props.C49_reduce_adjoint",
    "Verif.Props.C49_scatter_adjoint",
    "Verif.Props.C49_gather_adjoint",
    "Verif.Props.C49_gather_copy_adjoint",
    "Verif.Props.C49_reduce_scatter_adjoint",
    "Verif.Props.C49_transpose_adjoint"
   ],
   "note": ""
  },
  {
   "property": "C50",
   "status": "proved",
   "theorems": [
    "Verif.Props.C50_halo_window",
    "Verif.Props.C50_halo_adjoint",
    "Verif.Props.C50_halo_error"
   ],
   "note": ""
  },
  {
   "property": "C51",
   "status": "proved",
   "theorems": [
    "Verif.Props.C51_real_init",
    "Verif.Props.C51_inverse_init",
    "Verif.Props.C51_too_many_ranks",
    "Verif.Props.C51_real_sht",
    "Verif.Props.C51_inverse_sht",
    "Verif.Props.C51_vector_init",
    "Verif.Props.C51_inverse_vector_init",
    "Verif.Props.C51_vector_sht",
    "Verif.Props.C51_inverse_vector_sht",
    "Verif.Props.C51_shape_error"
   ],
   "note": ""
  },
  {
   "property": "C52",
   "status": "proved",
   "theorems": [
    "Verif.Props.C52_conv",
    "Verif.Props.C52_conv_cpu",
    "Verif.Props.C52_conv_fused",
    "Verif.Props.C52_transpose",
    "Verif.Props.C52_transpose_cpu",
    "Verif.Props.C52_init",
    "Verif.Props.C52_few_channels",
    "Verif.Props.C52_local_collision_wrong",
    "Verif.Props.C52_fused_wrong_channels"
   ],
   "note": ""
  },
  {
   "property": "C53",
   "status": "proved",
   "theorems": [
    "Verif.Props.C53_init",
    "Verif.Props.C53_halo_width",
    "Verif.Props.C53_forward",
    "Verif.Props.C53_halo_too_wide",
    "Verif.Props.C53_backward",
    "Verif.Props.C53_special_kernel_unguarded"
   ],
   "note": ""
  },
  {
   "property": "C54",
   "status": "proved",
   "theorems": [
    "Verif.Props.C54_quadrature_init",
    "Verif.Props.C54_quadrature",
    "Verif.Props.C54_trapezoidal_refused",
    "Verif.Props.C54_resample_init",
    "Verif.Props.C54_resample",
    "Verif.Props.C54_resample_skip",
    "Verif.Props.C54_resample_few_channels",
    "Verif.Props.C54_resample_grids"
   ],
   "note": ""
  },
  {
   "property": "C55",
   "status": "proved",
   "theorems": [
    "Verif.Props.C55_pad_leading",
    "Verif.Props.C55_unpad_pad",
    "Verif.Props.C55_flatten_roundtrip",
    "Verif.Props.C55_unflatten_roundtrip"
   ],
   "note": ""
  },
  {
   "property": "C56",
   "status": "proved",
   "theorems": [
    "Verif.Props.C56_registered_initialized",
    "Verif.Props.C56_finalize",
    "Verif.Props.C56_reports_init_in_force",
    "Verif.Props.C56_sizes_ranks",
    "Verif.Props.C56_finalize_raises",
    "Verif.Props.C56_destroyed",
    "Verif.Props.C56_same_group_twice",
    "Verif.Props.C56_debug"
   ],
   "note": ""
  },
  {
   "property": "C57",
   "status": "proved",
   "theorems": [
    "Verif.Props.C57_counts",
    "Verif.Props.C57_nonneg_total",
    "Verif.Props.C57_perfect",
    "Verif.Props.C57_shape_error",
    "Verif.Props.C57_predicted_class",
    "Verif.Props.C57_no_classes",
    "Verif.Props.C57_iou_range",
    "Verif.Props.C57_accuracy_range",
    "Verif.Props.C57_iou_micro_nan",
    "Verif.Props.C57_iou_micro_perfect",
    "Verif.Props.C57_accuracy_micro",
    "Verif.Props.C57_iou_macro_perfect",
    "Verif.Props.C57_macro_perfect_not_one"
   ],
   "note": ""
  },
  {
   "property": "C58",
   "status": "proved",
   "theorems": [
    "Verif.Props.C58_weights",
    "Verif.Props.C58_weights_area",
    "Verif.Props.C58_weights_tiled",
    "Verif.Props.C58_unknown_grid",
    "Verif.Props.C58_values",
    "Verif.Props.C58_zero_iff",
    "Verif.Props.C58_equal",
    "Verif.Props.C58_constant",
    "Verif.Props.C58_symmetric",
    "Verif.Props.C58_l1_le_l2",
    "Verif.Props.C58_mask_hides",
    "Verif.Props.C58_mask_constant",
    "Verif.Props.C58_mask_empty",
    "Verif.Props.C58_latitude_error",
    "Verif.Props.C58_longitudes_unchecked"
   ],
   "note": ""
  },
  {
   "property": "C59",
   "status": "proved",
   "theorems": [
    "Verif.Props.C59_synthesis_value",
    "Verif.Props.C59_analysis_value"
   ],
   "note": ""
  },
  {
   "property": "C60",
   "status": "proved",
   "theorems": [
    "Verif.Props.C60_pl_mask_length",
    "Verif.Props.C60_pl_mask",
    "Verif.Props.C60_zernike_decode",
    "Verif.Props.C60_zernike_encode",
    "Verif.Props.C60_zernike_mask",
    "Verif.Props.C60_zernike_axisymmetric",
    "Verif.Props.C60_harmonic_axisymmetric",
    "Verif.Props.C60_fourier_bessel"
   ],
   "note": ""
  },
  {
   "property": "C61",
   "status": "proved",
   "theorems": [
    "Verif.Props.C61_tendency",
    "Verif.Props.C61_vrtdiv_value"
   ],
   "note": ""
  },
  {
   "property": "C62",
   "status": "proved",
   "theorems": [
    "Verif.Props.C62_log_softmax_twice",
    "Verif.Props.C62_cross_entropy",
    "Verif.Props.C62_focal",
    "Verif.Props.C62_refused",
    "Verif.Props.C62_dice_range",
    "Verif.Props.C62_dice_ignored",
    "Verif.Props.C62_dice_all_ignored"
   ],
   "note": ""
  },
  {
   "property": "C63",
   "status": "proved",
   "theorems": [
    "Verif.Props.C63_w11",
    "Verif.Props.C63_normal",
    "Verif.Props.C63_longitude_derivative",
    "Verif.Props.C63_colatitude_derivative",
    "Verif.Props.C63_equiangular_scale",
    "Verif.Props.C63_meridian_sum",
    "Verif.Props.C63_nyquist"
   ],
   "note": "Negative parts: C63_equiangular_scale, C63_meridian_sum."
  },
  {
   "property": "C64",
   "status": "proved",
   "theorems": [
    "Verif.Props.C64_init",
    "Verif.Props.C64_forward",
    "Verif.Props.C64_four_dimensions",
    "Verif.Props.C64_weight_gradient_adjoint",
    "Verif.Props.C64_weight_gradient",
    "Verif.Props.C64_weight_gradient_one_rank",
    "Verif.Props.C64_init_scale"
   ],
   "note": ""
  },
  {
   "property": "C65",
   "status": "proved",
   "theorems": [
    "Verif.Props.C65_loop_covers",
    "Verif.Props.C65_cuda_forward",
    "Verif.Props.C65_widths",
    "Verif.Props.C65_layer_lists_latitudes",
    "Verif.Props.C65_unsorted_latitudes_fault"
   ],
   "note": ""
  },
  {
   "property": "C66",
   "status": "proved",
   "theorems": [
    "Verif.Props.C66_cuda_backward",
    "Verif.Props.C66_kernels_adjoint",
    "Verif.Props.C66_backward_needs_more",
    "Verif.Props.C66_backward_need_bound"
   ],
   "note": ""
  },
  {
   "property": "C67",
   "status": "proved",
   "theorems": [
    "Verif.Props.C67_radial_rim",
    "Verif.Props.C67_orthonormal"
   ],
   "note": ""
  },
  {
   "property": "C68",
   "status": "proved",
   "theorems": [
    "Verif.Props.C68_operator_gpu",
    "Verif.Props.C68_operators_agree",
    "Verif.Props.C68_deterministic",
    "Verif.Props.C68_refused",
    "Verif.Props.C68_generic_never",
    "Verif.Props.C68_scatter_max",
    "Verif.Props.C68_errors",
    "Verif.Props.C68_empty_batch"
   ],
   "note": ""
  },
  {
   "property": "C69",
   "status": "proved",
   "theorems": [
    "Verif.Props.C69_gradient_gpu",
    "Verif.Props.C69_deterministic",
    "Verif.Props.C69_operators_agree",
    "Verif.Props.C69_refused",
    "Verif.Props.C69_generic_never",
    "Verif.Props.C69_forward_only_scatter",
    "Verif.Props.C69_forward_only_gather",
    "Verif.Props.C69_no_query_channels",
    "Verif.Props.C69_errors"
   ],
   "note": ""
  },
  {
   "property": "C70",
   "status": "proved",
   "theorems": [
    "Verif.Props.C70_constructor",
    "Verif.Props.C70_forward",
    "Verif.Props.C70_wrong_block",
    "Verif.Props.C70_reach_too_far",
    "Verif.Props.C70_two_ranks",
    "Verif.Props.C70_whole_sphere_refused"
   ],
   "note": ""
  },
  {
   "property": "C71",
   "status": "proved",
   "theorems": [
    "Verif.Props.C71_analysis",
    "Verif.Props.C71_roundtrip",
    "Verif.Props.C71_positive_wave",
    "Verif.Props.C71_negative_wave",
    "Verif.Props.C71_truncated_changes",
    "Verif.Props.C71_one_row"
   ],
   "note": "The truncated round trip is false: stated by C71_negative_wave, C71_truncated_changes, C71_one_row."
  },
  {
   "property": "C72",
   "status": "proved",
   "theorems": [
    "Verif.Props.C72_allen_cahn",
    "Verif.Props.C72_ginzburg_landau",
    "Verif.Props.C72_equation",
    "Verif.Props.C72_constant",
    "Verif.Props.C72_invisible",
    "Verif.Props.C72_imaginary_state",
    "Verif.Props.C72_symmetries",
    "Verif.Props.C72_tables",
    "Verif.Props.C72_errors",
    "Verif.Props.C72_unknown_grid",
    "Verif.Props.C72_default"
   ],
   "note": "The Ginzburg-Landau tendency is given coefficient by coefficient (C72_ginzburg_landau); that it is not the complex equation is C72_imaginary_state."
  },
  {
   "property": "C73",
   "status": "proved",
   "theorems": [
    "Verif.Props.C73_sequence",
    "Verif.Props.C73_channels",
    "Verif.Props.C73_spectral",
    "Verif.Props.C73_spectral_error",
    "Verif.Props.C73_orthogonal",
    "Verif.Props.C73_learnable",
    "Verif.Props.C73_add",
    "Verif.Props.C73_default"
   ],
   "note": ""
  },
  {
   "property": "C74",
   "status": "proved",
   "theorems": [
    "Verif.Props.C74_band_limited",
    "Verif.Props.C74_spectrum",
    "Verif.Props.C74_integral",
    "Verif.Props.C74_equivariant",
    "Verif.Props.C74_complex_weights"
   ],
   "note": "The negative part (complex weights) is C74_complex_weights."
  },
  {
   "property": "C75",
   "status": "proved",
   "theorems": [
    "Verif.Props.C75_errors",
    "Verif.Props.C75_int",
    "Verif.Props.C75_harmonic",
    "Verif.Props.C75_harmonic_index",
    "Verif.Props.C75_harmonic_window",
    "Verif.Props.C75_scale",
    "Verif.Props.C75_harmonic_norm",
    "Verif.Props.C75_fb_index",
    "Verif.Props.C75_fourier_bessel"
   ],
   "note": "Fourier-Bessel orthonormality assumes that SciPy's jn and jn_zeros are the Bessel functions and increasing lists of their positive zeros, and that the 1e-12 floor is not reached; an example discharges the assumptions for shape (1, 0)."
  },
  {
   "property": "C76",
   "status": "proved",
   "theorems": [
    "Verif.Props.C76_shape",
    "Verif.Props.C76_longitude",
    "Verif.Props.C76_longitude_scale",
    "Verif.Props.C76_residual",
    "Verif.Props.C76_residual_prediction",
    "Verif.Props.C76_scale_one_misaligned",
    "Verif.Props.C76_errors",
    "Verif.Props.C76_zero_modes",
    "Verif.Props.C76_built",
    "Verif.Props.C76_activation",
    "Verif.Props.C76_norm",
    "Verif.Props.C76_block_channels"
   ],
   "note": "Evaluation mode. The negative parts are C76_scale_one_misaligned and C76_zero_modes. Exact Gauss nodes (IsGaussRule) are assumed of numpy's leggauss."
  },
  {
   "property": "C77",
   "status": "proved",
   "theorems": [
    "Verif.Props.C77_trunc_normal",
    "Verif.Props.C77_trunc_clamp",
    "Verif.Props.C77_trunc_errors",
    "Verif.Props.C77_drop_off",
    "Verif.Props.C77_drop_sample",
    "Verif.Props.C77_drop_mean",
    "Verif.Props.C77_drop_one_none",
    "Verif.Props.C77_patches",
    "Verif.Props.C77_patch_partition",
    "Verif.Props.C77_patch_local",
    "Verif.Props.C77_patch_errors"
   ],
   "note": "The random numbers are inputs; laws are with respect to uniform numbers. IsErfInv is what is assumed of torch's erfinv. The negative part is C77_drop_one_none."
  },
  {
   "property": "C78",
   "status": "proved",
   "theorems": [
    "Verif.Props.C78_forward",
    "Verif.Props.C78_header",
    "Verif.Props.C78_outcome",
    "Verif.Props.C78_serial_selects",
    "Verif.Props.C78_hopper_body",
    "Verif.Props.C78_wrong_target_zeros",
    "Verif.Props.C78_wrong_target_selected",
    "Verif.Props.C78_distributed_width"
   ],
   "note": "The behaviour of the tensor-core instructions is modelled and trusted (DESIGN.md, trusted base). Negative parts: C78_distributed_width, C78_wrong_target_zeros, C78_wrong_target_selected."
  },
  {
   "property": "C79",
   "status": "proved",
   "theorems": [
    "Verif.Props.C79_zonal_invariant",
    "Verif.Props.C79_random",
    "Verif.Props.C79_mean_vorticity_no_wind",
    "Verif.Props.C79_jet",
    "Verif.Props.C79_bump",
    "Verif.Props.C79_bump_width",
    "Verif.Props.C79_galewsky",
    "Verif.Props.C79_galewsky_mean",
    "Verif.Props.C79_balance",
    "Verif.Props.C79_gethuv",
    "Verif.Props.C79_potential_vorticity",
    "Verif.Props.C79_potential_vorticity_rest",
    "Verif.Props.C79_dimensionless",
    "Verif.Props.C79_dimensionless_spectral",
    "Verif.Props.C79_polar_opt",
    "Verif.Props.C79_dataset_switch",
    "Verif.Props.C79_dataset",
    "Verif.Props.C79_dataset_normalised",
    "Verif.Props.C79_dataset_divergence",
    "Verif.Props.C79_dataset_len",
    "Verif.Props.C79_dataset_negative_steps",
    "Verif.Props.C79_dataset_errors",
    "Verif.Props.C79_dataset_built"
   ],
   "note": "Negative parts: C79_mean_vorticity_no_wind with C79_random, C79_galewsky_mean, C79_dimensionless_spectral, C79_dataset_divergence, C79_dataset_len."
  },
  {
   "property": "C80",
   "status": "proved",
   "theorems": [
    "Verif.Props.C80_verified",
    "Verif.Props.C80_resume",
    "Verif.Props.C80_stuck",
    "Verif.Props.C80_mismatch_stays",
    "Verif.Props.C80_versions_mixed",
    "Verif.Props.C80_dataset_states",
    "Verif.Props.C80_dataset_complete",
    "Verif.Props.C80_incomplete_accepted",
    "Verif.Props.C80_first_name",
    "Verif.Props.C80_convert",
    "Verif.Props.C80_prepare_incomplete",
    "Verif.Props.C80_unlisted",
    "Verif.Props.C80_temporary_name"
   ],
   "note": "Negative parts: C80_stuck, C80_mismatch_stays, C80_versions_mixed, C80_incomplete_accepted, C80_first_name, C80_prepare_incomplete."
  },
  {
   "property": "C81",
   "status": "proved",
   "theorems": [
    "Verif.Props.C81_plain",
    "Verif.Props.C81_descending",
    "Verif.Props.C81_symlink_escape",
    "Verif.Props.C81_hardlink_escape",
    "Verif.Props.C81_root"
   ],
   "note": "Negative parts: C81_symlink_escape, C81_hardlink_escape, C81_root. Only the fallback without tarfile.data_filter is modelled."
  },
  {
   "property": "C82",
   "status": "proved",
   "theorems": [
    "Verif.Props.C82_input",
    "Verif.Props.C82_normalised",
    "Verif.Props.C82_target",
    "Verif.Props.C82_errors",
    "Verif.Props.C82_order_spec",
    "Verif.Props.C82_order",
    "Verif.Props.C82_target_not_pooled"
   ],
   "note": "Negative part: C82_target_not_pooled."
  },
  {
   "property": "C83",
   "status": "proved",
   "theorems": [
    "Verif.Props.C83_weights",
    "Verif.Props.C83_rgb",
    "Verif.Props.C83_rgb_max",
    "Verif.Props.C83_rgb_std",
    "Verif.Props.C83_depth",
    "Verif.Props.C83_depth_units",
    "Verif.Props.C83_classes_order",
    "Verif.Props.C83_pixel_class",
    "Verif.Props.C83_same_class",
    "Verif.Props.C83_histogram"
   ],
   "note": "Negative parts: C83_rgb_max, C83_rgb_std, C83_depth_units."
  },
  {
   "property": "C84",
   "status": "proved",
   "theorems": [
    "Verif.Props.C84_segmentation",
    "Verif.Props.C84_mask_idle",
    "Verif.Props.C84_rows",
    "Verif.Props.C84_depth",
    "Verif.Props.C84_depth_constant",
    "Verif.Props.C84_constant_poisons",
    "Verif.Props.C84_subset",
    "Verif.Props.C84_return_index",
    "Verif.Props.C84_id_to_class",
    "Verif.Props.C84_channels"
   ],
   "note": "Negative parts: C84_depth_constant, C84_constant_poisons, C84_return_index, C84_id_to_class."
  },
  {
   "property": "C85",
   "status": "proved",
   "theorems": [
    "Verif.Props.C85_shape",
    "Verif.Props.C85_longitude",
    "Verif.Props.C85_longitude_scale",
    "Verif.Props.C85_schedule",
    "Verif.Props.C85_values",
    "Verif.Props.C85_local",
    "Verif.Props.C85_pipeline",
    "Verif.Props.C85_blocks",
    "Verif.Props.C85_residual",
    "Verif.Props.C85_never_built",
    "Verif.Props.C85_default",
    "Verif.Props.C85_errors",
    "Verif.Props.C85_one_latitude",
    "Verif.Props.C85_built",
    "Verif.Props.C85_basis",
    "Verif.Props.C85_block_type",
    "Verif.Props.C85_block_mlp"
   ],
   "note": "Negative parts: C85_default, C85_never_built, C85_one_latitude, C85_residual (last two parts), C85_values (no bias)."
  },
  {
   "property": "C86",
   "status": "proved",
   "theorems": [
    "Verif.Props.C86_shape",
    "Verif.Props.C86_longitude",
    "Verif.Props.C86_longitude_scale",
    "Verif.Props.C86_values",
    "Verif.Props.C86_attended",
    "Verif.Props.C86_blocks",
    "Verif.Props.C86_layer_norm",
    "Verif.Props.C86_layer_norm_affine",
    "Verif.Props.C86_pipeline",
    "Verif.Props.C86_no_mlp",
    "Verif.Props.C86_receptive_field",
    "Verif.Props.C86_mode",
    "Verif.Props.C86_full",
    "Verif.Props.C86_residual",
    "Verif.Props.C86_never_built",
    "Verif.Props.C86_one_latitude",
    "Verif.Props.C86_block_one_latitude",
    "Verif.Props.C86_default",
    "Verif.Props.C86_errors",
    "Verif.Props.C86_built"
   ],
   "note": "Negative parts: C86_default, C86_never_built, C86_one_latitude, C86_mode (unknown modes), C86_no_mlp, C86_residual (last two parts)."
  },
  {
   "property": "C87",
   "status": "proved",
   "theorems": [
    "Verif.Props.C87_shape",
    "Verif.Props.C87_longitude",
    "Verif.Props.C87_longitude_scale",
    "Verif.Props.C87_values",
    "Verif.Props.C87_pipeline",
    "Verif.Props.C87_repetitions",
    "Verif.Props.C87_too_deep",
    "Verif.Props.C87_modes",
    "Verif.Props.C87_scale_one",
    "Verif.Props.C87_errors",
    "Verif.Props.C87_wrong_grid",
    "Verif.Props.C87_wrong_grid_default",
    "Verif.Props.C87_built",
    "Verif.Props.C87_default",
    "Verif.Props.C87_docstring"
   ],
   "note": "Negative parts: C87_wrong_grid, C87_wrong_grid_default, C87_repetitions (second half), C87_scale_one, C87_too_deep, C87_docstring."
  },
  {
   "property": "C88",
   "status": "proved",
   "theorems": [
    "Verif.Props.C88_shape",
    "Verif.Props.C88_longitude",
    "Verif.Props.C88_longitude_scale",
    "Verif.Props.C88_values",
    "Verif.Props.C88_mlp_ratio",
    "Verif.Props.C88_mode",
    "Verif.Props.C88_too_deep",
    "Verif.Props.C88_needs",
    "Verif.Props.C88_errors",
    "Verif.Props.C88_empty",
    "Verif.Props.C88_built",
    "Verif.Props.C88_default",
    "Verif.Props.C88_docstring"
   ],
   "note": "Negative parts: C88_mlp_ratio, C88_mode, C88_empty, C88_too_deep, C88_needs, C88_docstring."
  },
  {
   "property": "C89",
   "status": "proved",
   "theorems": [
    "Verif.Props.C89_nhwc",
    "Verif.Props.C89_nchw",
    "Verif.Props.C89_schedule",
    "Verif.Props.C89_cpu",
    "Verif.Props.C89_inverse",
    "Verif.Props.C89_gradient",
    "Verif.Props.C89_refused",
    "Verif.Props.C89_empty",
    "Verif.Props.C89_invalid"
   ],
   "note": "Negative parts: C89_refused, C89_empty, C89_invalid."
  },
  {
   "property": "C90",
   "status": "proved",
   "theorems": [
    "Verif.Props.C90_order",
    "Verif.Props.C90_order_unique",
    "Verif.Props.C90_deterministic",
    "Verif.Props.C90_decreasing",
    "Verif.Props.C90_split",
    "Verif.Props.C90_prefix",
    "Verif.Props.C90_bounds",
    "Verif.Props.C90_split_sorted",
    "Verif.Props.C90_no_rows",
    "Verif.Props.C90_unsorted",
    "Verif.Props.C90_shmem",
    "Verif.Props.C90_exit",
    "Verif.Props.C90_finishes",
    "Verif.Props.C90_mutex",
    "Verif.Props.C90_too_much",
    "Verif.Props.C90_ptx",
    "Verif.Props.C90_ptx_returns"
   ],
   "note": "Negative parts: C90_unsorted, C90_too_much."
  },
  {
   "property": "C91",
   "status": "proved",
   "theorems": [
    "Verif.Props.C91_first",
    "Verif.Props.C91_cached",
    "Verif.Props.C91_offline",
    "Verif.Props.C91_converges",
    "Verif.Props.C91_killed",
    "Verif.Props.C91_read_error",
    "Verif.Props.C91_race",
    "Verif.Props.C91_native",
    "Verif.Props.C91_resized",
    "Verif.Props.C91_unit",
    "Verif.Props.C91_same_size",
    "Verif.Props.C91_seam"
   ],
   "note": "Negative parts: C91_killed, C91_read_error, C91_race, C91_native (a single size), C91_seam."
  },
  {
   "property": "C92",
   "status": "proved",
   "theorems": [
    "Verif.Props.C92_step",
    "Verif.Props.C92_deterministic",
    "Verif.Props.C92_refines",
    "Verif.Props.C92_ring",
    "Verif.Props.C92_sums",
    "Verif.Props.C92_no_channels",
    "Verif.Props.C92_refused",
    "Verif.Props.C92_empty_batch",
    "Verif.Props.C92_row_too_long",
    "Verif.Props.C92_rows",
    "Verif.Props.C92_race"
   ],
   "note": "For more than 512 channels and long rows the theorems assume LoadsFirst, which the kernel does not enforce. Negative parts: C92_race, C92_refused, C92_empty_batch, C92_row_too_long, C92_no_channels."
  },
  {
   "property": "C93",
   "status": "proved",
   "theorems": [
    "Verif.Props.C93_step",
    "Verif.Props.C93_deterministic",
    "Verif.Props.C93_refines",
    "Verif.Props.C93_ring",
    "Verif.Props.C93_pass1",
    "Verif.Props.C93_pass1_refines",
    "Verif.Props.C93_pass2",
    "Verif.Props.C93_pass2_refines",
    "Verif.Props.C93_refused",
    "Verif.Props.C93_empty",
    "Verif.Props.C93_channels",
    "Verif.Props.C93_cas_max",
    "Verif.Props.C93_cas_ends"
   ],
   "note": "Negative parts: C93_channels, C93_refused, C93_empty."
  },
  {
   "property": "C94",
   "status": "proved",
   "theorems": [
    "Verif.Props.C94_conditions",
    "Verif.Props.C94_built",
    "Verif.Props.C94_built_exists",
    "Verif.Props.C94_output",
    "Verif.Props.C94_paths_agree",
    "Verif.Props.C94_backward",
    "Verif.Props.C94_gradients",
    "Verif.Props.C94_transpose",
    "Verif.Props.C94_cpu_path",
    "Verif.Props.C94_mixed_types",
    "Verif.Props.C94_bias_type",
    "Verif.Props.C94_double_autocast",
    "Verif.Props.C94_large_batch"
   ],
   "note": "Negative parts: C94_mixed_types, C94_bias_type, C94_double_autocast, C94_large_batch. The gradient of the reference path is PyTorch's and not modelled. C94_conditions and C94_built show that the hypotheses hold for layers as the constructor builds them, when every filter reaches every output latitude (for example Zernike or harmonic bases on a grid that contains the output latitudes, C94_built_exists), and give the value in terms of C37."
  },
  {
   "property": "C95",
   "status": "proved",
   "theorems": [
    "Verif.Props.C95_step",
    "Verif.Props.C95_deterministic",
    "Verif.Props.C95_refines",
    "Verif.Props.C95_ring",
    "Verif.Props.C95_sums",
    "Verif.Props.C95_no_channels",
    "Verif.Props.C95_refused",
    "Verif.Props.C95_empty_batch",
    "Verif.Props.C95_too_many_channels",
    "Verif.Props.C95_race"
   ],
   "note": "For more than 512 channels of keys and long rows the theorems assume LoadsFirst, which the kernel does not enforce. Negative parts: C95_race, C95_refused, C95_empty_batch, C95_too_many_channels, C95_no_channels."
  },
  {
   "property": "C96",
   "status": "proved",
   "theorems": [
    "Verif.Props.C96_step",
    "Verif.Props.C96_deterministic",
    "Verif.Props.C96_refines",
    "Verif.Props.C96_gradient",
    "Verif.Props.C96_backward",
    "Verif.Props.C96_derivative",
    "Verif.Props.C96_no_channels",
    "Verif.Props.C96_refused",
    "Verif.Props.C96_empty_batch",
    "Verif.Props.C96_too_many_channels",
    "Verif.Props.C96_outside"
   ],
   "note": "Assumes HaloOk (all rows of neighbours in the block) for up to 8192 channels of keys, as the distributed module provides. Negative parts: C96_outside, C96_refused, C96_empty_batch, C96_too_many_channels, C96_no_channels."
  },
  {
   "property": "C97",
   "status": "proved",
   "theorems": [
    "Verif.Props.C97_operator",
    "Verif.Props.C97_operator_refused",
    "Verif.Props.C97_gradient",
    "Verif.Props.C97_layer",
    "Verif.Props.C97_refused",
    "Verif.Props.C97_bfloat16_wrong_rows",
    "Verif.Props.C97_half_reads_beyond",
    "Verif.Props.C97_double_ignores_half",
    "Verif.Props.C97_distributed",
    "Verif.Props.C97_distributed_misread",
    "Verif.Props.C97_distributed_mixed",
    "Verif.Props.C97_distributed_double"
   ],
   "note": "Values are exact: rounding is not modelled, only which calls are accepted, in which type they answer and which weights they use. C97_gradient assumes positive weights and non-empty neighbourhoods as C44 and C69 do. Negative parts: C97_bfloat16_wrong_rows, C97_half_reads_beyond, C97_double_ignores_half, C97_distributed_misread."
  },
  {
   "property": "C98",
   "status": "proved",
   "theorems": [
    "Verif.Props.C98_conditions",
    "Verif.Props.C98_built",
    "Verif.Props.C98_output",
    "Verif.Props.C98_paths_agree",
    "Verif.Props.C98_gradients",
    "Verif.Props.C98_transpose",
    "Verif.Props.C98_longitudes",
    "Verif.Props.C98_rows_unchecked",
    "Verif.Props.C98_rows_read",
    "Verif.Props.C98_channels",
    "Verif.Props.C98_large_batch",
    "Verif.Props.C98_double_autocast",
    "Verif.Props.C98_bias_type"
   ],
   "note": "Values are exact. Hypotheses on the filter (TransOf: listed row by row, as preprocess_psi needs) are those of C34 and C94 for the convolution with the grids exchanged. Negative parts: C98_rows_unchecked, C98_rows_read, C98_double_autocast, C98_large_batch. C98_conditions and C98_built do the same for constructed transposed layers."
  },
  {
   "property": "C99",
   "status": "proved",
   "theorems": [
    "Verif.Props.C99_reference",
    "Verif.Props.C99_reference_strides",
    "Verif.Props.C99_reference_misread",
    "Verif.Props.C99_reference_batch",
    "Verif.Props.C99_attention",
    "Verif.Props.C99_disco",
    "Verif.Props.C99_disco_shapes",
    "Verif.Props.C99_fused",
    "Verif.Props.C99_permuted_copy",
    "Verif.Props.C99_permute_alias"
   ],
   "note": "Layouts only; the values are those of C94, C97 and C98. The GPU attention operator is stated for keys and queries of one type; C97 shows what happens otherwise. Negative parts: C99_reference_strides, C99_reference_misread, C99_reference_batch."
  },
  {
   "property": "C100",
   "status": "proved",
   "theorems": [
    "Verif.Props.C100_deliver",
    "Verif.Props.C100_progress",
    "Verif.Props.C100_steps",
    "Verif.Props.C100_sizes",
    "Verif.Props.C100_completes",
    "Verif.Props.C100_sizes_fail",
    "Verif.Props.C100_starved",
    "Verif.Props.C100_neighbours",
    "Verif.Props.C100_matched",
    "Verif.Props.C100_schedules",
    "Verif.Props.C100_schedules_error",
    "Verif.Props.C100_attention",
    "Verif.Props.C100_halo_mismatch"
   ],
   "note": "Forward pass. The agreement of halo widths, a hypothesis of C100_schedules, is proved for layers that are built (C100_attention); C100_halo_mismatch shows what happens without it."
  },
  {
   "property": "C101",
   "status": "proved",
   "theorems": [
    "Verif.Props.C101_matched",
    "Verif.Props.C101_schedules",
    "Verif.Props.C101_gradients",
    "Verif.Props.C101_completes",
    "Verif.Props.C101_allReduce"
   ],
   "note": "SavedOK, a hypothesis of C101_schedules, is proved of what the forward pass saves (savedOK, used in C101_gradients)."
  },
  {
   "property": "C102",
   "status": "proved",
   "theorems": [
    "Verif.Props.C102_matched",
    "Verif.Props.C102_schedules",
    "Verif.Props.C102_channels",
    "Verif.Props.C102_real_sht",
    "Verif.Props.C102_inverse_sht",
    "Verif.Props.C102_vector_sht",
    "Verif.Props.C102_inverse_vector_sht"
   ],
   "note": "Two ranks whose numbers of channels differ but are both at most max(Pp, Pa) are padded to the same number; C102_channels does not cover this case (the transform runs)."
  },
  {
   "property": "C103",
   "status": "proved",
   "theorems": [
    "Verif.Props.C103_matched",
    "Verif.Props.C103_schedules",
    "Verif.Props.C103_channels",
    "Verif.Props.C103_conv",
    "Verif.Props.C103_conv_cpu",
    "Verif.Props.C103_transpose",
    "Verif.Props.C103_transpose_cpu"
   ],
   "note": "C103_channels assumes that every rank has at least as many channels as there are azimuth ranks; with fewer the rank raises before it communicates (C52_few_channels)."
  },
  {
   "property": "C104",
   "status": "proved",
   "theorems": [
    "Verif.Props.C104_unique",
    "Verif.Props.C104_real_sht",
    "Verif.Props.C104_inverse_sht",
    "Verif.Props.C104_vector_sht",
    "Verif.Props.C104_inverse_vector_sht"
   ],
   "note": "The backward functions of the operations that PyTorch provides are modelled as the vector-Jacobian products documented by PyTorch."
  },
  {
   "property": "C105",
   "status": "proved",
   "theorems": [
    "Verif.Props.C105_matched",
    "Verif.Props.C105_quadrature",
    "Verif.Props.C105_leading",
    "Verif.Props.C105_schedules",
    "Verif.Props.C105_resample",
    "Verif.Props.C105_channels"
   ],
   "note": "An all-reduce is modelled as an exchange of the summands between all members of the group; numbers are exact."
  },
  {
   "property": "C106",
   "status": "proved",
   "theorems": [
    "Verif.Props.C106_quadrature",
    "Verif.Props.C106_resample",
    "Verif.Props.C106_resample_skip",
    "Verif.Props.C106_schedules",
    "Verif.Props.C106_resample_grids"
   ],
   "note": "Resampling in the mode \"bilinear\", as the statement says; the mode \"bilinear-spherical\" is not linear and its backward pass is not modelled. The backward functions of PyTorch's own operations are taken from its documentation."
  },
  {
   "property": "C107",
   "status": "proved",
   "theorems": [
    "Verif.Props.C107_schedules",
    "Verif.Props.C107_scalar",
    "Verif.Props.C107_recovers",
    "Verif.Props.C107_vector",
    "Verif.Props.C107_default"
   ],
   "note": ""
  },
  {
   "property": "C108",
   "status": "proved",
   "theorems": [
    "Verif.Props.C108_matched",
    "Verif.Props.C108_schedules",
    "Verif.Props.C108_forward",
    "Verif.Props.C108_integral_step",
    "Verif.Props.C108_batches",
    "Verif.Props.C108_channels"
   ],
   "note": ""
  },
  {
   "property": "C109",
   "status": "proved",
   "theorems": [
    "Verif.Props.C109_input_gradient",
    "Verif.Props.C109_unique",
    "Verif.Props.C109_bias_gradient",
    "Verif.Props.C109_weight_gradient"
   ],
   "note": ""
  },
  {
   "property": "C110",
   "status": "proved",
   "theorems": [
    "Verif.Props.C110_gradients_unique",
    "Verif.Props.C110_step",
    "Verif.Props.C110_training"
   ],
   "note": "Plain gradient descent; the optimizer is not part of the repository."
  }
 ]
}