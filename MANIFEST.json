{
 "claims": [
  {
   "property": "C01",
   "status": "proved",
   "theorems": [
    "Dream.C01_partition"
   ],
   "note": ""
  },
  {
   "property": "C02",
   "status": "proved",
   "theorems": [
    "Dream.C02_clamp",
    "Dream.C02_no_idle_worker"
   ],
   "note": ""
  },
  {
   "property": "C03",
   "status": "proved",
   "theorems": [
    "Dream.C03_annu_columns",
    "Dream.C03_annu_same_matrix",
    "Dream.C03_array_columns",
    "Dream.C03_array_same_matrix",
    "Dream.C03_columns",
    "Dream.C03_same_matrix",
    "Dream.C03_nonstop_levels"
   ],
   "note": ""
  },
  {
   "property": "C04",
   "status": "proved",
   "theorems": [
    "Dream.C04_annu_flag",
    "Dream.C04_array_flag",
    "Dream.C04_flag"
   ],
   "note": ""
  },
  {
   "property": "C05",
   "status": "proved",
   "theorems": [
    "Dream.C05_annu_join",
    "Dream.C05_array_join",
    "Dream.C05_join_many",
    "Dream.C05_join_sound",
    "Dream.C05_join_one"
   ],
   "note": ""
  },
  {
   "property": "C06",
   "status": "proved",
   "theorems": [
    "Dream.C06_sphere_join"
   ],
   "note": ""
  },
  {
   "property": "C07",
   "status": "proved",
   "theorems": [
    "Dream.C07_annu_whole_columns",
    "Dream.C07_array_whole_columns",
    "Dream.C07_whole_columns",
    "Dream.C07_at_most_one_more"
   ],
   "note": ""
  },
  {
   "property": "C08",
   "status": "proved",
   "theorems": [
    "Dream.C08_annu_terminates",
    "Dream.C08_array_terminates",
    "Dream.C08_terminates",
    "Dream.C08_run_exists"
   ],
   "note": ""
  },
  {
   "property": "C09",
   "status": "proved",
   "theorems": [
    "Dream.C09_annu_safe",
    "Dream.C09_annu_driver_safe",
    "Dream.C09_array_safe",
    "Dream.C09_array_empty_grid",
    "Dream.C09_kernel_safe",
    "Dream.C09_kernel_local",
    "Dream.C09_driver_safe"
   ],
   "note": ""
  },
  {
   "property": "C10",
   "status": "proved",
   "theorems": [
    "Dream.C10_ignore_warn",
    "Dream.C10_stop"
   ],
   "note": ""
  },
  {
   "property": "C11",
   "status": "proved",
   "theorems": [
    "Dream.C11_rayleigh_sum"
   ],
   "note": ""
  },
  {
   "property": "C12",
   "status": "proved",
   "theorems": [
    "Dream.C12_rect_terminates",
    "Dream.C12_all_terminate",
    "Dream.C12_zero_step_hangs",
    "Dream.C12_ends_iff",
    "Dream.C12_never_returns",
    "Dream.C12_array_never_returns"
   ],
   "note": ""
  },
  {
   "property": "C13",
   "status": "proved",
   "theorems": [
    "Dream.C13_nonneg",
    "Dream.C13_linear_in_v",
    "Dream.C13_linear_all_levels"
   ],
   "note": ""
  },
  {
   "property": "C14",
   "status": "proved",
   "theorems": [
    "Dream.C14_even_shift",
    "Dream.C14_odd_shift_fails"
   ],
   "note": ""
  },
  {
   "property": "C15",
   "status": "proved",
   "theorems": [
    "Dream.C15_element_values",
    "Dream.C15_superposition"
   ],
   "note": ""
  },
  {
   "property": "C16",
   "status": "proved",
   "theorems": [
    "Dream.C16_array_code",
    "Dream.C16_last_element",
    "Dream.C16_warning_lost"
   ],
   "note": ""
  },
  {
   "property": "C17",
   "status": "proved",
   "theorems": [
    "Dream.C17_focusing",
    "Dream.C17_equal_arrival",
    "Dream.C17_x_plus_y_negative",
    "Dream.C17_nonneg_rounded"
   ],
   "note": ""
  },
  {
   "property": "C18",
   "status": "proved",
   "theorems": [
    "Dream.C18_sign",
    "Dream.C18_plane_wave"
   ],
   "note": ""
  },
  {
   "property": "C19",
   "status": "proved",
   "theorems": [
    "Dream.C19_windows",
    "Dream.C19_range",
    "Dream.C19_decreasing",
    "Dream.C19_array_weight"
   ],
   "note": ""
  },
  {
   "property": "C20",
   "status": "proved",
   "theorems": [
    "Dream.C20_aperture"
   ],
   "note": ""
  },
  {
   "property": "C21",
   "status": "proved",
   "theorems": [
    "Dream.C21_superpos",
    "Dream.C21_negative_unsafe",
    "Dream.C21_no_radii_unsafe",
    "Dream.C21_user_delay_unsafe",
    "Dream.C21_zero_delay_shift",
    "Dream.C21_focusing_safe"
   ],
   "note": ""
  },
  {
   "property": "C22",
   "status": "proved",
   "theorems": [
    "Dream.C22_rings",
    "Dream.C22_gapless",
    "Dream.C22_even_last_ignored"
   ],
   "note": ""
  },
  {
   "property": "C23",
   "status": "proved",
   "theorems": [
    "Dream.C23_area_preserved",
    "Dream.C23_zero_alpha"
   ],
   "note": ""
  },
  {
   "property": "C24",
   "status": "proved",
   "theorems": [
    "Dream.C24_conv"
   ],
   "note": ""
  },
  {
   "property": "C25",
   "status": "proved",
   "theorems": [
    "Dream.C25_fftconv",
    "Dream.C25_transform_memory",
    "Dream.C25_fftconv_eq_conv"
   ],
   "note": ""
  },
  {
   "property": "C26",
   "status": "proved",
   "theorems": [
    "Dream.C26_add_fftconv",
    "Dream.C26_plain_sum_iff",
    "Dream.C26_sum_fftconv_exact"
   ],
   "note": ""
  },
  {
   "property": "C27",
   "status": "proved",
   "theorems": [
    "Dream.C27_accepted",
    "Dream.C27_no_oob",
    "Dream.C27_terminates",
    "Dream.C27_ola_exact"
   ],
   "note": ""
  },
  {
   "property": "C28",
   "status": "proved",
   "theorems": [
    "Dream.C28_vector_reads_past_end",
    "Dream.C28_vector_wrong_column"
   ],
   "note": ""
  },
  {
   "property": "C29",
   "status": "proved",
   "theorems": [
    "Dream.C29_accepted",
    "Dream.C29_no_oob",
    "Dream.C29_terminates",
    "Dream.C29_columns",
    "Dream.C29_same_matrix",
    "Dream.C29_interrupted",
    "Dream.C29_conv_p_exact"
   ],
   "note": ""
  },
  {
   "property": "C30",
   "status": "proved",
   "theorems": [
    "Dream.C30_no_oob",
    "Dream.C30_pixel",
    "Dream.C30_image",
    "Dream.C30_reported",
    "Dream.C30_terminates",
    "Dream.C30_saft_exact",
    "Dream.C30_tfm_exact"
   ],
   "note": ""
  },
  {
   "property": "C31",
   "status": "proved",
   "theorems": [
    "Dream.C31_tfm_reciprocity",
    "Dream.C31_saft_index",
    "Dream.C31_saft_is_diagonal_tfm",
    "Dream.C31_delay_matters"
   ],
   "note": ""
  },
  {
   "property": "C32",
   "status": "proved",
   "theorems": [
    "Dream.C32_square",
    "Dream.C32_square_image",
    "Dream.C32_outside",
    "Dream.C32_entries_few_columns",
    "Dream.C32_entries_many_columns",
    "Dream.C32_nonsquare_wrong"
   ],
   "note": ""
  },
  {
   "property": "C33",
   "status": "proved",
   "theorems": [
    "Dream.C33_circ_sir",
    "Dream.C33_bounded",
    "Dream.C33_window",
    "Dream.C33_acos_domain",
    "Dream.C33_negative_zo"
   ],
   "note": ""
  },
  {
   "property": "C34",
   "status": "proved",
   "theorems": [
    "Dream.C34_outside",
    "Dream.C34_inside",
    "Dream.C34_on_axis",
    "Dream.C34_inside_wrong",
    "Dream.C34_bounded",
    "Dream.C34_window",
    "Dream.C34_ignores_v"
   ],
   "note": ""
  },
  {
   "property": "C35",
   "status": "proved",
   "theorems": [
    "Dream.C35_error_names",
    "Dream.C35_focus_names",
    "Dream.C35_steer_names",
    "Dream.C35_apod_names",
    "Dream.C35_das_names",
    "Dream.C35_sir_call",
    "Dream.C35_sir_accepted",
    "Dream.C35_sir_rejected",
    "Dream.C35_negative_length",
    "Dream.C35_arr_call",
    "Dream.C35_arr_accepted",
    "Dream.C35_arr_rejected",
    "Dream.C35_empty_array_unsafe"
   ],
   "note": ""
  },
  {
   "property": "C36",
   "status": "proved",
   "theorems": [
    "Dream.C36_delay_check",
    "Dream.C36_nonempty_safe",
    "Dream.C36_empty_unsafe",
    "Dream.C36_arr_nonempty_safe",
    "Dream.C36_arr_empty_unsafe"
   ],
   "note": ""
  },
  {
   "property": "C37",
   "status": "proved",
   "theorems": [
    "Dream.C37_check",
    "Dream.C37_vector_accepted"
   ],
   "note": ""
  },
  {
   "property": "C38",
   "status": "proved",
   "theorems": [
    "Dream.C38_clear_matrix",
    "Dream.C38_clear_vector",
    "Dream.C38_clear_owned",
    "Dream.C38_new_owned",
    "Dream.C38_owned_not_cleared"
   ],
   "note": ""
  },
  {
   "property": "C39",
   "status": "proved",
   "theorems": [
    "Dream.C39_no_oob",
    "Dream.C39_terminates",
    "Dream.C39_block",
    "Dream.C39_fewer_columns",
    "Dream.C39_row_zero"
   ],
   "note": ""
  },
  {
   "property": "C40",
   "status": "proved",
   "theorems": [
    "Dream.C40_rect_item",
    "Dream.C40_circ_item",
    "Dream.C40_image",
    "Dream.C40_other_sizes",
    "Dream.C40_int_limit",
    "Dream.C40_das_item",
    "Dream.C40_das_image"
   ],
   "note": ""
  },
  {
   "property": "C41",
   "status": "proved",
   "theorems": [
    "Dream.C41_is_wisdom",
    "Dream.C41_text_option"
   ],
   "note": ""
  },
  {
   "property": "C42",
   "status": "proved",
   "theorems": [
    "Dream.C42_annu_user_outcome",
    "Dream.C42_array_user_outcome",
    "Dream.C42_user_outcome",
    "Dream.C42_sphere_outcome",
    "Dream.C42_example"
   ],
   "note": ""
  },
  {
   "property": "C43",
   "status": "proved",
   "theorems": [
    "Dream.C43_columns",
    "Dream.C43_area",
    "Dream.C43_pulse"
   ],
   "note": ""
  },
  {
   "property": "C44",
   "status": "proved",
   "theorems": [
    "Dream.C44_row_vector",
    "Dream.C44_other_shapes_safe"
   ],
   "note": ""
  },
  {
   "property": "C45",
   "status": "proved",
   "theorems": [
    "Dream.C45_zero_block",
    "Dream.C45_replace_mode_adds",
    "Dream.C45_inplace_uninitialised",
    "Dream.C45_inplace_exact"
   ],
   "note": ""
  },
  {
   "property": "C46",
   "status": "proved",
   "theorems": [
    "Dream.C46_scirc_sir",
    "Dream.C46_bounded",
    "Dream.C46_window"
   ],
   "note": ""
  },
  {
   "property": "C47",
   "status": "proved",
   "theorems": [
    "Dream.C47_rejected_silently",
    "Dream.C47_matlab_accepts",
    "Dream.C47_matlab_zero_response"
   ],
   "note": ""
  },
  {
   "property": "C48",
   "status": "proved",
   "theorems": [
    "Dream.C48_window_ignored",
    "Dream.C48_gauss_flat"
   ],
   "note": ""
  },
  {
   "property": "C49",
   "status": "proved",
   "theorems": [
    "Dream.C49_one_dim",
    "Dream.C49_python_call"
   ],
   "note": ""
  },
  {
   "property": "C50",
   "status": "proved",
   "theorems": [
    "Dream.C50_matlab_level_ignored"
   ],
   "note": ""
  },
  {
   "property": "C51",
   "status": "proved",
   "theorems": [
    "Dream.C51_call",
    "Dream.C51_accepted",
    "Dream.C51_sized",
    "Dream.C51_matlab_octave_sized",
    "Dream.C51_python_row",
    "Dream.C51_user_delays"
   ],
   "note": ""
  },
  {
   "property": "C52",
   "status": "proved",
   "theorems": [
    "Dream.C52_documented",
    "Dream.C52_in_place_outputs",
    "Dream.C52_wrong_size",
    "Dream.C52_mode_ignored",
    "Dream.C52_unknown_mode",
    "Dream.C52_call_exact",
    "Dream.C52_add_with_wisdom",
    "Dream.C52_ola_mode_ignored",
    "Dream.C52_sum_mode",
    "Dream.C52_sum_in_place",
    "Dream.C52_conv_p_documented",
    "Dream.C52_conv_p_mode"
   ],
   "note": ""
  },
  {
   "property": "C53",
   "status": "proved",
   "theorems": [
    "Dream.C53_surface",
    "Dream.C53_output",
    "Dream.C53_array",
    "Dream.C53_array_output",
    "Dream.C53_annu",
    "Dream.C53_annu_output"
   ],
   "note": ""
  },
  {
   "property": "C54",
   "status": "proved",
   "theorems": [
    "Dream.C54_circ_focus",
    "Dream.C54_rect_focus",
    "Dream.C54_line_focus",
    "Dream.C54_circ_spike",
    "Dream.C54_rect_spike",
    "Dream.C54_sphere_focus",
    "Dream.C54_sphere_spike",
    "Dream.C54_cylind_focus",
    "Dream.C54_delays_nonneg",
    "Dream.C54_array_focus"
   ],
   "note": ""
  },
  {
   "property": "C55",
   "status": "proved",
   "theorems": [
    "Dream.C55_cpu",
    "Dream.C55_gpu",
    "Dream.C55_history"
   ],
   "note": ""
  },
  {
   "property": "C56",
   "status": "proved",
   "theorems": [
    "Dream.C56_single_null"
   ],
   "note": ""
  },
  {
   "property": "C57",
   "status": "proved",
   "theorems": [
    "Dream.C57_accepted",
    "Dream.C57_unknown_method",
    "Dream.C57_transmit_columns",
    "Dream.C57_mixed",
    "Dream.C57_receive_columns",
    "Dream.C57_scalars",
    "Dream.C57_point_columns",
    "Dream.C57_gpu_refused",
    "Dream.C57_other_device",
    "Dream.C57_device_ignored",
    "Dream.C57_device_used"
   ],
   "note": ""
  },
  {
   "property": "C58",
   "status": "proved",
   "theorems": [
    "Dream.C58_sized",
    "Dream.C58_safe",
    "Dream.C58_short_pixel",
    "Dream.C58_short"
   ],
   "note": ""
  },
  {
   "property": "C59",
   "status": "proved",
   "theorems": [
    "Dream.C59_scalar_delay"
   ],
   "note": ""
  },
  {
   "property": "C60",
   "status": "proved",
   "theorems": [
    "Dream.C60_point",
    "Dream.C60_once",
    "Dream.C60_count",
    "Dream.C60_backwards",
    "Dream.C60_host_device"
   ],
   "note": ""
  },
  {
   "property": "C61",
   "status": "proved",
   "theorems": [
    "Dream.C61_image",
    "Dream.C61_as_das",
    "Dream.C61_launch"
   ],
   "note": ""
  },
  {
   "property": "C62",
   "status": "proved",
   "theorems": [
    "Dream.C62_empty_receive",
    "Dream.C62_receive_unused"
   ],
   "note": ""
  },
  {
   "property": "C63",
   "status": "proved",
   "theorems": [
    "Dream.C63_few_rows",
    "Dream.C63_more_rows",
    "Dream.C63_octave"
   ],
   "note": ""
  },
  {
   "property": "C64",
   "status": "proved",
   "theorems": [
    "Dream.C64_history",
    "Dream.C64_history_fail",
    "Dream.C64_launch",
    "Dream.C64_accepted",
    "Dream.C64_too_few",
    "Dream.C64_ragged",
    "Dream.C64_refused"
   ],
   "note": ""
  },
  {
   "property": "C65",
   "status": "proved",
   "theorems": [
    "Dream.C65_spectrum",
    "Dream.C65_decibel",
    "Dream.C65_monotone",
    "Dream.C65_hit"
   ],
   "note": ""
  },
  {
   "property": "C66",
   "status": "proved",
   "theorems": [
    "Dream.C66_any_arithmetic",
    "Dream.C66_defined",
    "Dream.C66_other_sizes",
    "Dream.C66_same_as_cpu",
    "Dream.C66_single_delay",
    "Dream.C66_delays_ignored",
    "Dream.C66_edge"
   ],
   "note": ""
  },
  {
   "property": "C67",
   "status": "proved",
   "theorems": [
    "Dream.C67_outcomes",
    "Dream.C67_started_iff",
    "Dream.C67_refused",
    "Dream.C67_negative_length",
    "Dream.C67_safe",
    "Dream.C67_empty_delay",
    "Dream.C67_synopsis",
    "Dream.C67_synopsis_scirc",
    "Dream.C67_circ_sir"
   ],
   "note": ""
  },
  {
   "property": "C68",
   "status": "proved",
   "theorems": [
    "Dream.C68_outcomes",
    "Dream.C68_off",
    "Dream.C68_user_weights",
    "Dream.C68_window",
    "Dream.C68_shape",
    "Dream.C68_as_array",
    "Dream.C68_not_centred_array",
    "Dream.C68_weights_lost"
   ],
   "note": ""
  },
  {
   "property": "C69",
   "status": "proved",
   "theorems": [
    "Dream.C69_outcomes",
    "Dream.C69_columns",
    "Dream.C69_empty",
    "Dream.C69_out_of_range",
    "Dream.C69_octave_size",
    "Dream.C69_octave_points",
    "Dream.C69_area",
    "Dream.C69_pulse",
    "Dream.C69_spectrum"
   ],
   "note": ""
  },
  {
   "property": "C70",
   "status": "proved",
   "theorems": [
    "Dream.C70_outcomes",
    "Dream.C70_exact",
    "Dream.C70_many_dims",
    "Dream.C70_many_dims_empty",
    "Dream.C70_scalar",
    "Dream.C70_empty_fft",
    "Dream.C70_empty_conv",
    "Dream.C70_interrupted"
   ],
   "note": ""
  },
  {
   "property": "C71",
   "status": "proved",
   "theorems": [
    "Dream.C71_choice",
    "Dream.C71_as_flat_cpu",
    "Dream.C71_ignored",
    "Dream.C71_oob_silent",
    "Dream.C71_unspecified",
    "Dream.C71_empty_delay",
    "Dream.C71_int_limit"
   ],
   "note": ""
  },
  {
   "property": "C72",
   "status": "proved",
   "theorems": [
    "Dream.C72_number",
    "Dream.C72_exception",
    "Dream.C72_count",
    "Dream.C72_documented",
    "Dream.C72_negative",
    "Dream.C72_mod32",
    "Dream.C72_same_matrix",
    "Dream.C72_messages"
   ],
   "note": ""
  },
  {
   "property": "C73",
   "status": "proved",
   "theorems": [
    "Dream.C73_conv_p",
    "Dream.C73_das"
   ],
   "note": ""
  },
  {
   "property": "C74",
   "status": "proved",
   "theorems": [
    "Dream.C74_response",
    "Dream.C74_run",
    "Dream.C74_rect_cells"
   ],
   "note": ""
  },
  {
   "property": "C75",
   "status": "proved",
   "theorems": [
    "Dream.C75_own_columns",
    "Dream.C75_sir",
    "Dream.C75_arr",
    "Dream.C75_annu",
    "Dream.C75_das",
    "Dream.C75_analytic",
    "Dream.C75_conv",
    "Dream.C75_sum",
    "Dream.C75_ola",
    "Dream.C75_copy"
   ],
   "note": ""
  },
  {
   "property": "C76",
   "status": "proved",
   "theorems": [
    "Dream.C76_restored",
    "Dream.C76_left_behind",
    "Dream.C76_host_deaf",
    "Dream.C76_ctrl_c_gone",
    "Dream.C76_fresh_flag",
    "Dream.C76_not_stoppable",
    "Dream.C76_lost",
    "Dream.C76_stopped",
    "Dream.C76_incomplete_returned",
    "Dream.C76_flag",
    "Dream.C76_passed_on",
    "Dream.C76_which",
    "Dream.C76_offered"
   ],
   "note": ""
  },
  {
   "property": "C77",
   "status": "proved",
   "theorems": [
    "Dream.C77_focus",
    "Dream.C77_virtual_source",
    "Dream.C77_focusing_x",
    "Dream.C77_ud_is_x",
    "Dream.C77_library_ignores_sign",
    "Dream.C77_far_focus",
    "Dream.C77_far_focus_steers",
    "Dream.C77_nonneg_rounded"
   ],
   "note": ""
  },
  {
   "property": "C78",
   "status": "proved",
   "theorems": [
    "Dream.C78_difference",
    "Dream.C78_fresh_water",
    "Dream.C78_sea_water",
    "Dream.C78_units",
    "Dream.C78_capitals",
    "Dream.C78_unknown_unit"
   ],
   "note": ""
  },
  {
   "property": "C79",
   "status": "proved",
   "theorems": [
    "Dream.C79_others_unchanged",
    "Dream.C79_completes",
    "Dream.C79_sharers_see_result",
    "Dream.C79_input_shared_zero",
    "Dream.C79_copy_then_conv",
    "Dream.C79_not_full_matrix",
    "Dream.C79_copy_lost",
    "Dream.C79_copy_shared",
    "Dream.C79_ola_others_unchanged",
    "Dream.C79_ola_completes",
    "Dream.C79_ola_sharers",
    "Dream.C79_ola_not_full_matrix",
    "Dream.C79_sum_others_unchanged",
    "Dream.C79_sum_completes",
    "Dream.C79_sum_sharers",
    "Dream.C79_sum_not_full_matrix"
   ],
   "note": ""
  },
  {
   "property": "C80",
   "status": "proved",
   "theorems": [
    "Dream.C80_support",
    "Dream.C80_error",
    "Dream.C80_converges",
    "Dream.C80_line_converges",
    "Dream.C80_call",
    "Dream.C80_array",
    "Dream.C80_cap_violated"
   ],
   "note": ""
  },
  {
   "property": "C81",
   "status": "proved",
   "theorems": [
    "Dream.C81_length",
    "Dream.C81_time",
    "Dream.C81_call",
    "Dream.C81_mirror_x",
    "Dream.C81_mirror_y",
    "Dream.C81_mirror_error",
    "Dream.C81_mirror_error_y",
    "Dream.C81_disc_violated"
   ],
   "note": ""
  },
  {
   "property": "C82",
   "status": "proved",
   "theorems": [
    "Dream.C82_lossless",
    "Dream.C82_sir",
    "Dream.C82_arr",
    "Dream.C82_documented",
    "Dream.C82_one_worker_violated",
    "Dream.C82_arr_documented",
    "Dream.C82_arr_last_only_violated",
    "Dream.C82_arr_one_worker_violated",
    "Dream.C82_no_warning_violated",
    "Dream.C82_machines",
    "Dream.C82_lossy_spectrum",
    "Dream.C82_julia_cylind_violated",
    "Dream.C82_sphere_violated",
    "Dream.C82_message_violated",
    "Dream.C82_arr_message_violated"
   ],
   "note": ""
  },
  {
   "property": "C83",
   "status": "proved",
   "theorems": [
    "Dream.C83_one_after_the_other",
    "Dream.C83_all_created",
    "Dream.C83_first_refused",
    "Dream.C83_later_refused",
    "Dream.C83_refused_any_time",
    "Dream.C83_all_returned",
    "Dream.C83_sir",
    "Dream.C83_arr",
    "Dream.C83_handlers_left",
    "Dream.C83_ctrl_c_gone"
   ],
   "note": ""
  },
  {
   "property": "C84",
   "status": "proved",
   "theorems": [
    "Dream.C84_ranges",
    "Dream.C84_sir",
    "Dream.C84_arr",
    "Dream.C84_48bit",
    "Dream.C84_signed_overflow",
    "Dream.C84_unsigned_wraps"
   ],
   "note": ""
  },
  {
   "property": "C85",
   "status": "proved",
   "theorems": [
    "Dream.C85_bad_cell",
    "Dream.C85_serial",
    "Dream.C85_cast",
    "Dream.C85_special",
    "Dream.C85_sphere_beyond",
    "Dream.C85_array_bad_cell",
    "Dream.C85_array_special",
    "Dream.C85_nan_geometry",
    "Dream.C85_nan_velocity"
   ],
   "note": ""
  },
  {
   "property": "C86",
   "status": "proved",
   "theorems": [
    "Dream.C86_annu_lossless",
    "Dream.C86_annu",
    "Dream.C86_annu_documented",
    "Dream.C86_annu_one_worker_violated",
    "Dream.C86_annu_even_violated",
    "Dream.C86_saft_pixel",
    "Dream.C86_tfm_pixel",
    "Dream.C86_square_pixel",
    "Dream.C86_das",
    "Dream.C86_das_documented",
    "Dream.C86_das_one_worker_violated",
    "Dream.C86_das_example"
   ],
   "note": ""
  },
  {
   "property": "C87",
   "status": "proved",
   "theorems": [
    "Dream.C87_ola_modes_violated",
    "Dream.C87_conv_p",
    "Dream.C87_fftconv_p",
    "Dream.C87_conv_p_refused",
    "Dream.C87_fftconv_p_refused",
    "Dream.C87_fftconv_p_empty_violated",
    "Dream.C87_two_outputs_in_place",
    "Dream.C87_fftconv_ola",
    "Dream.C87_ola_vector_violated",
    "Dream.C87_ola_zero_block_violated",
    "Dream.C87_ola_negative",
    "Dream.C87_ola_refused",
    "Dream.C87_sum_fftconv",
    "Dream.C87_sum_row_vector_violated",
    "Dream.C87_sum_single_violated",
    "Dream.C87_host",
    "Dream.C87_host_empty_violated"
   ],
   "note": ""
  },
  {
   "property": "C88",
   "status": "proved",
   "theorems": [
    "Dream.C88_sir_fine",
    "Dream.C88_sir_double",
    "Dream.C88_sir_python",
    "Dream.C88_sir_julia",
    "Dream.C88_sir_class_violated",
    "Dream.C88_octave_ud_violated",
    "Dream.C88_matlab_int64",
    "Dream.C88_matlab_points_violated",
    "Dream.C88_arr_fine",
    "Dream.C88_arr_double",
    "Dream.C88_arr_python",
    "Dream.C88_arr_julia",
    "Dream.C88_arr_class_violated",
    "Dream.C88_octave_one_element_violated",
    "Dream.C88_annu_double",
    "Dream.C88_annu_python",
    "Dream.C88_annu_julia"
   ],
   "note": ""
  },
  {
   "property": "C89",
   "status": "proved",
   "theorems": [
    "Dream.C89_copy_p_fraction",
    "Dream.C89_copy_p_fraction_short_violated",
    "Dream.C89_copy_p_fraction_overrun_violated",
    "Dream.C89_ana_refused",
    "Dream.C89_ana_empty_delay_violated",
    "Dream.C89_circ_sir",
    "Dream.C89_scirc_sir",
    "Dream.C89_rect_sir",
    "Dream.C89_copy_p",
    "Dream.C89_copy_p_refused",
    "Dream.C89_copy_p_count",
    "Dream.C89_copy_p_shape",
    "Dream.C89_copy_p_columns_violated",
    "Dream.C89_copy_p_row_zero_violated",
    "Dream.C89_copy_p_reversed_violated"
   ],
   "note": ""
  },
  {
   "property": "C90",
   "status": "proved",
   "theorems": [
    "Dream.C90_position",
    "Dream.C90_image"
   ],
   "note": ""
  },
  {
   "property": "C91",
   "status": "proved",
   "theorems": [
    "Dream.C91_das_special",
    "Dream.C91_das_cast",
    "Dream.C91_das_reached",
    "Dream.C91_das_nan_data",
    "Dream.C91_das_local",
    "Dream.C91_conv_nan",
    "Dream.C91_conv_local",
    "Dream.C91_fftconv_nan",
    "Dream.C91_circ_nan",
    "Dream.C91_scirc_nan",
    "Dream.C91_rect_nan"
   ],
   "note": ""
  },
  {
   "property": "C92",
   "status": "proved",
   "theorems": [
    "Dream.C92_fftconv_p",
    "Dream.C92_conv_fftconv",
    "Dream.C92_sum_fftconv",
    "Dream.C92_fftconv_ola"
   ],
   "note": ""
  },
  {
   "property": "C93",
   "status": "proved",
   "theorems": [
    "Dream.C93_conv",
    "Dream.C93_conv_48bit",
    "Dream.C93_fft_no_plan",
    "Dream.C93_fft_short_plan",
    "Dream.C93_sum",
    "Dream.C93_sum_no_plan",
    "Dream.C93_analytic",
    "Dream.C93_annu",
    "Dream.C93_das",
    "Dream.C93_copy",
    "Dream.C93_copy_48bit",
    "Dream.C93_ola",
    "Dream.C93_ola_48bit",
    "Dream.C93_ola_no_plan"
   ],
   "note": ""
  },
  {
   "property": "C94",
   "status": "proved",
   "theorems": [
    "Dream.C94_analytic",
    "Dream.C94_ana_points_violated",
    "Dream.C94_ana_params_violated",
    "Dream.C94_dream_att",
    "Dream.C94_dream_att_narrow_violated",
    "Dream.C94_conv_p",
    "Dream.C94_fftconv_p",
    "Dream.C94_fftconv_ola",
    "Dream.C94_sum_fftconv",
    "Dream.C94_copy_p",
    "Dream.C94_conv_p_narrow_violated",
    "Dream.C94_fftconv_p_narrow_violated",
    "Dream.C94_conv_p_int64_violated",
    "Dream.C94_fftconv_p_int64_violated",
    "Dream.C94_fftconv_ola_narrow_violated",
    "Dream.C94_ola_block_narrow_violated",
    "Dream.C94_sum_fftconv_narrow_violated",
    "Dream.C94_copy_p_rows_narrow_violated",
    "Dream.C94_copy_p_columns_narrow_violated",
    "Dream.C94_copy_p_narrow_violated"
   ],
   "note": ""
  },
  {
   "property": "C95",
   "status": "proved",
   "theorems": [
    "Dream.C95_call_keeps_violated",
    "Dream.C95_session_grows_violated",
    "Dream.C95_own_memory",
    "Dream.C95_out_of_memory_violated",
    "Dream.C95_jobs_checked",
    "Dream.C95_scratch_violated",
    "Dream.C95_table_violated",
    "Dream.C95_checked"
   ],
   "note": ""
  }
 ]
}