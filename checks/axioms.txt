# 1323 theorems: propext, Classical.choice, Quot.sound
Verif.aqua_feed_acc
Verif.aqua_feed_gyro
Verif.aqua_feed_mag
Verif.aqua_feed_rejects
Verif.aqua_feed_safe
Verif.aqua_feed_unit_partial
Verif.aqua_first_null_ub
Verif.aqua_full_gain_acc
Verif.aqua_full_gain_mag
Verif.aqua_history
Verif.aqua_instances_interfere
Verif.aqua_instances_partial
Verif.aqua_keeps
Verif.aqua_not_restarts
Verif.aqua_rejected_adapts
Verif.aqua_settles
Verif.aqua_stops_short
Verif.aqua_toward
Verif.aqua_upside_down
Verif.arm_vec_add_correct
Verif.arm_vec_scalar_add_correct
Verif.arm_vec_scalar_div_correct
Verif.arm_vec_scalar_mult_correct
Verif.att_accel_angle_argument
Verif.att_accel_angle_correct
Verif.att_accel_angle_rounding_partial
Verif.att_accel_angle_safe
Verif.att_accel_angle_same_nan
Verif.att_accel_angle_zero
Verif.att_euler_round_trip
Verif.att_from_accel_correct
Verif.att_from_accel_safe
Verif.att_from_accel_scale
Verif.att_from_accelmag_correct
Verif.att_from_accelmag_safe
Verif.att_rejects
Verif.attitude_never_drifts
Verif.bayes_accepts
Verif.bayes_posterior
Verif.bernoulli_conserves
Verif.binomial_beyond_partial
Verif.binomial_cdf_correct
Verif.binomial_coef_correct
Verif.binomial_coef_overflow
Verif.binomial_moments
Verif.binomial_pdf_correct
Verif.binomial_pdf_nan
Verif.binomial_rejects
Verif.boyle_ideal_gas
Verif.calJacElli_val
Verif.calJacShp_val
Verif.calTilt_nochk
Verif.cal_corr_scalar_correct
Verif.cal_corr_scalar_recovers
Verif.cal_corr_vec_correct
Verif.cal_corr_vec_recovers
Verif.cal_corr_vec_safe
Verif.cal_gain_rejects
Verif.cal_gain_safe
Verif.cal_madg_not_best
Verif.cal_madg_zero
Verif.cal_magn_empty
Verif.cal_magn_fast_partial
Verif.cal_magn_fast_radius
Verif.cal_magn_fast_rejects
Verif.cal_magn_fast_safe
Verif.cal_magn_not_identity
Verif.cal_magn_pair
Verif.cal_magn_rejects
Verif.cal_magn_safe
Verif.cal_magn_sphere_partial
Verif.cal_magn_symmetric
Verif.cal_magn_symmetric_partial
Verif.cal_mahn_not_best
Verif.cal_mahn_zero
Verif.cal_rot_axis_angle_correct
Verif.cal_rot_axis_angle_safe
Verif.cal_rot_axis_angle_zero
Verif.cal_rot_mtx_correct
Verif.cal_rot_mtx_safe
Verif.cal_rot_rejects
Verif.cap_parallel_correct
Verif.cap_series_correct
Verif.ccm_det_pos
Verif.ccm_injective
Verif.cct_fallback
Verif.cct_offset
Verif.cct_rejects
Verif.cct_round_trip
Verif.cct_round_trip_coarse
Verif.cct_round_trip_steps
Verif.cct_xyy_correct
Verif.cct_xyz_comp
Verif.charles_ideal_gas
Verif.chem_weight_bounds
Verif.chem_weight_correct
Verif.chem_weight_increasing
Verif.clip_gamut
Verif.clr_ct_rgbf_safe
Verif.clr_ct_xyz_safe
Verif.clr_spd_xyz_safe
Verif.clr_xyz_rgbf_safe
Verif.comp_dms_to_dd_correct
Verif.comp_feed_correct
Verif.comp_feed_gyro
Verif.comp_feed_rejects
Verif.comp_feed_rounding
Verif.comp_feed_safe
Verif.comp_geo_north_correct
Verif.comp_history_rounding
Verif.comp_history_unit
Verif.comp_instances_interfere
Verif.comp_instances_partial
Verif.comp_magn_north_axis
Verif.comp_magn_north_opposite
Verif.comp_magn_north_partial
Verif.comp_north_safe
Verif.comp_restarts
Verif.comp_settles
Verif.comp_settles_rate
Verif.comp_turns_away
Verif.comp_zero_attitude
Verif.comp_zero_rounding
Verif.coulomb_laws
Verif.critical_angle_correct
Verif.ct_rgb8_zero_ub
Verif.ct_rgb_correct
Verif.ct_uv60_correct
Verif.ct_xyz_correct
Verif.ct_xyz_pos
Verif.ct_xyz_zero
Verif.cubic_interleaved_overread
Verif.cubic_interleaved_wrong
Verif.cubic_threads_interfere
Verif.cubic_threads_partial
Verif.d65_flagged
Verif.decay_split
Verif.ellipsoid_slope
Verif.ellipsoid_slope_wrong
Verif.ener_final_conserves
Verif.entropy_bounds
Verif.entropy_certain_nan
Verif.entropy_correct_partial
Verif.entropy_rejects
Verif.entropy_sure
Verif.entropy_uniform
Verif.entropy_zero_outcome
Verif.erf_inv_accurate
Verif.erf_inv_far_tail
Verif.erf_inv_mono_partial
Verif.erf_inv_nearly_mono
Verif.erf_inv_not_mono
Verif.erf_inv_odd
Verif.erf_inv_rejects
Verif.erf_inv_sign
Verif.factorial_correct
Verif.factorial_overflow
Verif.fall_conserves
Verif.fed_unitised
Verif.flat_light_white
Verif.flow_conserves
Verif.grav_lat_alt_correct
Verif.grav_laws
Verif.gravity_laws
Verif.gyro_integration_rounding
Verif.gyro_million_double
Verif.illum_get_10deg
Verif.illum_get_correct
Verif.interp_arr_safe
Verif.interp_cubic_accuracy
Verif.interp_cubic_arr_correct
Verif.interp_cubic_arr_knot
Verif.interp_cubic_arr_safe
Verif.interp_cubic_calc_correct
Verif.interp_cubic_calc_reject
Verif.interp_cubic_calc_safe
Verif.interp_cubic_exact
Verif.interp_cubic_line
Verif.interp_cubic_unique
Verif.interp_find_x_asc
Verif.interp_find_x_desc
Verif.interp_find_x_huge
Verif.interp_find_x_safe
Verif.interp_find_x_short
Verif.interp_lerp_correct
Verif.interp_lerp_nan
Verif.interp_lerp_reject
Verif.interp_lerp_rounding
Verif.interp_lerp_value
Verif.interp_lin_x_flat
Verif.interp_lin_x_partial
Verif.interp_lin_x_reject
Verif.interp_lin_y_arr_accuracy
Verif.interp_lin_y_arr_correct
Verif.interp_lin_y_arr_knot
Verif.interp_lin_y_arr_reject
Verif.interp_lin_y_correct
Verif.interp_lin_y_desc_reject
Verif.interp_lin_y_monotone_rounding
Verif.interp_lin_y_reject
Verif.interp_lin_y_rounding
Verif.interp_nn_arr_accuracy
Verif.interp_nn_arr_reject
Verif.interp_nn_arr_value
Verif.interp_nn_arr_wrong
Verif.interp_nn_partial
Verif.interp_nn_reject
Verif.interp_nn_value
Verif.interp_nn_wrong
Verif.jac_spec
Verif.kalm_agreeing_level_partial
Verif.kalm_agreeing_readings
Verif.kalm_covariance_asymmetric
Verif.kalm_covariance_near
Verif.kalm_covariance_near_var
Verif.kalm_covariance_noTiny_partial
Verif.kalm_covariance_partial
Verif.kalm_feed_correct
Verif.kalm_feed_negative
Verif.kalm_feed_rejects
Verif.kalm_feed_safe
Verif.kalm_first_feed
Verif.kalm_first_rejected
Verif.kalm_history_unit
Verif.kalm_instances_interfere
Verif.kalm_instances_partial
Verif.kalm_not_restarts
Verif.kalm_second_instance_blind
Verif.kalm_start_parallel
Verif.kalm_transition_mismatch
Verif.kalm_zero_stuck
Verif.kin_consistent
Verif.lef_between
Verif.lef_correct
Verif.lef_falls
Verif.lef_outside
Verif.lef_peak
Verif.lef_photopic_observer
Verif.lef_photopic_unit_partial
Verif.lef_rises
Verif.lef_scotopic_not_unit
Verif.lef_table
Verif.lever_balances
Verif.madg_feed_correct
Verif.madg_feed_gyro
Verif.madg_feed_rejects
Verif.madg_feed_rounding
Verif.madg_feed_safe
Verif.madg_history_accepts
Verif.madg_history_rounding
Verif.madg_history_unit
Verif.madg_instances_interfere
Verif.madg_instances_partial
Verif.madg_jacobian_field_iff
Verif.madg_jacobian_gravity
Verif.madg_moves_away
Verif.madg_never_level
Verif.madg_never_level_any
Verif.madg_not_kept
Verif.madg_restarts
Verif.madg_step_sign
Verif.madg_tilts_back_any_partial
Verif.madg_tilts_back_partial
Verif.madg_tilts_further
Verif.madg_tilts_further_any
Verif.madg_works_turned_round
Verif.madg_zero_attitude
Verif.madg_zero_stuck
Verif.mahn_feed_correct
Verif.mahn_feed_gyro
Verif.mahn_feed_rejects
Verif.mahn_feed_rounding
Verif.mahn_feed_safe
Verif.mahn_history_accepts
Verif.mahn_history_rounding
Verif.mahn_history_unit
Verif.mahn_instances_interfere
Verif.mahn_instances_partial
Verif.mahn_integral_bounded
Verif.mahn_integral_limited
Verif.mahn_keeps
Verif.mahn_moves_away
Verif.mahn_restarts
Verif.mahn_turns_over
Verif.mass_center_correct
Verif.mass_center_in_box
Verif.mass_center_rejects
Verif.mass_center_sizes
Verif.mass_center_translate
Verif.mccamy_correct
Verif.mccamy_round_trip
Verif.mccamy_round_trip_all
Verif.mccamy_round_trip_cool
Verif.mccamy_round_trip_hot
Verif.mccamy_round_trip_warm
Verif.mes_get_set_other
Verif.mes_get_set_same
Verif.mes_words
Verif.mirror_equation
Verif.mom_elas_conserves
Verif.mom_inelas_conserves
Verif.mom_rejects
Verif.mtx_3x3_safe
Verif.mtx_access_safe
Verif.mtx_add_sub_any_pointers
Verif.mtx_add_sub_correct
Verif.mtx_add_sub_d_correct
Verif.mtx_add_sub_safe
Verif.mtx_add_sub_self
Verif.mtx_add_sub_shape
Verif.mtx_adjoint_3x3_correct
Verif.mtx_adjoint_3x3_in_place
Verif.mtx_adjoint_3x3_in_place_wrong
Verif.mtx_adjoint_3x3_integers
Verif.mtx_adjoint_3x3_rounding
Verif.mtx_adjoint_3x3_separate
Verif.mtx_adjoint_exact
Verif.mtx_adjoint_in_place
Verif.mtx_adjoint_in_place_wrong
Verif.mtx_adjoint_partial
Verif.mtx_adjoint_rounding
Verif.mtx_adjoint_safe
Verif.mtx_adjoint_separate
Verif.mtx_adjoint_wrong
Verif.mtx_augm_diag_correct
Verif.mtx_augm_diag_in_place
Verif.mtx_augm_diag_separate
Verif.mtx_augm_diag_smaller
Verif.mtx_balance_aliasing
Verif.mtx_balance_balances_partial
Verif.mtx_balance_charpoly
Verif.mtx_balance_correct
Verif.mtx_balance_first_row
Verif.mtx_balance_hangs_init
Verif.mtx_balance_keeps
Verif.mtx_balance_returns_iff
Verif.mtx_balance_returns_nonneg
Verif.mtx_balance_safe
Verif.mtx_balance_shape
Verif.mtx_balance_symm_partial
Verif.mtx_balance_terminates_partial
Verif.mtx_binary_func_correct
Verif.mtx_binary_op_aliasing
Verif.mtx_binary_op_d_is
Verif.mtx_binary_op_d_safe
Verif.mtx_binary_op_d_shape
Verif.mtx_binary_op_div
Verif.mtx_binary_op_fallthrough
Verif.mtx_binary_op_mean_wrong
Verif.mtx_binary_op_partial
Verif.mtx_binary_op_safe
Verif.mtx_binary_op_separate
Verif.mtx_cholesky_asym
Verif.mtx_cholesky_backward
Verif.mtx_cholesky_breakdown
Verif.mtx_cholesky_correct
Verif.mtx_cholesky_in_place
Verif.mtx_cholesky_in_place_wrong
Verif.mtx_cholesky_rounding
Verif.mtx_cholesky_separate
Verif.mtx_cholesky_shape
Verif.mtx_cholesky_success
Verif.mtx_cholesky_unique
Verif.mtx_col_range
Verif.mtx_cols_norm_aliasing
Verif.mtx_cols_norm_correct
Verif.mtx_cols_norm_overread
Verif.mtx_cols_norm_safe
Verif.mtx_copy_aliasing
Verif.mtx_copy_correct
Verif.mtx_copy_safe
Verif.mtx_deter_3x3_correct
Verif.mtx_deter_3x3_rounding
Verif.mtx_deter_correct
Verif.mtx_deter_equal_rows
Verif.mtx_deter_integers
Verif.mtx_deter_mult
Verif.mtx_deter_rounding
Verif.mtx_deter_safe
Verif.mtx_deter_sign
Verif.mtx_deter_trans
Verif.mtx_eigenvalues_backward
Verif.mtx_eigenvalues_certificate
Verif.mtx_eigenvalues_complex
Verif.mtx_eigenvalues_complex_partial
Verif.mtx_eigenvalues_converge
Verif.mtx_eigenvalues_converge_distinct
Verif.mtx_eigenvalues_converge_distinct_partial
Verif.mtx_eigenvalues_converge_partial
Verif.mtx_eigenvalues_converge_symm
Verif.mtx_eigenvalues_converge_symm_good
Verif.mtx_eigenvalues_diagonal
Verif.mtx_eigenvalues_near
Verif.mtx_eigenvalues_returns_good
Verif.mtx_eigenvalues_returns_iff
Verif.mtx_eigenvalues_returns_partial
Verif.mtx_eigenvalues_safe
Verif.mtx_eigenvalues_stuck
Verif.mtx_eigenvalues_symm
Verif.mtx_eigenvalues_symm_returns_partial
Verif.mtx_eigenvalues_triangular
Verif.mtx_eigenvectors_complete
Verif.mtx_eigenvectors_correct
Verif.mtx_eigenvectors_diagonal
Verif.mtx_eigenvectors_in_place
Verif.mtx_eigenvectors_overflow
Verif.mtx_eigenvectors_safe_partial
Verif.mtx_eigenvectors_separate
Verif.mtx_elementwise_integers
Verif.mtx_from_arr_correct
Verif.mtx_from_arr_safe
Verif.mtx_from_arr_safe_iff
Verif.mtx_gauss_elim_aliasing
Verif.mtx_gauss_elim_copies
Verif.mtx_gauss_elim_d_correct
Verif.mtx_gauss_elim_d_is
Verif.mtx_gauss_elim_safe
Verif.mtx_gauss_elim_same
Verif.mtx_gauss_invariant
Verif.mtx_gauss_range
Verif.mtx_gauss_reduc_correct
Verif.mtx_gauss_reduc_safe
Verif.mtx_gauss_shape
Verif.mtx_get_col_correct
Verif.mtx_get_col_safe
Verif.mtx_get_correct
Verif.mtx_get_row_correct
Verif.mtx_get_row_safe
Verif.mtx_gram_schmidt_aliasing
Verif.mtx_gram_schmidt_correct
Verif.mtx_gram_schmidt_eq
Verif.mtx_gram_schmidt_overread
Verif.mtx_gram_schmidt_safe
Verif.mtx_gram_schmidt_safe_iff
Verif.mtx_householder_correct
Verif.mtx_householder_hess_correct
Verif.mtx_householder_safe
Verif.mtx_householder_safe_iff
Verif.mtx_init_callback
Verif.mtx_init_empty
Verif.mtx_init_fail
Verif.mtx_init_identity
Verif.mtx_init_identity_real
Verif.mtx_init_null
Verif.mtx_inv_3x3_correct
Verif.mtx_inv_3x3_in_place_wrong
Verif.mtx_inv_3x3_integers
Verif.mtx_inv_3x3_rounding
Verif.mtx_inv_3x3_safe
Verif.mtx_inv_3x3_separate
Verif.mtx_inv_3x3_shape
Verif.mtx_inv_3x3_singular
Verif.mtx_inv_3x3_singular_missed
Verif.mtx_inv_backward
Verif.mtx_inv_coercive
Verif.mtx_inv_entries_partial
Verif.mtx_inv_in_place
Verif.mtx_inv_minors_partial
Verif.mtx_inv_noTiny_partial
Verif.mtx_inv_safe
Verif.mtx_inv_separate
Verif.mtx_inv_shape
Verif.mtx_inv_singular
Verif.mtx_inv_size3
Verif.mtx_inv_small_pivot
Verif.mtx_is_equal_exact
Verif.mtx_is_equal_iff
Verif.mtx_is_equal_overread
Verif.mtx_is_equal_partial
Verif.mtx_is_equal_refl
Verif.mtx_is_equal_wrong
Verif.mtx_is_notneg_correct
Verif.mtx_is_sym_correct
Verif.mtx_max_correct
Verif.mtx_max_idx_correct
Verif.mtx_min_correct
Verif.mtx_min_idx_correct
Verif.mtx_mult_add
Verif.mtx_mult_alias
Verif.mtx_mult_aliasing
Verif.mtx_mult_assoc
Verif.mtx_mult_correct
Verif.mtx_mult_d_correct
Verif.mtx_mult_d_safe
Verif.mtx_mult_identity
Verif.mtx_mult_in_range
Verif.mtx_mult_integers
Verif.mtx_mult_rounding
Verif.mtx_mult_safe
Verif.mtx_norm_elem_aliasing
Verif.mtx_norm_elem_copies
Verif.mtx_norm_elem_d_correct
Verif.mtx_norm_elem_safe
Verif.mtx_norm_elem_same
Verif.mtx_pinv_aliasing
Verif.mtx_pinv_correct_partial
Verif.mtx_pinv_singular
Verif.mtx_pinv_wide
Verif.mtx_qrd_aliasing
Verif.mtx_qrd_correct
Verif.mtx_qrd_hess_correct
Verif.mtx_qrd_hess_fixed
Verif.mtx_qrd_iter_aliasing
Verif.mtx_qrd_iter_charpoly
Verif.mtx_qrd_iter_converges
Verif.mtx_qrd_iter_converges_general
Verif.mtx_qrd_iter_correct
Verif.mtx_qrd_iter_gram_converges
Verif.mtx_qrd_iter_keeps_hess
Verif.mtx_qrd_iter_safe
Verif.mtx_qrd_iter_stuck
Verif.mtx_qrd_iter_triangular
Verif.mtx_qrd_keeps_hess
Verif.mtx_qrd_one_object
Verif.mtx_qrd_safe
Verif.mtx_qrd_small_r
Verif.mtx_qrd_triangular
Verif.mtx_qrd_wrong_q
Verif.mtx_reduce_aliasing
Verif.mtx_reduce_correct
Verif.mtx_reduce_iter_correct
Verif.mtx_reduce_iter_destroys
Verif.mtx_reduce_iter_never
Verif.mtx_reduce_iter_one_placeholder
Verif.mtx_reduce_iter_separate
Verif.mtx_reduce_refused
Verif.mtx_reduce_safe
Verif.mtx_reduce_safe_iff
Verif.mtx_representable
Verif.mtx_row_col_safe_iff
Verif.mtx_row_ops_det
Verif.mtx_row_ops_real
Verif.mtx_row_range
Verif.mtx_scalar_mult_correct
Verif.mtx_scalar_mult_row_correct
Verif.mtx_scalar_mult_row_safe
Verif.mtx_scalar_mult_safe
Verif.mtx_set_col_correct
Verif.mtx_set_col_get_col
Verif.mtx_set_correct
Verif.mtx_set_get
Verif.mtx_set_row_correct
Verif.mtx_set_row_get_row
Verif.mtx_sum_rows_correct
Verif.mtx_sum_rows_safe
Verif.mtx_sum_rows_scaled_overread
Verif.mtx_sum_rows_scaled_partial
Verif.mtx_sum_rows_scaled_refused
Verif.mtx_sum_rows_scaled_safe
Verif.mtx_sum_rows_scaled_safe_iff
Verif.mtx_sum_rows_scaled_square
Verif.mtx_svd_correct
Verif.mtx_svd_diagonal
Verif.mtx_svd_order
Verif.mtx_svd_over_e
Verif.mtx_svd_over_e_wrong
Verif.mtx_svd_over_v
Verif.mtx_svd_over_v_wrong
Verif.mtx_svd_separate
Verif.mtx_svd_sigma_converges_full
Verif.mtx_svd_sigma_converges_partial
Verif.mtx_svd_wide
Verif.mtx_tests_safe
Verif.mtx_trans_correct
Verif.mtx_trans_in_place
Verif.mtx_trans_in_place_iff
Verif.mtx_trans_mult
Verif.mtx_trans_real
Verif.mtx_trans_safe
Verif.mtx_trans_separate
Verif.mtx_trans_twice
Verif.mtx_unary_func_correct
Verif.mtx_unary_op_all
Verif.mtx_unary_op_correct
Verif.mtx_unary_op_safe
Verif.mtx_unary_op_unknown
Verif.mtx_vec_wedge_exact
Verif.mtx_vec_wedge_near
Verif.mtx_vec_wedge_noTiny
Verif.mtx_vec_wedge_of_inv
Verif.mtx_vec_wedge_partial
Verif.mtx_vec_wedge_safe
Verif.mtx_vec_wedge_shape
Verif.mtx_vec_wedge_small
Verif.mtx_vec_wedge_wrong
Verif.nearest_exists
Verif.nearest_sqrt_sq
Verif.nochk_att_accel_angle
Verif.nochk_att_from_accel
Verif.nochk_att_from_accelmag
Verif.nochk_cal_corr_vec
Verif.nochk_cal_madg
Verif.nochk_cal_magn
Verif.nochk_cal_magn_fast_partial
Verif.nochk_cal_mahn
Verif.nochk_cal_rot_axis_angle
Verif.nochk_cal_rot_mtx
Verif.nochk_clr_ct_rgb
Verif.nochk_clr_xyz_rgb
Verif.nochk_comp_geo_north
Verif.nochk_comp_magn_north
Verif.nochk_fus_aqua_feed
Verif.nochk_fus_comp_feed
Verif.nochk_fus_kalm_feed_partial
Verif.nochk_fus_madg_feed
Verif.nochk_fus_mahn_feed
Verif.nochk_fus_saam_feed
Verif.nochk_kalm_feed_fails
Verif.nochk_mtx_adjoint_3x3
Verif.nochk_mtx_adjoint_partial
Verif.nochk_mtx_balance
Verif.nochk_mtx_binary_op
Verif.nochk_mtx_binary_op_d
Verif.nochk_mtx_cholesky
Verif.nochk_mtx_copy
Verif.nochk_mtx_deter
Verif.nochk_mtx_deter_3x3
Verif.nochk_mtx_eigenvalues
Verif.nochk_mtx_eigenvectors
Verif.nochk_mtx_gauss_elim
Verif.nochk_mtx_gauss_reduc_fails
Verif.nochk_mtx_gauss_reduc_partial
Verif.nochk_mtx_get_col
Verif.nochk_mtx_get_row
Verif.nochk_mtx_inv
Verif.nochk_mtx_inv_3x3
Verif.nochk_mtx_is_sym
Verif.nochk_mtx_mult
Verif.nochk_mtx_mult_d
Verif.nochk_mtx_norm_elem
Verif.nochk_mtx_pinv_correct_partial
Verif.nochk_mtx_pinv_partial
Verif.nochk_mtx_reduce_partial
Verif.nochk_mtx_set_col
Verif.nochk_mtx_set_row
Verif.nochk_mtx_svd_correct
Verif.nochk_mtx_svd_partial
Verif.nochk_mtx_trans
Verif.nochk_mtx_vec_wedge
Verif.nochk_phy_mass_center
Verif.nochk_prob_entropy
Verif.nochk_prob_erf_inv
Verif.nochk_prob_normal_cdf_inv
Verif.nochk_prob_uni_mean
Verif.nochk_quat_from_ang_mom
Verif.nochk_quat_from_ang_vel
Verif.nochk_quat_from_axis_angle
Verif.nochk_quat_from_rot_mtx
Verif.nochk_quat_lerp
Verif.nochk_quat_rot
Verif.nochk_quat_slerp
Verif.nochk_quat_to_axis_angle
Verif.nochk_quat_to_rot_mtx
Verif.nochk_sta_covar
Verif.nochk_sta_demean
Verif.nochk_sta_mode
Verif.nochk_sta_mult_linear_reg
Verif.nochk_sta_percentile
Verif.nochk_sta_quad_fit
Verif.nochk_sta_quartiles
Verif.nochk_sta_time_weighted_mean
Verif.nochk_sta_trim_mean
Verif.nochk_sta_weighted_mean
Verif.nochk_sta_weighted_median
Verif.nochk_sta_weighted_mult_linear_reg
Verif.nochk_vec_add
Verif.nochk_vec_dot
Verif.nochk_vec_get_subset_fails
Verif.nochk_vec_mean
Verif.nochk_vec_project
Verif.nochk_vec_sub
Verif.nochk_vec_sum
Verif.norm_spd_correct
Verif.norm_spd_max
Verif.norm_spd_rejects
Verif.normal_cdf_correct
Verif.normal_cdf_inv_median
Verif.normal_cdf_inv_rejects
Verif.normal_cdf_inv_symm
Verif.normal_cdf_mono
Verif.normal_cdf_symm
Verif.normal_pdf_pos
Verif.normal_pdf_symm
Verif.normal_pdf_unimodal
Verif.normal_quantile_accurate
Verif.observer_bump
Verif.observer_dip
Verif.observer_step
Verif.ohno2011_correct
Verif.ohno2011_join
Verif.ohno2011_last_correction
Verif.ohno2011_meets
Verif.ohno2014_correct_partial
Verif.ohno2014_far
Verif.ohno2014_insensitive
Verif.ohno2014_near
Verif.ohno2014_not_triangular
Verif.ohno2014_rejects
Verif.ohno2014_safe
Verif.ohno_duv_agree
Verif.orbit_laws
Verif.pascal_conserves
Verif.photoelectric_threshold
Verif.photon_consistent
Verif.phy_atom_bohr_orb_ener_partial
Verif.phy_atom_bohr_orb_radius_correct
Verif.phy_atom_bohr_orb_vel_partial
Verif.phy_atom_bohr_orb_vel_zero
Verif.phy_atom_bragg_correct
Verif.phy_atom_nucl_radius_correct
Verif.phy_atom_rad_decay_correct
Verif.phy_atomic_rounding
Verif.phy_dyn_fric_correct
Verif.phy_dyn_lever_correct
Verif.phy_dyn_newton_correct
Verif.phy_dyn_normal_correct
Verif.phy_dyn_pendul_max_speed_correct
Verif.phy_dyn_pendul_period_correct
Verif.phy_dyn_tension_correct
Verif.phy_dynamics_rounding
Verif.phy_dynamics_sum_rounding
Verif.phy_ecmp_capac_ad_correct
Verif.phy_ecmp_capac_cpv_correct
Verif.phy_ecmp_ener_capac_correct
Verif.phy_ecmp_ener_induc_correct
Verif.phy_ecmp_rc_charg_i_correct
Verif.phy_ecmp_rc_charg_q_correct
Verif.phy_ecmp_rc_discharg_i_correct
Verif.phy_ecmp_rc_discharg_q_correct
Verif.phy_ecmp_rl_current_correct
Verif.phy_ecmp_rlc_volt_correct
Verif.phy_ecmp_trans_correct
Verif.phy_elcty_current_correct
Verif.phy_elcty_ohm_law_correct
Verif.phy_elcty_power_ir_correct
Verif.phy_elcty_power_vi_correct
Verif.phy_elcty_power_vr_correct
Verif.phy_elcty_resistivity_correct
Verif.phy_elec_charge_dens_correct
Verif.phy_elec_field_correct
Verif.phy_elec_flux_correct
Verif.phy_elec_force2_correct
Verif.phy_elec_force_correct
Verif.phy_elec_pot_ener_correct
Verif.phy_elec_potential_correct
Verif.phy_eleccomp_rounding
Verif.phy_electric_rounding
Verif.phy_electricity_rounding
Verif.phy_ener_elas_pot_correct
Verif.phy_ener_final_correct
Verif.phy_ener_fric_correct
Verif.phy_ener_grav_pot_correct
Verif.phy_ener_kin_correct
Verif.phy_ener_mec_correct
Verif.phy_ener_photon2_correct
Verif.phy_ener_photon_correct
Verif.phy_ener_power_correct
Verif.phy_ener_rot_correct
Verif.phy_energy_rounding
Verif.phy_energy_sum_rounding
Verif.phy_fluid_bernoulli_correct
Verif.phy_fluid_bouyant_force_correct
Verif.phy_fluid_dens_correct
Verif.phy_fluid_flow_rate_correct
Verif.phy_fluid_force_prop_correct
Verif.phy_fluid_press_correct
Verif.phy_fluid_press_rounding
Verif.phy_fluid_simple_press_correct
Verif.phy_fluid_volume_flow_rate_correct
Verif.phy_fluids_rounding
Verif.phy_fluids_sum_rounding
Verif.phy_gas_av_vel_correct
Verif.phy_gas_boyle_correct
Verif.phy_gas_charles_lussac_correct
Verif.phy_gas_press_correct
Verif.phy_gases_rounding
Verif.phy_grav_acc_correct
Verif.phy_grav_esc_vel_negative
Verif.phy_grav_esc_vel_partial
Verif.phy_grav_force_correct
Verif.phy_grav_orb_period_negative
Verif.phy_grav_orb_period_partial
Verif.phy_grav_orb_vel_negative
Verif.phy_grav_orb_vel_partial
Verif.phy_grav_pot_ener_correct
Verif.phy_gravitation_rounding
Verif.phy_kin_accel_correct
Verif.phy_kin_av_vel_correct
Verif.phy_kin_dist_correct
Verif.phy_kin_ener_correct
Verif.phy_kin_init_pos2_correct
Verif.phy_kin_init_pos_correct
Verif.phy_kin_init_vel2_correct
Verif.phy_kin_init_vel3_correct
Verif.phy_kin_init_vel_correct
Verif.phy_kin_time_correct
Verif.phy_kin_vel2_correct
Verif.phy_kin_vel_correct
Verif.phy_kinematics_rounding
Verif.phy_kinematics_sum_rounding
Verif.phy_magn_flux_correct
Verif.phy_magn_force_correct
Verif.phy_magn_force_wire_correct
Verif.phy_magn_mom_correct
Verif.phy_magn_orb_radius_correct
Verif.phy_magn_pot_dipole_correct
Verif.phy_magn_torque_loop_correct
Verif.phy_mass_center_safe
Verif.phy_mom_change_correct
Verif.phy_mom_elas_correct
Verif.phy_mom_imp_correct
Verif.phy_mom_inelas_correct
Verif.phy_mom_mom_correct
Verif.phy_momentum_rounding
Verif.phy_momentum_sum_rounding
Verif.phy_opt_critic_angle_correct
Verif.phy_opt_dif_correct
Verif.phy_opt_focus_correct
Verif.phy_opt_magn_correct
Verif.phy_opt_power_correct
Verif.phy_opt_refrac_index_computes
Verif.phy_opt_refrac_index_wrong
Verif.phy_opt_snell_correct
Verif.phy_optics_rounding
Verif.phy_photon_ener_correct
Verif.phy_photon_frequency_correct
Verif.phy_photon_mom_correct
Verif.phy_photon_photoelectric_correct
Verif.phy_photon_wavelength_correct
Verif.phy_photons_rounding
Verif.phy_photons_sum_rounding
Verif.phy_proj_hor_motion_correct
Verif.phy_proj_time2_correct
Verif.phy_proj_time_correct
Verif.phy_proj_time_first_correct
Verif.phy_proj_trajectory_correct
Verif.phy_proj_vel_correct
Verif.phy_proj_ver_motion_correct
Verif.phy_proj_ver_vel_correct
Verif.phy_projectiles_rounding
Verif.phy_projectiles_sum_rounding
Verif.phy_rot_accel_correct
Verif.phy_rot_ang_accel_correct
Verif.phy_rot_angle_correct
Verif.phy_rot_av_omega_correct
Verif.phy_rot_cent_accel2_correct
Verif.phy_rot_cent_accel_correct
Verif.phy_rot_dist_correct
Verif.phy_rot_ener_correct
Verif.phy_rot_frequency_correct
Verif.phy_rot_omega2_correct
Verif.phy_rot_omega_correct
Verif.phy_rot_period_correct
Verif.phy_rot_power_correct
Verif.phy_rot_time_correct
Verif.phy_rot_total_accel_correct
Verif.phy_rot_turn_correct
Verif.phy_rot_vel_correct
Verif.phy_rotation_rounding
Verif.phy_rotation_sum_rounding
Verif.phy_signed_rounding
Verif.phy_sound_beat_correct
Verif.phy_sound_dop_effect_correct
Verif.phy_sound_intensity_partial
Verif.phy_sound_intensity_zero_modulus
Verif.phy_sound_level_partial
Verif.phy_sound_level_zero_reference
Verif.phy_sound_press_amp_correct
Verif.phy_sound_rounding
Verif.phy_sound_shock_wave_angle_partial
Verif.phy_sound_shock_wave_angle_subsonic
Verif.phy_thermo_carnot_engine_correct
Verif.phy_thermo_cels_kel_cancels
Verif.phy_thermo_effic_heat_engine_correct
Verif.phy_thermo_expan_correct
Verif.phy_thermo_heat_correct
Verif.phy_thermo_heat_fusion_correct
Verif.phy_thermo_mean_free_path_correct
Verif.phy_thermo_rounding
Verif.phy_thermo_sum_rounding
Verif.phy_work_kin_correct
Verif.phy_work_module_correct
Verif.phy_work_x_correct
Verif.phy_work_y_correct
Verif.pinv_invert_exact
Verif.pinv_invert_partial
Verif.pinv_invert_zero_wrong
Verif.planckUv_moves
Verif.power_agree
Verif.prob_entropy_safe
Verif.proj_angle_vertical
Verif.proj_init_vel_roundtrip
Verif.proj_range_correct
Verif.proj_range_ignores_error
Verif.proj_time2_correct
Verif.proj_time_correct
Verif.proj_time_first_correct
Verif.proj_time_negative
Verif.proj_time_nonneg
Verif.proj_time_reachable
Verif.proj_trajectory_correct
Verif.quad_few
Verif.quat_axis_angle_identity
Verif.quat_axis_angle_neg_one
Verif.quat_axis_angle_roundtrip_partial
Verif.quat_axis_angle_safe
Verif.quat_axis_angle_shape
Verif.quat_chain_integers
Verif.quat_chain_million_double
Verif.quat_chain_rounding
Verif.quat_conj_aliasing
Verif.quat_conj_correct
Verif.quat_conj_eq_inv
Verif.quat_conj_mult
Verif.quat_conj_scale_integers
Verif.quat_diff_aliasing
Verif.quat_diff_correct
Verif.quat_diff_rounding
Verif.quat_euler_angles_recovered
Verif.quat_euler_gimbal
Verif.quat_euler_near_gimbal
Verif.quat_euler_roundtrip_close
Verif.quat_euler_roundtrip_inexact
Verif.quat_euler_roundtrip_partial
Verif.quat_euler_yaw_lost
Verif.quat_exp_aliasing
Verif.quat_exp_correct
Verif.quat_exp_log
Verif.quat_exp_log_pow_safe
Verif.quat_exp_pure
Verif.quat_from_ang_mom_correct
Verif.quat_from_ang_mom_safe
Verif.quat_from_ang_rejects
Verif.quat_from_ang_vel_aliasing
Verif.quat_from_ang_vel_correct
Verif.quat_from_ang_vel_rounding
Verif.quat_from_ang_vel_safe
Verif.quat_from_angles_double
Verif.quat_from_axis_angle_correct
Verif.quat_from_axis_angle_rounding
Verif.quat_from_axis_angle_zero
Verif.quat_from_euler_correct
Verif.quat_from_euler_rounding
Verif.quat_from_euler_unit
Verif.quat_from_euler_unit_rounding
Verif.quat_from_rot_mtx_half_turn
Verif.quat_from_rot_mtx_roundtrip_partial
Verif.quat_from_rot_mtx_safe
Verif.quat_from_rot_mtx_unit
Verif.quat_inv_aliasing
Verif.quat_inv_correct
Verif.quat_inv_rounding
Verif.quat_inv_small
Verif.quat_is_unit_iff
Verif.quat_lerp_aliasing
Verif.quat_lerp_correct
Verif.quat_lerp_ends
Verif.quat_lerp_rounding
Verif.quat_lerp_rounding_near
Verif.quat_lerp_slerp_reject
Verif.quat_lerp_unit
Verif.quat_log_aliasing
Verif.quat_log_numbers
Verif.quat_magn_correct
Verif.quat_magn_mult
Verif.quat_magn_rounding
Verif.quat_mult_aliasing
Verif.quat_mult_assoc
Verif.quat_mult_correct
Verif.quat_mult_identity
Verif.quat_mult_ij
Verif.quat_mult_integers
Verif.quat_mult_norm_rounding
Verif.quat_mult_rounding
Verif.quat_overflow
Verif.quat_pow_add
Verif.quat_pow_aliasing
Verif.quat_pow_int
Verif.quat_pow_unit
Verif.quat_pow_zero_one
Verif.quat_rot_aliasing
Verif.quat_rot_comp
Verif.quat_rot_correct
Verif.quat_rot_mtx_from_to_partial
Verif.quat_rot_mtx_shape
Verif.quat_rot_rejects
Verif.quat_rot_rigid
Verif.quat_rot_rounding
Verif.quat_rot_z90
Verif.quat_scale_aliasing
Verif.quat_scale_correct
Verif.quat_slerp_aliasing
Verif.quat_slerp_correct
Verif.quat_slerp_ends
Verif.quat_slerp_eq_pow
Verif.quat_slerp_equal
Verif.quat_slerp_opposite
Verif.quat_to_axis_angle_numbers
Verif.quat_to_rot_mtx_correct
Verif.quat_to_rot_mtx_neg
Verif.quat_to_rot_mtx_nonunit
Verif.quat_to_rot_mtx_rounding
Verif.quat_to_unit_aliasing
Verif.quat_to_unit_components
Verif.quat_to_unit_correct
Verif.quat_to_unit_double_partial
Verif.quat_to_unit_idem
Verif.quat_to_unit_on_sphere
Verif.quat_to_unit_rounding
Verif.quat_to_unit_small
Verif.radius_runs_away
Verif.rateMap_spec
Verif.rc_charge_monotone
Verif.rc_complementary
Verif.rc_current_opposite
Verif.rc_discharge_split
Verif.res_empty
Verif.res_parallel_correct
Verif.res_parallel_le
Verif.res_perm
Verif.res_series_correct
Verif.response_pos
Verif.rgb8_correct
Verif.rgb8_range
Verif.rgb8_rejects
Verif.rgbccm_get_correct
Verif.rgbccm_get_ub
Verif.rgbf_correct
Verif.rgbf_rejects
Verif.rightMul_spec
Verif.rl_current_monotone
Verif.rot_consistent
Verif.rotation_consistent
Verif.rotation_energy
Verif.saam_feed_numbers_partial
Verif.saam_feed_partial
Verif.saam_feed_safe
Verif.saam_feed_unit
Verif.saam_instances
Verif.saam_level_zero
Verif.saam_null_ub
Verif.saam_parallel_nan
Verif.saam_restarts
Verif.sh_ct2rgb_correct
Verif.sh_ct2rgb_huge
Verif.sh_ct2rgb_refused
Verif.sh_ct2rgbf_correct
Verif.sh_lat2g_below_sea
Verif.sh_lat2g_north_partial
Verif.sh_lat2g_refused
Verif.sh_lat2g_south
Verif.sh_lat2g_words
Verif.snell_reversible
Verif.spd_xyz_correct
Verif.spd_xyz_dark
Verif.spd_xyz_rejects
Verif.spd_xyz_scale
Verif.sphere_slope_iff
Verif.sta_abs_err_correct
Verif.sta_covar_correct
Verif.sta_covar_laws
Verif.sta_covar_mtx_correct
Verif.sta_covar_mtx_in_place
Verif.sta_covar_mtx_in_place_wrong
Verif.sta_covar_mtx_laws
Verif.sta_covar_mtx_rounding
Verif.sta_covar_mtx_safe
Verif.sta_covar_mtx_separate
Verif.sta_covar_rounding
Verif.sta_covar_safe
Verif.sta_data_range_near
Verif.sta_data_range_partial
Verif.sta_demean_aliasing
Verif.sta_demean_correct
Verif.sta_demean_safe
Verif.sta_linear_reg_cancels
Verif.sta_linear_reg_corr_const
Verif.sta_linear_reg_corr_partial
Verif.sta_linear_reg_correct
Verif.sta_linear_reg_exact
Verif.sta_linear_reg_order
Verif.sta_linear_reg_rounding_partial
Verif.sta_linear_reg_safe
Verif.sta_linear_reg_units
Verif.sta_mean_abs_dev_correct
Verif.sta_mean_abs_dev_laws
Verif.sta_mean_abs_dev_safe
Verif.sta_mean_moves
Verif.sta_mean_not_robust
Verif.sta_median_abs_dev_near
Verif.sta_median_abs_dev_partial
Verif.sta_median_even_partial
Verif.sta_median_odd_partial
Verif.sta_median_partial
Verif.sta_median_robust
Verif.sta_mode_empty
Verif.sta_mode_in_place
Verif.sta_mode_mismatch
Verif.sta_mode_partial
Verif.sta_mode_safe
Verif.sta_mode_separate
Verif.sta_mode_size
Verif.sta_mode_small
Verif.sta_mult_linear_reg_mismatch
Verif.sta_mult_linear_reg_near
Verif.sta_mult_linear_reg_noTiny
Verif.sta_mult_linear_reg_partial
Verif.sta_mult_linear_reg_safe
Verif.sta_mult_linear_reg_singular
Verif.sta_mult_linear_reg_two
Verif.sta_order
Verif.sta_percentile_hundred
Verif.sta_percentile_mono_partial
Verif.sta_percentile_moves
Verif.sta_percentile_near
Verif.sta_percentile_order
Verif.sta_percentile_partial
Verif.sta_percentile_reject
Verif.sta_percentile_tiny
Verif.sta_percentile_value
Verif.sta_percentile_zero
Verif.sta_quad_fit_empty
Verif.sta_quad_fit_integer
Verif.sta_quad_fit_near
Verif.sta_quad_fit_noTiny
Verif.sta_quad_fit_one_point
Verif.sta_quad_fit_partial
Verif.sta_quad_fit_rejects
Verif.sta_quad_fit_safe
Verif.sta_quad_fit_singular
Verif.sta_quart_moves
Verif.sta_quart_near
Verif.sta_quart_partial
Verif.sta_rel_err_neg
Verif.sta_rel_err_partial
Verif.sta_rel_err_zero
Verif.sta_sta_err_correct
Verif.sta_std_dev_correct
Verif.sta_std_dev_rounding
Verif.sta_time_weighted_mean_between_partial
Verif.sta_time_weighted_mean_empty
Verif.sta_time_weighted_mean_mismatch
Verif.sta_time_weighted_mean_partial
Verif.sta_time_weighted_mean_rejects
Verif.sta_time_weighted_mean_single
Verif.sta_time_weighted_mean_tiny
Verif.sta_trim_mean_empty
Verif.sta_trim_mean_exact
Verif.sta_trim_mean_partial
Verif.sta_trim_mean_reject
Verif.sta_trim_mean_wrong
Verif.sta_trim_mean_zero
Verif.sta_units
Verif.sta_var_affine
Verif.sta_var_correct
Verif.sta_var_nonneg
Verif.sta_var_overflow
Verif.sta_var_rounding
Verif.sta_var_safe
Verif.sta_var_single
Verif.sta_weighted_mean_between
Verif.sta_weighted_mean_equal
Verif.sta_weighted_mean_mismatch_partial
Verif.sta_weighted_mean_moves
Verif.sta_weighted_mean_overread
Verif.sta_weighted_mean_safe
Verif.sta_weighted_mean_value
Verif.sta_weighted_median_exact_partial
Verif.sta_weighted_median_mismatch
Verif.sta_weighted_median_order
Verif.sta_weighted_median_partial
Verif.sta_weighted_median_rejects
Verif.sta_weighted_reg_clobbers
Verif.sta_weighted_reg_mismatch_partial
Verif.sta_weighted_reg_near
Verif.sta_weighted_reg_partial
Verif.sta_weighted_reg_safe
Verif.sta_weighted_reg_small_partial
Verif.sta_weighted_reg_two
Verif.there_close
Verif.thermo_cels_kel_inverse
Verif.thermo_fahren_cels_inverse
Verif.thermo_fahren_cels_scale
Verif.uni_distribution
Verif.uni_moments
Verif.uni_rejects
Verif.uv60_uv76_correct
Verif.uv60_uv76_uv60
Verif.uv60_xyy_correct
Verif.uv60_xyy_uv60
Verif.uv60_xyz_correct
Verif.uv76_uv60_uv76
Verif.vec_add_aliasing
Verif.vec_add_correct
Verif.vec_add_safe
Verif.vec_add_sub_any_pointers
Verif.vec_add_sub_cancel
Verif.vec_add_sub_self
Verif.vec_ar_mean_affine
Verif.vec_ar_mean_between
Verif.vec_ar_mean_correct
Verif.vec_ar_mean_empty
Verif.vec_ar_mean_in_range_partial
Verif.vec_ar_mean_overflow
Verif.vec_ar_mean_rounding
Verif.vec_cauchy_schwarz
Verif.vec_contains_card
Verif.vec_copy_overrun
Verif.vec_copy_safe
Verif.vec_copy_safe_iff
Verif.vec_cross_bilinear
Verif.vec_cross_correct
Verif.vec_cross_in_place_wrong
Verif.vec_cross_integers
Verif.vec_cross_laws
Verif.vec_cross_over_v
Verif.vec_cross_over_w_wrong
Verif.vec_cross_safe
Verif.vec_cross_separate
Verif.vec_dist_eq_dist
Verif.vec_dist_metric
Verif.vec_dist_overflow
Verif.vec_dist_rounding
Verif.vec_dist_safe
Verif.vec_dot_correct
Verif.vec_dot_finite_err
Verif.vec_dot_in_range
Verif.vec_dot_integers
Verif.vec_dot_rounding
Verif.vec_dot_safe
Verif.vec_dot_symm
Verif.vec_elementwise_integers
Verif.vec_elementwise_rounding
Verif.vec_from_arr_safe
Verif.vec_from_arr_safe_iff
Verif.vec_get_subset_in_place
Verif.vec_get_subset_safe
Verif.vec_get_subset_safe_any
Verif.vec_get_subset_separate
Verif.vec_init_safe
Verif.vec_is_equal_correct
Verif.vec_is_equal_iff
Verif.vec_is_nonneg_iff
Verif.vec_mean_in_place
Verif.vec_mean_partial
Verif.vec_neg_correct
Verif.vec_neg_safe
Verif.vec_norm_correct
Verif.vec_norm_dominates
Verif.vec_norm_double_partial
Verif.vec_norm_in_range_partial
Verif.vec_norm_nonneg_zero_iff
Verif.vec_norm_overflow
Verif.vec_norm_rounding
Verif.vec_norm_safe
Verif.vec_norm_scalar_mult
Verif.vec_norm_underflow
Verif.vec_project_correct
Verif.vec_project_in_place
Verif.vec_project_onto_in_place
Verif.vec_project_onto_safe
Verif.vec_project_orthogonal
Verif.vec_project_over_v
Verif.vec_project_over_v_wrong
Verif.vec_project_overflow
Verif.vec_project_safe
Verif.vec_project_separate
Verif.vec_project_underflow
Verif.vec_rev_correct
Verif.vec_rev_empty_ub
Verif.vec_rev_involutive
Verif.vec_scalar_add_correct
Verif.vec_scalar_div_correct
Verif.vec_scalar_mult_correct
Verif.vec_scalar_safe
Verif.vec_sort_dichotomy
Verif.vec_sort_empty
Verif.vec_sort_exact
Verif.vec_sort_in_place_wrong
Verif.vec_sort_near
Verif.vec_sort_overread
Verif.vec_sort_overrun
Verif.vec_sort_partial
Verif.vec_sort_separate
Verif.vec_sort_tiny
Verif.vec_sub_aliasing
Verif.vec_sub_correct
Verif.vec_sub_safe
Verif.vec_sum_accumulates
Verif.vec_sum_any_pointers
Verif.vec_sum_in_place
Verif.vec_sum_not_sum
Verif.vec_sum_of_sqrs_correct
Verif.vec_sum_of_sqrs_integers
Verif.vec_sum_of_sqrs_range
Verif.vec_sum_of_sqrs_rounding
Verif.vec_sum_partial
Verif.vec_sum_real
Verif.vec_sum_safe
Verif.vec_tests_safe
Verif.vec_to_unit_correct
Verif.vec_to_unit_double_partial
Verif.vec_to_unit_overflow
Verif.vec_to_unit_rounding
Verif.vec_to_unit_safe
Verif.vec_to_unit_underflow
Verif.vec_zte_correct
Verif.vec_zte_safe
Verif.white_is_white
Verif.xbar_shape_partial
Verif.xyy_uv60_correct
Verif.xyy_uv60_xyy
Verif.xyy_xyz_correct
Verif.xyy_xyz_xyy
Verif.xyz_uv60_correct
Verif.xyz_uv60_xyz
Verif.xyz_xyy_black
Verif.xyz_xyy_correct
Verif.xyz_xyy_scale
Verif.xyz_xyy_xyz
Verif.ybar_unimodal
Verif.zbar_shape_partial
Verif.zteZero_real

# 91 theorems: propext, Quot.sound
Verif.arm_vec_same
Verif.binomial_coef_outside
Verif.cal_corr_vec_rejects
Verif.clr_norm_spd_safe
Verif.cubic_alone
Verif.factorial_negative
Verif.fus_init_correct
Verif.instr_cycles_partial
Verif.instr_cycles_wrap_wrong
Verif.mes_ext
Verif.mes_units_grouped
Verif.mtx_adjoint_1x1
Verif.mtx_augm_diag_safe
Verif.mtx_binary_op_shape
Verif.mtx_cholesky_safe
Verif.mtx_deter_not_square
Verif.mtx_deter_overread
Verif.mtx_extrema_safe
Verif.mtx_get_col_overrun
Verif.mtx_get_row_overrun
Verif.mtx_get_safe
Verif.mtx_householder_aliasing
Verif.mtx_init_callback_safe
Verif.mtx_init_safe
Verif.mtx_mult_d_shape
Verif.mtx_mult_shape
Verif.mtx_print_correct
Verif.mtx_set_col_overread
Verif.mtx_set_col_safe
Verif.mtx_set_row_overread
Verif.mtx_set_row_safe
Verif.mtx_set_safe
Verif.mtx_trans_shape
Verif.nochk_comp_dms_to_dd
Verif.nochk_fus_init
Verif.nochk_mtx_adjoint_fails
Verif.nochk_mtx_augm_diag
Verif.nochk_mtx_binary_func
Verif.nochk_mtx_cols_norm
Verif.nochk_mtx_get
Verif.nochk_mtx_gram_schmidt
Verif.nochk_mtx_householder
Verif.nochk_mtx_init
Verif.nochk_mtx_qrd
Verif.nochk_mtx_qrd_iter
Verif.nochk_mtx_scalar_mult_row
Verif.nochk_mtx_set
Verif.nochk_mtx_sum_rows
Verif.nochk_mtx_sum_rows_scaled
Verif.nochk_prob_bayes
Verif.nochk_prob_binomial
Verif.nochk_prob_binomial_coef
Verif.nochk_prob_binomial_mean
Verif.nochk_prob_binomial_var
Verif.nochk_prob_uni
Verif.nochk_prob_uni_var
Verif.nochk_quat_exp_log_pow
Verif.nochk_sta_covar_mtx
Verif.nochk_sta_linear_reg
Verif.nochk_sta_mean_abs_dev
Verif.nochk_sta_sta_err
Verif.nochk_sta_var
Verif.nochk_vec_cross
Verif.nochk_vec_dist
Verif.nochk_vec_get_subset_partial
Verif.nochk_vec_norm
Verif.nochk_vec_to_unit
Verif.phy_networks_safe
Verif.quat_to_rot_mtx_safe
Verif.sta_covar_mismatch
Verif.sta_covar_mtx_mismatch
Verif.sta_demean_mismatch
Verif.sta_linear_reg_mismatch
Verif.sta_mean_abs_dev_empty
Verif.sta_mean_safe
Verif.sta_sta_err_empty
Verif.vec_ar_mean_safe
Verif.vec_contains_correct
Verif.vec_copy_correct
Verif.vec_dist_mismatch
Verif.vec_dot_mismatch
Verif.vec_from_arr_correct
Verif.vec_get_subset_correct
Verif.vec_get_subset_wraps
Verif.vec_init_correct
Verif.vec_is_nonneg_correct
Verif.vec_mean_size_mismatch
Verif.vec_norm_null
Verif.vec_print_correct
Verif.vec_project_mismatch
Verif.vec_rev_safe

# 16 theorems: propext
Verif.mes_enums
Verif.mes_header_size
Verif.mtx_copy_shape
Verif.mtx_extrema_empty
Verif.mtx_get_range
Verif.mtx_reduce_tall_wrong
Verif.mtx_scalar_mult_row_range
Verif.mtx_set_range
Verif.mtx_sum_rows_range
Verif.nochk_mtx_get_rejected
Verif.nochk_mtx_reduce_fails
Verif.nochk_vec_add_rejected
Verif.quat_eul_print
Verif.sh_version_correct
Verif.vec_cross_mismatch
Verif.vec_sum_none

# 3 theorems: none
Verif.binomial_coef_negative
Verif.mtx_is_equal_shape
Verif.quat_eul_print_text

