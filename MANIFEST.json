{
 "claims": [
  {
   "property": "C01",
   "status": "proved",
   "theorems": [
    "Verif.vec_get_subset_separate",
    "Verif.vec_get_subset_in_place",
    "Verif.vec_get_subset_correct"
   ],
   "note": ""
  },
  {
   "property": "C02",
   "status": "proved",
   "theorems": [
    "Verif.vec_init_correct",
    "Verif.vec_from_arr_correct",
    "Verif.vec_copy_correct",
    "Verif.vec_copy_overrun",
    "Verif.vec_add_correct",
    "Verif.vec_sub_correct",
    "Verif.vec_neg_correct",
    "Verif.vec_scalar_add_correct",
    "Verif.vec_scalar_mult_correct",
    "Verif.vec_scalar_div_correct",
    "Verif.vec_add_sub_cancel"
   ],
   "note": ""
  },
  {
   "property": "C03",
   "status": "proved",
   "theorems": [
    "Verif.vec_add_aliasing",
    "Verif.vec_sub_aliasing",
    "Verif.vec_add_sub_any_pointers",
    "Verif.vec_add_sub_self",
    "Verif.mtx_binary_op_aliasing",
    "Verif.mtx_add_sub_any_pointers",
    "Verif.mtx_add_sub_self",
    "Verif.mtx_binary_op_d_is",
    "Verif.mtx_add_sub_d_correct"
   ],
   "note": "All pointers, all sizes and contents, every scalar type; the values over the reals."
  },
  {
   "property": "C04",
   "status": "partial",
   "theorems": [
    "Verif.vec_sum_any_pointers",
    "Verif.vec_sum_in_place",
    "Verif.vec_mean_in_place",
    "Verif.vec_sum_accumulates",
    "Verif.vec_sum_none",
    "Verif.vec_sum_real",
    "Verif.vec_sum_partial",
    "Verif.vec_sum_not_sum",
    "Verif.vec_mean_partial",
    "Verif.vec_mean_size_mismatch"
   ],
   "note": "zsl_vec_sum starts from the old value of its output; the plain-sum claim is proved when the output starts at 0 and refuted otherwise."
  },
  {
   "property": "C05",
   "status": "proved",
   "theorems": [
    "Verif.vec_dot_correct",
    "Verif.vec_dot_mismatch",
    "Verif.vec_sum_of_sqrs_correct",
    "Verif.vec_norm_correct",
    "Verif.vec_norm_null",
    "Verif.vec_dist_eq_dist",
    "Verif.vec_dist_mismatch",
    "Verif.vec_dot_symm",
    "Verif.vec_cauchy_schwarz",
    "Verif.vec_norm_nonneg_zero_iff",
    "Verif.vec_norm_scalar_mult",
    "Verif.vec_dist_metric"
   ],
   "note": ""
  },
  {
   "property": "C06",
   "status": "proved",
   "theorems": [
    "Verif.vec_project_correct",
    "Verif.vec_project_orthogonal",
    "Verif.vec_project_in_place",
    "Verif.vec_project_mismatch"
   ],
   "note": ""
  },
  {
   "property": "C07",
   "status": "proved",
   "theorems": [
    "Verif.vec_to_unit_correct"
   ],
   "note": ""
  },
  {
   "property": "C08",
   "status": "partial",
   "theorems": [
    "Verif.vec_cross_separate",
    "Verif.vec_cross_over_v",
    "Verif.vec_cross_correct",
    "Verif.vec_cross_mismatch",
    "Verif.vec_cross_laws",
    "Verif.vec_cross_bilinear",
    "Verif.vec_cross_in_place_wrong"
   ],
   "note": "Correct when output and input are distinct; the in-place call is refuted (vec_cross_in_place_wrong)."
  },
  {
   "property": "C09",
   "status": "proved",
   "theorems": [
    "Verif.vec_rev_correct",
    "Verif.vec_rev_involutive",
    "Verif.vec_rev_empty_ub"
   ],
   "note": ""
  },
  {
   "property": "C10",
   "status": "proved",
   "theorems": [
    "Verif.vec_zte_correct",
    "Verif.zteZero_real"
   ],
   "note": ""
  },
  {
   "property": "C11",
   "status": "proved",
   "theorems": [
    "Verif.vec_is_nonneg_correct",
    "Verif.vec_is_nonneg_iff",
    "Verif.vec_is_equal_correct",
    "Verif.vec_is_equal_iff",
    "Verif.vec_contains_correct",
    "Verif.vec_contains_card"
   ],
   "note": ""
  },
  {
   "property": "C12",
   "status": "partial",
   "theorems": [
    "Verif.vec_sort_separate",
    "Verif.vec_sort_exact",
    "Verif.vec_sort_partial",
    "Verif.vec_sort_overread",
    "Verif.vec_sort_overrun",
    "Verif.vec_sort_empty",
    "Verif.vec_sort_dichotomy",
    "Verif.vec_sort_near",
    "Verif.vec_sort_tiny"
   ],
   "note": "zsl_vec_sort is a permutation and sorted when distinct values lie more than 1e-5 apart (vec_sort_partial); its exact behaviour is proved for every input (vec_sort_exact). For all finite data it either stores the sorted form of a vector within 1e-5 of the data or overruns the output (vec_sort_dichotomy); it does the former whenever closeness is transitive on the data (vec_sort_near). Negations: close values are merged and tiny ones replaced by zero (vec_sort_tiny), and the buffer is read or written past its end (vec_sort_overread, vec_sort_overrun, vec_sort_empty)."
  },
  {
   "property": "C13",
   "status": "proved",
   "theorems": [
    "Verif.vec_ar_mean_correct",
    "Verif.vec_ar_mean_empty",
    "Verif.vec_ar_mean_between",
    "Verif.vec_ar_mean_affine"
   ],
   "note": ""
  },
  {
   "property": "C14",
   "status": "proved",
   "theorems": [
    "Verif.mtx_representable",
    "Verif.mtx_get_correct",
    "Verif.mtx_set_correct",
    "Verif.mtx_set_get",
    "Verif.mtx_get_range",
    "Verif.mtx_set_range",
    "Verif.mtx_access_safe"
   ],
   "note": ""
  },
  {
   "property": "C15",
   "status": "proved",
   "theorems": [
    "Verif.mtx_get_row_correct",
    "Verif.mtx_get_col_correct",
    "Verif.mtx_set_row_correct",
    "Verif.mtx_set_col_correct",
    "Verif.mtx_row_range",
    "Verif.mtx_col_range",
    "Verif.mtx_set_row_get_row",
    "Verif.mtx_set_col_get_col"
   ],
   "note": ""
  },
  {
   "property": "C16",
   "status": "proved",
   "theorems": [
    "Verif.mtx_copy_aliasing",
    "Verif.mtx_init_callback",
    "Verif.mtx_init_null",
    "Verif.mtx_init_empty",
    "Verif.mtx_init_identity",
    "Verif.mtx_init_identity_real",
    "Verif.mtx_init_fail",
    "Verif.mtx_from_arr_correct",
    "Verif.mtx_copy_correct",
    "Verif.mtx_copy_shape"
   ],
   "note": ""
  },
  {
   "property": "C17",
   "status": "partial",
   "theorems": [
    "Verif.mtx_add_sub_any_pointers",
    "Verif.mtx_binary_op_separate",
    "Verif.mtx_unary_op_all",
    "Verif.mtx_unary_op_correct",
    "Verif.mtx_unary_op_unknown",
    "Verif.mtx_binary_op_partial",
    "Verif.mtx_binary_op_div",
    "Verif.mtx_binary_op_shape",
    "Verif.mtx_binary_op_fallthrough",
    "Verif.mtx_binary_op_mean_wrong",
    "Verif.mtx_add_sub_correct",
    "Verif.mtx_add_sub_d_correct",
    "Verif.mtx_binary_op_d_shape",
    "Verif.mtx_add_sub_shape",
    "Verif.mtx_scalar_mult_correct",
    "Verif.mtx_unary_func_correct",
    "Verif.mtx_binary_func_correct"
   ],
   "note": "All unary operations and the add, sub, mult, div binary operations are proved for every shape. The switch of zsl_mtx_binary_op has no break from MEAN on, so every later operation stores the result of the last case (mtx_binary_op_fallthrough, mtx_binary_op_mean_wrong)."
  },
  {
   "property": "C18",
   "status": "proved",
   "theorems": [
    "Verif.mtx_mult_aliasing",
    "Verif.mtx_add_sub_correct",
    "Verif.mtx_mult_correct",
    "Verif.mtx_mult_alias",
    "Verif.mtx_mult_d_correct",
    "Verif.mtx_mult_shape",
    "Verif.mtx_mult_d_shape",
    "Verif.mtx_mult_assoc",
    "Verif.mtx_mult_add",
    "Verif.mtx_mult_identity"
   ],
   "note": ""
  },
  {
   "property": "C19",
   "status": "proved",
   "theorems": [
    "Verif.mtx_trans_in_place",
    "Verif.mtx_trans_in_place_iff",
    "Verif.mtx_trans_correct",
    "Verif.mtx_trans_twice",
    "Verif.mtx_trans_shape",
    "Verif.mtx_trans_real",
    "Verif.mtx_trans_mult"
   ],
   "note": ""
  },
  {
   "property": "C20",
   "status": "partial",
   "theorems": [
    "Verif.mtx_sum_rows_correct",
    "Verif.mtx_sum_rows_range",
    "Verif.mtx_scalar_mult_row_correct",
    "Verif.mtx_scalar_mult_row_range",
    "Verif.mtx_sum_rows_scaled_partial",
    "Verif.mtx_sum_rows_scaled_square",
    "Verif.mtx_sum_rows_scaled_overread",
    "Verif.mtx_sum_rows_scaled_refused",
    "Verif.mtx_row_ops_real",
    "Verif.mtx_row_ops_det"
   ],
   "note": "zsl_mtx_sum_rows_scaled_d checks the row index j against the number of columns: proved for square matrices and for j below both bounds; refuted by mtx_sum_rows_scaled_overread and mtx_sum_rows_scaled_refused."
  },
  {
   "property": "C21",
   "status": "proved",
   "theorems": [
    "Verif.mtx_reduce_aliasing",
    "Verif.mtx_augm_diag_separate",
    "Verif.mtx_reduce_iter_separate",
    "Verif.mtx_augm_diag_smaller",
    "Verif.mtx_reduce_iter_never",
    "Verif.mtx_reduce_correct",
    "Verif.mtx_reduce_refused",
    "Verif.mtx_reduce_iter_correct",
    "Verif.mtx_augm_diag_correct",
    "Verif.mtx_reduce_tall_wrong"
   ],
   "note": ""
  },
  {
   "property": "C22",
   "status": "proved",
   "theorems": [
    "Verif.mtx_deter_3x3_correct",
    "Verif.mtx_deter_correct",
    "Verif.mtx_deter_mult",
    "Verif.mtx_deter_trans",
    "Verif.mtx_deter_equal_rows",
    "Verif.mtx_deter_not_square"
   ],
   "note": ""
  },
  {
   "property": "C23",
   "status": "partial",
   "theorems": [
    "Verif.mtx_adjoint_3x3_separate",
    "Verif.mtx_adjoint_3x3_in_place",
    "Verif.mtx_adjoint_3x3_in_place_wrong",
    "Verif.mtx_adjoint_separate",
    "Verif.mtx_adjoint_in_place",
    "Verif.mtx_adjoint_in_place_wrong",
    "Verif.mtx_adjoint_3x3_correct",
    "Verif.mtx_adjoint_exact",
    "Verif.mtx_adjoint_partial",
    "Verif.mtx_adjoint_wrong",
    "Verif.mtx_adjoint_1x1"
   ],
   "note": "The exact result is proved for every size: the adjugate for 3x3, its transpose for every other n >= 2 (mtx_adjoint_exact); the claim is refuted for n = 2 and undefined for n = 1."
  },
  {
   "property": "C24",
   "status": "proved",
   "theorems": [
    "Verif.mtx_inv_3x3_separate",
    "Verif.mtx_inv_3x3_in_place_wrong",
    "Verif.mtx_inv_3x3_correct",
    "Verif.mtx_inv_3x3_singular",
    "Verif.mtx_inv_3x3_shape"
   ],
   "note": ""
  },
  {
   "property": "C25",
   "status": "proved",
   "theorems": [
    "Verif.mtx_gauss_elim_aliasing",
    "Verif.mtx_gauss_elim_d_is",
    "Verif.mtx_gauss_elim_same",
    "Verif.mtx_norm_elem_aliasing",
    "Verif.mtx_norm_elem_same",
    "Verif.mtx_gauss_elim_d_correct",
    "Verif.mtx_gauss_elim_copies",
    "Verif.mtx_norm_elem_d_correct",
    "Verif.mtx_norm_elem_copies",
    "Verif.mtx_gauss_range",
    "Verif.mtx_gauss_shape",
    "Verif.mtx_gauss_reduc_correct",
    "Verif.mtx_gauss_invariant"
   ],
   "note": ""
  },
  {
   "property": "C26",
   "status": "partial",
   "theorems": [
    "Verif.mtx_inv_separate",
    "Verif.mtx_inv_in_place",
    "Verif.mtx_inv_noTiny_partial",
    "Verif.mtx_inv_backward",
    "Verif.mtx_inv_coercive",
    "Verif.mtx_inv_minors_partial",
    "Verif.mtx_inv_entries_partial",
    "Verif.mtx_inv_singular",
    "Verif.mtx_inv_size3",
    "Verif.mtx_inv_small_pivot",
    "Verif.mtx_inv_shape"
   ],
   "note": "zsl_mtx_inv treats elements below 1e-6 in absolute value as zero while reducing. Proved exact for every invertible matrix whose reduction meets no non-zero number below 1e-6 (mtx_inv_noTiny_partial), for integer matrices with bounded elements or minors (mtx_inv_entries_partial, mtx_inv_minors_partial) and for every 3x3 matrix (mtx_inv_size3). With such numbers the stored matrix is the exact inverse of a matrix within a stated distance, about 1e-6 times the row sum, of the input (mtx_inv_backward), without any assumption on the reduction if x.Ax >= mu x.x for a mu above 1e-6 by a stated amount (mtx_inv_coercive). The singular case is proved for every size (mtx_inv_singular); the general claim is refuted (mtx_inv_small_pivot)."
  },
  {
   "property": "C27",
   "status": "proved",
   "theorems": [
    "Verif.mtx_cholesky_separate",
    "Verif.mtx_cholesky_in_place",
    "Verif.mtx_cholesky_in_place_wrong",
    "Verif.mtx_cholesky_unique",
    "Verif.mtx_cholesky_correct",
    "Verif.mtx_cholesky_asym",
    "Verif.mtx_cholesky_shape"
   ],
   "note": ""
  },
  {
   "property": "C28",
   "status": "proved",
   "theorems": [
    "Verif.mtx_householder_aliasing",
    "Verif.mtx_householder_correct",
    "Verif.mtx_householder_hess_correct"
   ],
   "note": ""
  },
  {
   "property": "C29",
   "status": "proved",
   "theorems": [
    "Verif.mtx_qrd_aliasing",
    "Verif.mtx_qrd_one_object",
    "Verif.mtx_qrd_correct",
    "Verif.mtx_qrd_hess_correct"
   ],
   "note": ""
  },
  {
   "property": "C30",
   "status": "proved",
   "theorems": [
    "Verif.mtx_balance_aliasing",
    "Verif.mtx_qrd_iter_aliasing",
    "Verif.mtx_qrd_iter_correct",
    "Verif.mtx_qrd_iter_charpoly",
    "Verif.mtx_balance_correct",
    "Verif.mtx_balance_charpoly",
    "Verif.mtx_balance_shape"
   ],
   "note": ""
  },
  {
   "property": "C31",
   "status": "proved",
   "theorems": [
    "Verif.mtx_gram_schmidt_aliasing",
    "Verif.mtx_gram_schmidt_eq",
    "Verif.mtx_gram_schmidt_correct",
    "Verif.mtx_cols_norm_correct"
   ],
   "note": ""
  },
  {
   "property": "C32",
   "status": "proved",
   "theorems": [
    "Verif.mtx_min_idx_correct",
    "Verif.mtx_max_idx_correct",
    "Verif.mtx_min_correct",
    "Verif.mtx_max_correct"
   ],
   "note": ""
  },
  {
   "property": "C33",
   "status": "partial",
   "theorems": [
    "Verif.mtx_is_notneg_correct",
    "Verif.mtx_is_sym_correct",
    "Verif.mtx_is_equal_exact",
    "Verif.mtx_is_equal_shape",
    "Verif.mtx_is_equal_iff",
    "Verif.mtx_is_equal_refl",
    "Verif.mtx_is_equal_partial",
    "Verif.mtx_is_equal_wrong",
    "Verif.mtx_is_equal_overread"
   ],
   "note": "zsl_mtx_is_notneg and zsl_mtx_is_sym are proved for every matrix. zsl_mtx_is_equal compares rows+cols cells instead of rows*cols: exact behaviour proved (mtx_is_equal_iff), correct for 2x2 only (mtx_is_equal_partial), refuted for every larger shape (mtx_is_equal_wrong) and out of bounds for single rows (mtx_is_equal_overread)."
  },
  {
   "property": "C34",
   "status": "partial",
   "theorems": [
    "Verif.pinv_invert_exact",
    "Verif.pinv_invert_partial",
    "Verif.pinv_invert_zero_wrong"
   ],
   "note": "The claim is false: the guard (x < 1E-6) || (x > -1E-6) holds for every value, so a zero singular value becomes infinite (pinv_invert_zero_wrong). Exact behaviour of the inversion step proved for every matrix (pinv_invert_exact); correct when no singular value is zero (pinv_invert_partial)."
  },
  {
   "property": "C35",
   "status": "partial",
   "theorems": [
    "Verif.mtx_vec_wedge_near",
    "Verif.mtx_vec_wedge_noTiny",
    "Verif.mtx_vec_wedge_exact",
    "Verif.mtx_vec_wedge_of_inv",
    "Verif.mtx_vec_wedge_partial",
    "Verif.mtx_vec_wedge_small",
    "Verif.mtx_vec_wedge_wrong",
    "Verif.mtx_vec_wedge_shape"
   ],
   "note": "Proved whenever the inverse used inside is exact (mtx_vec_wedge_of_inv), in particular for bounded integer rows (mtx_vec_wedge_partial) and when the reduction meets no non-zero number below 1e-6 (mtx_vec_wedge_noTiny); with such numbers orthogonal up to a stated bound when no pivot is small (mtx_vec_wedge_near). Refuted in general because zsl_mtx_inv treats elements below 1e-6 as zero (mtx_vec_wedge_wrong)."
  },
  {
   "property": "C36",
   "status": "proved",
   "theorems": [
    "Verif.interp_lerp_value",
    "Verif.interp_lerp_correct",
    "Verif.interp_lerp_reject",
    "Verif.interp_lerp_nan"
   ],
   "note": ""
  },
  {
   "property": "C37",
   "status": "proved",
   "theorems": [
    "Verif.interp_find_x_short",
    "Verif.interp_find_x_asc",
    "Verif.interp_find_x_desc",
    "Verif.interp_find_x_huge"
   ],
   "note": "For tables of 2^31 points or more the claim is false (interp_find_x_huge)."
  },
  {
   "property": "C38",
   "status": "proved",
   "theorems": [
    "Verif.interp_lin_y_correct",
    "Verif.interp_lin_y_reject",
    "Verif.interp_lin_y_arr_correct",
    "Verif.interp_lin_y_arr_knot",
    "Verif.interp_lin_y_arr_reject",
    "Verif.interp_lin_y_desc_reject"
   ],
   "note": ""
  },
  {
   "property": "C39",
   "status": "partial",
   "theorems": [
    "Verif.interp_lin_x_partial",
    "Verif.interp_lin_x_reject",
    "Verif.interp_lin_x_flat"
   ],
   "note": "Proved for every table segment with distinct ordinates (interp_lin_x_partial); a horizontal segment is accepted and gives NaN with return code 0 (interp_lin_x_flat)."
  },
  {
   "property": "C40",
   "status": "partial",
   "theorems": [
    "Verif.interp_nn_value",
    "Verif.interp_nn_partial",
    "Verif.interp_nn_wrong",
    "Verif.interp_nn_reject",
    "Verif.interp_nn_arr_reject",
    "Verif.interp_nn_arr_value",
    "Verif.interp_nn_arr_wrong"
   ],
   "note": "The code compares x with 1.5*x1 rather than with the midpoint. Exact behaviour proved for the pair and for the table function (interp_nn_value, interp_nn_arr_value); correct under the stated side condition (interp_nn_partial) and refuted otherwise (interp_nn_wrong, interp_nn_arr_wrong)."
  },
  {
   "property": "C41",
   "status": "proved",
   "theorems": [
    "Verif.interp_cubic_calc_correct",
    "Verif.interp_cubic_calc_reject",
    "Verif.interp_cubic_arr_correct",
    "Verif.interp_cubic_arr_knot",
    "Verif.interp_cubic_line"
   ],
   "note": ""
  },
  {
   "property": "C42",
   "status": "partial",
   "theorems": [
    "Verif.sta_weighted_mean_value",
    "Verif.sta_weighted_mean_between",
    "Verif.sta_weighted_mean_equal",
    "Verif.sta_weighted_mean_mismatch_partial",
    "Verif.sta_weighted_mean_overread",
    "Verif.sta_trim_mean_reject",
    "Verif.sta_trim_mean_exact",
    "Verif.sta_trim_mean_partial",
    "Verif.sta_trim_mean_zero",
    "Verif.sta_trim_mean_wrong",
    "Verif.sta_trim_mean_empty"
   ],
   "note": "Weighted mean proved for all vectors of equal size. A size mismatch is refused only if the weight buffer holds as many cells as there are data (sta_weighted_mean_mismatch_partial), otherwise it is read past its end (sta_weighted_mean_overread). Trimmed mean: complete description for 0 < p <= 50 (sta_trim_mean_exact); right when two or more data are kept (sta_trim_mean_partial), wrong when one is kept (sta_trim_mean_wrong), undefined when none is kept (sta_trim_mean_empty) or p = 0 (sta_trim_mean_zero)."
  },
  {
   "property": "C43",
   "status": "proved",
   "theorems": [
    "Verif.sta_demean_aliasing",
    "Verif.sta_demean_correct",
    "Verif.sta_demean_mismatch"
   ],
   "note": ""
  },
  {
   "property": "C44",
   "status": "proved",
   "theorems": [
    "Verif.sta_covar_mtx_separate",
    "Verif.sta_covar_mtx_in_place",
    "Verif.sta_covar_mtx_in_place_wrong",
    "Verif.sta_var_correct",
    "Verif.sta_covar_correct",
    "Verif.sta_covar_mismatch",
    "Verif.sta_std_dev_correct",
    "Verif.sta_var_single",
    "Verif.sta_var_nonneg",
    "Verif.sta_var_affine",
    "Verif.sta_covar_laws",
    "Verif.sta_covar_mtx_correct",
    "Verif.sta_covar_mtx_laws",
    "Verif.sta_covar_mtx_mismatch"
   ],
   "note": ""
  },
  {
   "property": "C45",
   "status": "partial",
   "theorems": [
    "Verif.sta_linear_reg_correct",
    "Verif.sta_linear_reg_exact",
    "Verif.sta_linear_reg_corr_partial",
    "Verif.sta_linear_reg_corr_const",
    "Verif.sta_linear_reg_mismatch"
   ],
   "note": "Least squares and exact recovery proved in full; the correlation lies in [-1,1] when y is not constant (sta_linear_reg_corr_partial) and is NaN with return code 0 when it is (sta_linear_reg_corr_const)."
  },
  {
   "property": "C46",
   "status": "partial",
   "theorems": [
    "Verif.sta_percentile_near",
    "Verif.sta_quart_near",
    "Verif.sta_percentile_tiny",
    "Verif.sta_percentile_value",
    "Verif.sta_percentile_partial",
    "Verif.sta_percentile_mono_partial",
    "Verif.sta_percentile_reject",
    "Verif.sta_percentile_zero",
    "Verif.sta_percentile_hundred",
    "Verif.sta_median_partial",
    "Verif.sta_median_odd_partial",
    "Verif.sta_median_even_partial",
    "Verif.sta_quart_partial"
   ],
   "note": "Proved exactly for 0 < p < 100 and data that zsl_vec_sort sorts (see C12), and within 1e-5 for all data on which closeness is transitive (sta_percentile_near, sta_quart_near). For p = 0 and p = 100 a cell outside the sorted copy is read (sta_percentile_zero, sta_percentile_hundred); percentiles of data below 1e-5 are zero, hence possibly outside the data (sta_percentile_tiny)."
  },
  {
   "property": "C47",
   "status": "partial",
   "theorems": [
    "Verif.sta_abs_err_correct",
    "Verif.sta_rel_err_partial",
    "Verif.sta_rel_err_neg",
    "Verif.sta_rel_err_zero",
    "Verif.sta_sta_err_correct",
    "Verif.sta_sta_err_empty"
   ],
   "note": "Absolute and standard error proved. The relative error is the percentage of the signed expected value: right for positive expected values (sta_rel_err_partial), negative for negative ones (sta_rel_err_neg), infinite or NaN for zero (sta_rel_err_zero)."
  },
  {
   "property": "C48",
   "status": "partial",
   "theorems": [
    "Verif.sta_weighted_reg_mismatch_partial",
    "Verif.sta_weighted_reg_small_partial",
    "Verif.sta_weighted_reg_clobbers"
   ],
   "note": "The claim is false: on success the weights are replaced by their reciprocals (sta_weighted_reg_clobbers). The rejecting paths leave them alone."
  },
  {
   "property": "C49",
   "status": "proved",
   "theorems": [
    "Verif.uni_distribution",
    "Verif.uni_moments",
    "Verif.uni_rejects"
   ],
   "note": "Density, distribution function and moments are stated with Lebesgue integrals."
  },
  {
   "property": "C50",
   "status": "proved",
   "theorems": [
    "Verif.factorial_correct",
    "Verif.factorial_overflow",
    "Verif.factorial_negative",
    "Verif.binomial_coef_correct",
    "Verif.binomial_coef_outside",
    "Verif.binomial_coef_negative",
    "Verif.binomial_coef_overflow"
   ],
   "note": "Overflow is proved for every n >= 13; the coefficient is undefined for 0 <= k <= n, n >= 13."
  },
  {
   "property": "C51",
   "status": "partial",
   "theorems": [
    "Verif.binomial_pdf_correct",
    "Verif.binomial_moments",
    "Verif.binomial_cdf_correct",
    "Verif.binomial_rejects",
    "Verif.binomial_beyond_partial",
    "Verif.binomial_pdf_nan"
   ],
   "note": "Everything holds for 0 <= x <= n <= 12 and x < 0 (cdf), and beyond n for p < 1. For p = 1 and x > n the pdf is a NaN (binomial_pdf_nan)."
  },
  {
   "property": "C52",
   "status": "proved",
   "theorems": [
    "Verif.bayes_posterior",
    "Verif.bayes_accepts"
   ],
   "note": "The set of accepted inputs is characterised exactly."
  },
  {
   "property": "C53",
   "status": "partial",
   "theorems": [
    "Verif.entropy_rejects",
    "Verif.entropy_correct_partial",
    "Verif.entropy_zero_outcome",
    "Verif.entropy_certain_nan",
    "Verif.entropy_bounds",
    "Verif.entropy_sure",
    "Verif.entropy_uniform"
   ],
   "note": "Correct for full support; any zero probability makes the result a NaN with return code 0 (entropy_zero_outcome), in particular the certain outcome (entropy_certain_nan)."
  },
  {
   "property": "C54",
   "status": "proved",
   "theorems": [
    "Verif.normal_pdf_pos",
    "Verif.normal_pdf_symm",
    "Verif.normal_pdf_unimodal",
    "Verif.erf_inv_odd",
    "Verif.erf_inv_sign",
    "Verif.erf_inv_rejects",
    "Verif.normal_cdf_inv_median",
    "Verif.normal_cdf_inv_symm",
    "Verif.normal_cdf_inv_rejects"
   ],
   "note": "The pdf uses the constants of consts.h for pi and e; erf_inv also has the sign of its argument."
  },
  {
   "property": "C55",
   "status": "proved",
   "theorems": [
    "Verif.quat_magn_correct",
    "Verif.quat_mult_correct",
    "Verif.quat_mult_aliasing",
    "Verif.quat_mult_assoc",
    "Verif.quat_mult_identity",
    "Verif.quat_magn_mult",
    "Verif.quat_mult_ij",
    "Verif.quat_scale_correct",
    "Verif.quat_scale_aliasing"
   ],
   "note": "exact scalars; aliasing for every scalar type"
  },
  {
   "property": "C56",
   "status": "proved",
   "theorems": [
    "Verif.quat_to_unit_correct",
    "Verif.quat_to_unit_small",
    "Verif.quat_to_unit_idem",
    "Verif.quat_is_unit_iff",
    "Verif.quat_to_unit_aliasing"
   ],
   "note": ""
  },
  {
   "property": "C57",
   "status": "proved",
   "theorems": [
    "Verif.quat_conj_aliasing",
    "Verif.quat_diff_aliasing",
    "Verif.quat_inv_correct",
    "Verif.quat_inv_small",
    "Verif.quat_inv_aliasing",
    "Verif.quat_conj_correct",
    "Verif.quat_conj_mult",
    "Verif.quat_conj_eq_inv",
    "Verif.quat_diff_correct"
   ],
   "note": ""
  },
  {
   "property": "C58",
   "status": "proved",
   "theorems": [
    "Verif.quat_rot_correct",
    "Verif.quat_rot_rigid",
    "Verif.quat_rot_comp",
    "Verif.quat_rot_rejects",
    "Verif.quat_rot_z90"
   ],
   "note": "a pure argument is one with |r| <= 1e-6 (the code's test); rigid motion proved for r = 0"
  },
  {
   "property": "C59",
   "status": "partial",
   "theorems": [
    "Verif.quat_to_rot_mtx_correct",
    "Verif.quat_to_rot_mtx_nonunit",
    "Verif.quat_to_rot_mtx_neg",
    "Verif.quat_rot_mtx_shape",
    "Verif.quat_from_rot_mtx_roundtrip_partial",
    "Verif.quat_from_rot_mtx_half_turn",
    "Verif.quat_from_rot_mtx_unit",
    "Verif.quat_rot_mtx_from_to_partial"
   ],
   "note": "from_rot_mtx loses signs of half turns (witness proved) and of components with |4 r x| <= 1e-6; round trips proved outside these cases. to_rot_mtx does not normalise (witness proved)"
  },
  {
   "property": "C60",
   "status": "proved",
   "theorems": [
    "Verif.quat_lerp_correct",
    "Verif.quat_lerp_ends",
    "Verif.quat_lerp_unit",
    "Verif.quat_lerp_slerp_reject",
    "Verif.quat_slerp_correct",
    "Verif.quat_slerp_ends",
    "Verif.quat_slerp_equal",
    "Verif.quat_slerp_opposite",
    "Verif.quat_slerp_eq_pow"
   ],
   "note": "slerp correctness proved for unit inputs that are not nearly parallel or opposite; the nearly parallel case returns the start"
  },
  {
   "property": "C61",
   "status": "proved",
   "theorems": [
    "Verif.quat_from_euler_correct",
    "Verif.quat_from_euler_unit",
    "Verif.quat_from_ang_vel_correct",
    "Verif.quat_from_ang_mom_correct",
    "Verif.quat_from_ang_rejects",
    "Verif.quat_from_axis_angle_correct",
    "Verif.quat_from_axis_angle_zero",
    "Verif.quat_axis_angle_shape"
   ],
   "note": ""
  },
  {
   "property": "C62",
   "status": "proved",
   "theorems": [
    "Verif.quat_exp_correct",
    "Verif.quat_exp_pure",
    "Verif.quat_exp_log",
    "Verif.quat_pow_int",
    "Verif.quat_pow_zero_one",
    "Verif.quat_pow_add",
    "Verif.quat_pow_unit"
   ],
   "note": ""
  },
  {
   "property": "C63",
   "status": "partial",
   "theorems": [
    "Verif.mahn_feed_correct",
    "Verif.mahn_feed_gyro",
    "Verif.mahn_feed_rejects",
    "Verif.mahn_history_unit",
    "Verif.mahn_history_accepts",
    "Verif.madg_feed_correct",
    "Verif.madg_feed_gyro",
    "Verif.madg_history_unit",
    "Verif.madg_history_accepts",
    "Verif.madg_zero_attitude",
    "Verif.madg_zero_stuck",
    "Verif.comp_feed_correct",
    "Verif.comp_feed_gyro",
    "Verif.comp_history_unit",
    "Verif.comp_zero_attitude",
    "Verif.saam_feed_unit",
    "Verif.aqua_feed_acc",
    "Verif.aqua_feed_mag",
    "Verif.aqua_feed_gyro",
    "Verif.aqua_feed_unit_partial",
    "Verif.aqua_history",
    "Verif.aqua_upside_down",
    "Verif.kalm_history_unit"
   ],
   "note": "Mahony: every history. Madgwick: every history with beta at most 0.999999 freq; false for beta = freq (proved). Complementary filter: unit or zero; zero does occur (proved). SAAM: unit or zero. AQUA: unit outside singular readings, NaN for good after one (proved). Kalman: unit or zero in every history of real readings (kalm_history_unit)."
  },
  {
   "property": "C64",
   "status": "proved",
   "theorems": [
    "Verif.mahn_integral_bounded",
    "Verif.mahn_integral_limited"
   ],
   "note": "For a constant nonnegative limit and an initial feedback within it; any single accepted feed with an accelerometer reading brings the feedback within the limit."
  },
  {
   "property": "C65",
   "status": "partial",
   "theorems": [
    "Verif.mahn_feed_rejects",
    "Verif.madg_feed_rejects",
    "Verif.fus_init_correct",
    "Verif.comp_feed_rejects",
    "Verif.saam_null_ub",
    "Verif.aqua_feed_rejects",
    "Verif.aqua_first_null_ub",
    "Verif.aqua_rejected_adapts"
   ],
   "note": "Proved for the init functions and the feeds of Mahony, Madgwick, complementary, and AQUA after its first feed. False for SAAM with a NULL reading and for the first feed of AQUA (both proved). The Kalman filter is C111."
  },
  {
   "property": "C66",
   "status": "partial",
   "theorems": [
    "Verif.cal_madg_zero",
    "Verif.cal_mahn_zero",
    "Verif.cal_madg_not_best",
    "Verif.cal_mahn_not_best",
    "Verif.cal_gain_rejects"
   ],
   "note": "Refuted: for every real data set both searches return the gain 0, and a concrete data set is given for each search where another candidate has a strictly smaller accumulated error. The refusals and the absence of undefined behaviour are proved."
  },
  {
   "property": "C67",
   "status": "proved",
   "theorems": [
    "Verif.cal_corr_scalar_correct",
    "Verif.cal_corr_scalar_recovers",
    "Verif.cal_corr_vec_correct",
    "Verif.cal_corr_vec_recovers",
    "Verif.cal_corr_vec_rejects",
    "Verif.cal_rot_mtx_correct",
    "Verif.cal_rot_axis_angle_correct",
    "Verif.cal_rot_axis_angle_zero",
    "Verif.cal_rot_rejects"
   ],
   "note": ""
  },
  {
   "property": "C68",
   "status": "proved",
   "theorems": [
    "Verif.xyz_xyy_correct",
    "Verif.xyy_xyz_correct",
    "Verif.xyy_uv60_correct",
    "Verif.uv60_xyy_correct",
    "Verif.uv60_uv76_correct",
    "Verif.uv60_uv76_uv60",
    "Verif.uv76_uv60_uv76",
    "Verif.xyz_xyy_xyz",
    "Verif.xyy_xyz_xyy",
    "Verif.uv60_xyy_uv60",
    "Verif.xyy_uv60_xyy",
    "Verif.xyz_uv60_correct",
    "Verif.uv60_xyz_correct",
    "Verif.xyz_uv60_xyz",
    "Verif.xyz_xyy_scale",
    "Verif.xyz_xyy_black"
   ],
   "note": ""
  },
  {
   "property": "C69",
   "status": "proved",
   "theorems": [
    "Verif.rgbf_correct",
    "Verif.clip_gamut",
    "Verif.rgbf_rejects",
    "Verif.rgb8_correct",
    "Verif.rgb8_range",
    "Verif.rgb8_rejects"
   ],
   "note": "For real XYZ values. NaN input is undefined behaviour in the 8-bit conversion (see C100)."
  },
  {
   "property": "C70",
   "status": "partial",
   "theorems": [
    "Verif.spd_xyz_correct",
    "Verif.response_pos",
    "Verif.spd_xyz_rejects",
    "Verif.spd_xyz_scale",
    "Verif.spd_xyz_dark"
   ],
   "note": "Proved for every spectrum with a nonzero Y response. A dark spectrum is accepted with NaN (spd_xyz_dark)."
  },
  {
   "property": "C71",
   "status": "proved",
   "theorems": [
    "Verif.norm_spd_correct",
    "Verif.norm_spd_max",
    "Verif.norm_spd_rejects"
   ],
   "note": ""
  },
  {
   "property": "C72",
   "status": "proved",
   "theorems": [
    "Verif.ohno2014_rejects",
    "Verif.nearest_exists",
    "Verif.ohno2014_safe"
   ],
   "note": ""
  },
  {
   "property": "C73",
   "status": "proved",
   "theorems": [
    "Verif.lef_outside",
    "Verif.lef_correct",
    "Verif.lef_table",
    "Verif.lef_between",
    "Verif.lef_peak"
   ],
   "note": ""
  },
  {
   "property": "C74",
   "status": "proved",
   "theorems": [
    "Verif.mom_elas_conserves",
    "Verif.mom_inelas_conserves",
    "Verif.mom_rejects",
    "Verif.mass_center_correct",
    "Verif.mass_center_in_box",
    "Verif.mass_center_translate",
    "Verif.mass_center_rejects",
    "Verif.mass_center_sizes"
   ],
   "note": ""
  },
  {
   "property": "C75",
   "status": "proved",
   "theorems": [
    "Verif.kin_consistent",
    "Verif.rot_consistent"
   ],
   "note": ""
  },
  {
   "property": "C76",
   "status": "partial",
   "theorems": [
    "Verif.proj_time_correct",
    "Verif.proj_time_reachable",
    "Verif.proj_time_negative",
    "Verif.proj_time_nonneg",
    "Verif.proj_time_first_correct",
    "Verif.proj_time2_correct",
    "Verif.proj_trajectory_correct",
    "Verif.proj_range_correct",
    "Verif.proj_range_ignores_error",
    "Verif.proj_init_vel_roundtrip",
    "Verif.proj_angle_vertical"
   ],
   "note": "Time, trajectory, range and launch velocity are proved. False in general: the time of flight can be negative (proj_time_negative), the range ignores the error of the time (proj_range_ignores_error), straight down is reported as straight up (proj_angle_vertical)."
  },
  {
   "property": "C77",
   "status": "proved",
   "theorems": [
    "Verif.res_series_correct",
    "Verif.cap_parallel_correct",
    "Verif.res_parallel_correct",
    "Verif.cap_series_correct",
    "Verif.res_empty",
    "Verif.res_parallel_le",
    "Verif.res_perm"
   ],
   "note": "An empty list gives infinity for reciprocal sums (res_empty)."
  },
  {
   "property": "C78",
   "status": "proved",
   "theorems": [
    "Verif.thermo_fahren_cels_inverse",
    "Verif.thermo_fahren_cels_scale",
    "Verif.thermo_cels_kel_inverse"
   ],
   "note": ""
  },
  {
   "property": "C79",
   "status": "partial",
   "theorems": [
    "Verif.phy_dyn_newton_correct",
    "Verif.phy_dyn_fric_correct",
    "Verif.phy_dyn_normal_correct",
    "Verif.phy_dyn_pendul_period_correct",
    "Verif.phy_dyn_pendul_max_speed_correct",
    "Verif.phy_dyn_tension_correct",
    "Verif.phy_dyn_lever_correct",
    "Verif.phy_ecmp_capac_cpv_correct",
    "Verif.phy_ecmp_capac_ad_correct",
    "Verif.phy_ecmp_ener_capac_correct",
    "Verif.phy_ecmp_ener_induc_correct",
    "Verif.phy_ecmp_trans_correct",
    "Verif.phy_ecmp_rlc_volt_correct",
    "Verif.phy_ecmp_rc_charg_i_correct",
    "Verif.phy_ecmp_rc_charg_q_correct",
    "Verif.phy_ecmp_rc_discharg_i_correct",
    "Verif.phy_ecmp_rc_discharg_q_correct",
    "Verif.phy_ecmp_rl_current_correct",
    "Verif.phy_elec_charge_dens_correct",
    "Verif.phy_elec_force_correct",
    "Verif.phy_elec_force2_correct",
    "Verif.phy_elec_field_correct",
    "Verif.phy_elec_pot_ener_correct",
    "Verif.phy_elec_potential_correct",
    "Verif.phy_elec_flux_correct",
    "Verif.phy_elcty_current_correct",
    "Verif.phy_elcty_resistivity_correct",
    "Verif.phy_elcty_ohm_law_correct",
    "Verif.phy_elcty_power_vi_correct",
    "Verif.phy_elcty_power_ir_correct",
    "Verif.phy_elcty_power_vr_correct",
    "Verif.phy_ener_kin_correct",
    "Verif.phy_ener_rot_correct",
    "Verif.phy_ener_grav_pot_correct",
    "Verif.phy_ener_elas_pot_correct",
    "Verif.phy_ener_power_correct",
    "Verif.phy_ener_fric_correct",
    "Verif.phy_ener_mec_correct",
    "Verif.phy_ener_final_correct",
    "Verif.phy_ener_photon_correct",
    "Verif.phy_ener_photon2_correct",
    "Verif.phy_fluid_dens_correct",
    "Verif.phy_fluid_simple_press_correct",
    "Verif.phy_fluid_press_correct",
    "Verif.phy_fluid_bouyant_force_correct",
    "Verif.phy_fluid_flow_rate_correct",
    "Verif.phy_fluid_force_prop_correct",
    "Verif.phy_fluid_bernoulli_correct",
    "Verif.phy_fluid_volume_flow_rate_correct",
    "Verif.phy_gas_av_vel_correct",
    "Verif.phy_gas_press_correct",
    "Verif.phy_gas_boyle_correct",
    "Verif.phy_gas_charles_lussac_correct",
    "Verif.phy_grav_acc_correct",
    "Verif.phy_grav_force_correct",
    "Verif.phy_grav_pot_ener_correct",
    "Verif.phy_kin_dist_correct",
    "Verif.phy_kin_init_pos_correct",
    "Verif.phy_kin_init_pos2_correct",
    "Verif.phy_kin_time_correct",
    "Verif.phy_kin_vel_correct",
    "Verif.phy_kin_vel2_correct",
    "Verif.phy_kin_init_vel_correct",
    "Verif.phy_kin_init_vel2_correct",
    "Verif.phy_kin_init_vel3_correct",
    "Verif.phy_kin_av_vel_correct",
    "Verif.phy_kin_accel_correct",
    "Verif.phy_kin_ener_correct",
    "Verif.phy_magn_force_correct",
    "Verif.phy_magn_force_wire_correct",
    "Verif.phy_magn_torque_loop_correct",
    "Verif.phy_magn_pot_dipole_correct",
    "Verif.phy_magn_orb_radius_correct",
    "Verif.phy_magn_flux_correct",
    "Verif.phy_magn_mom_correct",
    "Verif.phy_mom_mom_correct",
    "Verif.phy_mom_imp_correct",
    "Verif.phy_mom_change_correct",
    "Verif.phy_mom_elas_correct",
    "Verif.phy_mom_inelas_correct",
    "Verif.phy_opt_snell_correct",
    "Verif.phy_opt_focus_correct",
    "Verif.phy_opt_critic_angle_correct",
    "Verif.phy_opt_power_correct",
    "Verif.phy_opt_magn_correct",
    "Verif.phy_opt_dif_correct",
    "Verif.phy_photon_ener_correct",
    "Verif.phy_photon_mom_correct",
    "Verif.phy_photon_wavelength_correct",
    "Verif.phy_photon_frequency_correct",
    "Verif.phy_photon_photoelectric_correct",
    "Verif.phy_proj_time_correct",
    "Verif.phy_proj_time_first_correct",
    "Verif.phy_proj_time2_correct",
    "Verif.phy_proj_ver_motion_correct",
    "Verif.phy_proj_ver_vel_correct",
    "Verif.phy_proj_hor_motion_correct",
    "Verif.phy_proj_trajectory_correct",
    "Verif.phy_proj_vel_correct",
    "Verif.phy_rot_angle_correct",
    "Verif.phy_rot_dist_correct",
    "Verif.phy_rot_turn_correct",
    "Verif.phy_rot_time_correct",
    "Verif.phy_rot_omega_correct",
    "Verif.phy_rot_omega2_correct",
    "Verif.phy_rot_av_omega_correct",
    "Verif.phy_rot_vel_correct",
    "Verif.phy_rot_ang_accel_correct",
    "Verif.phy_rot_accel_correct",
    "Verif.phy_rot_ener_correct",
    "Verif.phy_rot_period_correct",
    "Verif.phy_rot_frequency_correct",
    "Verif.phy_rot_cent_accel_correct",
    "Verif.phy_rot_cent_accel2_correct",
    "Verif.phy_rot_total_accel_correct",
    "Verif.phy_rot_power_correct",
    "Verif.phy_sound_press_amp_correct",
    "Verif.phy_sound_dop_effect_correct",
    "Verif.phy_sound_beat_correct",
    "Verif.phy_thermo_heat_fusion_correct",
    "Verif.phy_thermo_heat_correct",
    "Verif.phy_thermo_expan_correct",
    "Verif.phy_thermo_mean_free_path_correct",
    "Verif.phy_thermo_effic_heat_engine_correct",
    "Verif.phy_thermo_carnot_engine_correct",
    "Verif.phy_work_module_correct",
    "Verif.phy_work_x_correct",
    "Verif.phy_work_y_correct",
    "Verif.phy_work_kin_correct",
    "Verif.phy_atom_nucl_radius_correct",
    "Verif.phy_atom_bohr_orb_radius_correct",
    "Verif.phy_atom_rad_decay_correct",
    "Verif.phy_atom_bragg_correct",
    "Verif.phy_grav_orb_period_partial",
    "Verif.phy_grav_orb_period_negative",
    "Verif.phy_grav_esc_vel_partial",
    "Verif.phy_grav_esc_vel_negative",
    "Verif.phy_grav_orb_vel_partial",
    "Verif.phy_grav_orb_vel_negative",
    "Verif.phy_opt_refrac_index_computes",
    "Verif.phy_opt_refrac_index_wrong",
    "Verif.phy_sound_level_partial",
    "Verif.phy_sound_level_zero_reference",
    "Verif.phy_sound_intensity_partial",
    "Verif.phy_sound_intensity_zero_modulus",
    "Verif.phy_sound_shock_wave_angle_partial",
    "Verif.phy_sound_shock_wave_angle_subsonic",
    "Verif.phy_atom_bohr_orb_vel_partial",
    "Verif.phy_atom_bohr_orb_vel_zero",
    "Verif.phy_atom_bohr_orb_ener_partial"
   ],
   "note": "All helpers have a theorem. The guards of the gravitation, sound level/intensity/shock wave, Bohr velocity/energy helpers are incomplete and the refractive index is inverted (refutations next to the _partial theorems)."
  },
  {
   "property": "C80",
   "status": "proved",
   "theorems": [
    "Verif.chem_weight_correct",
    "Verif.chem_weight_increasing",
    "Verif.chem_weight_bounds"
   ],
   "note": ""
  },
  {
   "property": "C81",
   "status": "partial",
   "theorems": [
    "Verif.mtx_balance_terminates_partial",
    "Verif.mtx_balance_returns_iff",
    "Verif.mtx_balance_returns_nonneg",
    "Verif.mtx_balance_symm_partial",
    "Verif.mtx_balance_hangs_init"
   ],
   "note": "False in general: the locals row and col are used uninitialised, and for some contents the call never returns (mtx_balance_hangs_init). The exact condition on real contents of these locals under which it returns is proved (mtx_balance_returns_iff); it holds for all non-negative contents (mtx_balance_returns_nonneg), in particular zero (mtx_balance_terminates_partial)."
  },
  {
   "property": "C82",
   "status": "proved",
   "theorems": [
    "Verif.mtx_eigenvalues_symm",
    "Verif.mtx_eigenvalues_symm_returns_partial"
   ],
   "note": ""
  },
  {
   "property": "C83",
   "status": "partial",
   "theorems": [
    "Verif.sta_data_range_near",
    "Verif.sta_median_abs_dev_near",
    "Verif.sta_data_range_partial",
    "Verif.sta_mean_abs_dev_correct",
    "Verif.sta_mean_abs_dev_laws",
    "Verif.sta_mean_abs_dev_empty",
    "Verif.sta_median_abs_dev_partial"
   ],
   "note": "Mean absolute deviation proved for all data; range and median absolute deviation exactly for data that zsl_vec_sort sorts (see C12) and within 1e-5 (2e-5 for the range) for all data on which closeness is transitive."
  },
  {
   "property": "C84",
   "status": "partial",
   "theorems": [
    "Verif.sta_mult_linear_reg_near",
    "Verif.sta_weighted_reg_near",
    "Verif.sta_mult_linear_reg_noTiny",
    "Verif.sta_mult_linear_reg_partial",
    "Verif.sta_mult_linear_reg_two",
    "Verif.sta_mult_linear_reg_singular",
    "Verif.sta_mult_linear_reg_mismatch",
    "Verif.sta_weighted_reg_partial",
    "Verif.sta_weighted_reg_two"
   ],
   "note": "Minimality, coefficient of determination and refusals proved for every shape on condition that the inverse computed inside is exact (see C26), in particular when the reduction meets no non-zero number below 1e-6 (sta_mult_linear_reg_noTiny); unconditionally for two predictors. For every design whose normal matrix has its eigenvalues above a stated bound the residuals are within a stated distance of the minimum (sta_mult_linear_reg_near, sta_weighted_reg_near)."
  },
  {
   "property": "C85",
   "status": "proved",
   "theorems": [
    "Verif.normal_cdf_correct",
    "Verif.normal_cdf_mono",
    "Verif.normal_cdf_symm"
   ],
   "note": "Stated with Mathlib's gaussianPDFReal."
  },
  {
   "property": "C86",
   "status": "partial",
   "theorems": [
    "Verif.quat_euler_roundtrip_partial",
    "Verif.quat_euler_angles_recovered",
    "Verif.quat_euler_gimbal",
    "Verif.quat_euler_near_gimbal",
    "Verif.quat_euler_roundtrip_close",
    "Verif.quat_euler_yaw_lost",
    "Verif.quat_euler_roundtrip_inexact"
   ],
   "note": "Exact outside the gimbal-lock band and in exact gimbal lock. Inside the band (1 - 2e-6 < |sin pitch| < 1) the code sets yaw to 0: the exact statement is refuted there (quat_euler_roundtrip_inexact, quat_euler_yaw_lost) and the round trip is within 3e-3 for every quaternion (quat_euler_roundtrip_close)."
  },
  {
   "property": "C87",
   "status": "partial",
   "theorems": [
    "Verif.quat_axis_angle_roundtrip_partial",
    "Verif.quat_axis_angle_identity",
    "Verif.quat_axis_angle_neg_one"
   ],
   "note": "false for the identity rotation (zero axis, rebuilt as the zero quaternion; NaN axis for -1), both proved"
  },
  {
   "property": "C88",
   "status": "proved",
   "theorems": [
    "Verif.rc_complementary",
    "Verif.rc_charge_monotone",
    "Verif.rc_current_opposite",
    "Verif.rc_discharge_split",
    "Verif.rl_current_monotone"
   ],
   "note": ""
  },
  {
   "property": "C89",
   "status": "proved",
   "theorems": [
    "Verif.bernoulli_conserves",
    "Verif.flow_conserves",
    "Verif.pascal_conserves",
    "Verif.boyle_ideal_gas",
    "Verif.charles_ideal_gas",
    "Verif.ener_final_conserves",
    "Verif.fall_conserves",
    "Verif.lever_balances",
    "Verif.power_agree"
   ],
   "note": ""
  },
  {
   "property": "C90",
   "status": "proved",
   "theorems": [
    "Verif.snell_reversible",
    "Verif.critical_angle_correct",
    "Verif.mirror_equation"
   ],
   "note": ""
  },
  {
   "property": "C91",
   "status": "proved",
   "theorems": [
    "Verif.grav_laws",
    "Verif.coulomb_laws",
    "Verif.orbit_laws"
   ],
   "note": ""
  },
  {
   "property": "C92",
   "status": "proved",
   "theorems": [
    "Verif.photon_consistent",
    "Verif.photoelectric_threshold"
   ],
   "note": ""
  },
  {
   "property": "C93",
   "status": "proved",
   "theorems": [
    "Verif.rotation_consistent",
    "Verif.rotation_energy",
    "Verif.decay_split"
   ],
   "note": ""
  },
  {
   "property": "C94",
   "status": "partial",
   "theorems": [
    "Verif.aqua_toward",
    "Verif.mahn_moves_away",
    "Verif.madg_moves_away"
   ],
   "note": "Refuted for Mahony (every attitude, every reading that does not already agree, every gain below 2 freq) and for Madgwick (at the upright attitude, every gain); proved for AQUA."
  },
  {
   "property": "C95",
   "status": "proved",
   "theorems": [
    "Verif.att_from_accel_correct",
    "Verif.att_from_accel_scale",
    "Verif.att_from_accelmag_correct",
    "Verif.there_close",
    "Verif.att_euler_round_trip",
    "Verif.att_rejects",
    "Verif.att_accel_angle_correct",
    "Verif.att_accel_angle_zero"
   ],
   "note": ""
  },
  {
   "property": "C96",
   "status": "partial",
   "theorems": [
    "Verif.comp_magn_north_partial",
    "Verif.comp_magn_north_opposite",
    "Verif.comp_magn_north_axis",
    "Verif.comp_geo_north_correct"
   ],
   "note": "False for every field with a negative y component: the heading of the opposite field is returned (atan2 used where the source formula has arctan of the quotient). Proved for the rest."
  },
  {
   "property": "C97",
   "status": "proved",
   "theorems": [
    "Verif.comp_dms_to_dd_correct",
    "Verif.grav_lat_alt_correct",
    "Verif.gravity_laws"
   ],
   "note": ""
  },
  {
   "property": "C98",
   "status": "partial",
   "theorems": [
    "Verif.saam_feed_partial",
    "Verif.saam_level_zero",
    "Verif.saam_feed_unit",
    "Verif.saam_null_ub"
   ],
   "note": "Proved for readings whose SAAM quaternion has length at least 1e-6. False for level readings (zero quaternion) and a NULL pointer (undefined behaviour), both proved."
  },
  {
   "property": "C99",
   "status": "partial",
   "theorems": [
    "Verif.aqua_feed_acc",
    "Verif.aqua_feed_mag",
    "Verif.aqua_full_gain_acc",
    "Verif.aqua_full_gain_mag",
    "Verif.aqua_toward",
    "Verif.aqua_upside_down"
   ],
   "note": "Proved outside the singular readings (acceleration seen exactly upside down, field seen vertical or due south). At an upside down reading the attitude becomes NaN for good, proved."
  },
  {
   "property": "C100",
   "status": "partial",
   "theorems": [
    "Verif.ct_xyz_correct",
    "Verif.ct_xyz_pos",
    "Verif.ct_uv60_correct",
    "Verif.ct_rgb_correct",
    "Verif.ct_xyz_zero",
    "Verif.ct_rgb8_zero_ub"
   ],
   "note": "Proved for every nonzero temperature. At zero kelvin the XYZ conversion succeeds with NaN and the 8-bit RGB conversion is undefined (ct_xyz_zero, ct_rgb8_zero_ub)."
  },
  {
   "property": "C101",
   "status": "proved",
   "theorems": [
    "Verif.cct_xyy_correct",
    "Verif.cct_offset",
    "Verif.cct_xyz_comp",
    "Verif.planckUv_moves"
   ],
   "note": "For every positive temperature whose successor on the locus differs (planckUv_moves shows there are some) and off the singular line of the xyY conversion."
  },
  {
   "property": "C102",
   "status": "partial",
   "theorems": [
    "Verif.ohno2014_correct_partial",
    "Verif.ohno2014_near",
    "Verif.ohno2014_insensitive",
    "Verif.ohno2014_not_triangular",
    "Verif.ohno2014_far"
   ],
   "note": "The formula as coded is proved for every chromaticity, and near the locus the result stays between the neighbours; the triangular solution is refuted (ohno2014_not_triangular, ohno2014_far): squared distances are squared again, so that close to the locus the position between rows has no influence (ohno2014_insensitive)."
  },
  {
   "property": "C103",
   "status": "proved",
   "theorems": [
    "Verif.mccamy_correct",
    "Verif.cct_rejects",
    "Verif.cct_fallback",
    "Verif.ohno2011_correct",
    "Verif.ohno2011_meets"
   ],
   "note": "Ohno 2011 where its intermediate values are numbers (ohno2011_meets shows such a chromaticity)."
  },
  {
   "property": "C104",
   "status": "partial",
   "theorems": [
    "Verif.illum_get_correct",
    "Verif.illum_get_10deg",
    "Verif.rgbccm_get_correct",
    "Verif.rgbccm_get_ub",
    "Verif.ccm_det_pos",
    "Verif.ccm_injective",
    "Verif.white_is_white",
    "Verif.d65_flagged",
    "Verif.observer_dip"
   ],
   "note": "Proved for the 2 degree observer and the nine RGB spaces whose white is in the list. No illuminant has a 10 degree entry (illum_get_10deg), the sRGB white is flagged (d65_flagged), and the 2 degree z function has a dip at 380 nm (observer_dip)."
  },
  {
   "property": "C108",
   "status": "partial",
   "theorems": [
    "Verif.sta_quad_fit_near",
    "Verif.sta_quad_fit_noTiny",
    "Verif.sta_quad_fit_partial",
    "Verif.sta_quad_fit_integer",
    "Verif.sta_quad_fit_singular",
    "Verif.quad_few",
    "Verif.sta_quad_fit_one_point",
    "Verif.sta_quad_fit_rejects",
    "Verif.sta_quad_fit_empty"
   ],
   "note": "Optimality and exact recovery hold whenever the inverse computed inside is exact (C26), which is proved for integer points with leading minors up to a million and when the reduction meets no non-zero number below 1e-6 (sta_quad_fit_noTiny); up to a stated distance for every set of points whose normal matrix has its eigenvalues above a stated bound (sta_quad_fit_near). Refuted for underdetermined data: fewer than nine points are accepted and a wrong quadric is stored (sta_quad_fit_one_point); an empty set is undefined behaviour."
  },
  {
   "property": "C109",
   "status": "partial",
   "theorems": [
    "Verif.cal_magn_fast_partial",
    "Verif.cal_magn_fast_radius",
    "Verif.cal_magn_fast_rejects"
   ],
   "note": "All points of the fitted ellipsoid get the same magnitude, but it is me times the square root of 1 plus the offset term, not me; cal_magn_fast_radius gives data where the squared magnitude is 5/4 of me squared. The fit itself is taken from C108."
  },
  {
   "property": "C110",
   "status": "partial",
   "theorems": [
    "Verif.cal_magn_sphere_partial",
    "Verif.cal_magn_rejects",
    "Verif.cal_magn_empty",
    "Verif.cal_magn_symmetric",
    "Verif.calJacShp_val",
    "Verif.calJacElli_val",
    "Verif.cal_magn_symmetric_partial",
    "Verif.cal_magn_pair",
    "Verif.cal_magn_not_identity",
    "Verif.radius_runs_away",
    "Verif.sphere_slope_iff",
    "Verif.ellipsoid_slope",
    "Verif.ellipsoid_slope_wrong"
   ],
   "note": "Symmetry holds for all inputs and every scalar type. The exact result is proved for readings on a sphere that include the ends of the axes, and for all readings that are symmetric about the origin (zero offset, explicit recurrence for the matrix). Refuted: for readings on a sphere without the ends of the axes the matrix is not the identity (cal_magn_pair, cal_magn_not_identity). Other readings are not covered."
  },
  {
   "property": "C105",
   "status": "partial",
   "theorems": [
    "Verif.sta_time_weighted_mean_tiny",
    "Verif.sta_time_weighted_mean_partial",
    "Verif.sta_time_weighted_mean_between_partial",
    "Verif.sta_time_weighted_mean_rejects",
    "Verif.sta_time_weighted_mean_mismatch",
    "Verif.sta_time_weighted_mean_single",
    "Verif.sta_time_weighted_mean_empty"
   ],
   "note": "Proved for times that zsl_vec_sort sorts (C12). One sample gives NaN (sta_time_weighted_mean_single), samples at different times all below 1e-5 give NaN with success reported (sta_time_weighted_mean_tiny) and no samples is undefined behaviour."
  },
  {
   "property": "C106",
   "status": "partial",
   "theorems": [
    "Verif.sta_weighted_median_partial",
    "Verif.sta_weighted_median_exact_partial",
    "Verif.sta_weighted_median_order",
    "Verif.sta_weighted_median_rejects",
    "Verif.sta_weighted_median_mismatch"
   ],
   "note": "Proved for data given in ascending order. Refuted otherwise: the weights are not moved with the data (sta_weighted_median_order)."
  },
  {
   "property": "C107",
   "status": "partial",
   "theorems": [
    "Verif.sta_mode_separate",
    "Verif.sta_mode_in_place",
    "Verif.sta_mode_partial",
    "Verif.sta_mode_small",
    "Verif.sta_mode_mismatch",
    "Verif.sta_mode_empty"
   ],
   "note": "Proved for data whose distinct values, and zero, are at least 1e-5 apart. Refuted below the tolerance (sta_mode_small)."
  },
  {
   "property": "C111",
   "status": "partial",
   "theorems": [
    "Verif.kalm_feed_rejects",
    "Verif.kalm_feed_negative",
    "Verif.kalm_first_rejected"
   ],
   "note": "Proved once the filter has started, and for negative variances always. False for the first call: kalm_first_rejected shows that it resets the covariance and marks the filter as started."
  },
  {
   "property": "C112",
   "status": "partial",
   "theorems": [
    "Verif.kalm_feed_correct",
    "Verif.rightMul_spec",
    "Verif.rateMap_spec",
    "Verif.jac_spec",
    "Verif.kalm_first_feed",
    "Verif.kalm_start_parallel",
    "Verif.kalm_history_unit",
    "Verif.kalm_zero_stuck",
    "Verif.kalm_transition_mismatch"
   ],
   "note": "All equations proved, with C the result of the library's inversion of S; H is proved to be the derivative of the directions seen from the attitude. Negations: NaN attitude when field and acceleration are parallel at the first call (kalm_start_parallel), a zero attitude is never left (kalm_zero_stuck), covariance and attitude are propagated with different maps (kalm_transition_mismatch)."
  },
  {
   "property": "C113",
   "status": "partial",
   "theorems": [
    "Verif.kalm_covariance_near",
    "Verif.kalm_covariance_near_var",
    "Verif.kalm_covariance_partial",
    "Verif.kalm_covariance_noTiny_partial",
    "Verif.kalm_covariance_asymmetric"
   ],
   "note": "Proved whenever the inversion of S is exact, in particular when its reduction meets no non-zero number below 1e-6 (kalm_covariance_noTiny_partial). False in general: kalm_covariance_asymmetric. For variances above a stated bound the stored covariance is within a stated distance of a positive semidefinite one that does not exceed the prediction (kalm_covariance_near_var)."
  },
  {
   "property": "C114",
   "status": "partial",
   "theorems": [
    "Verif.kalm_agreeing_readings",
    "Verif.kalm_agreeing_level_partial"
   ],
   "note": "False: kalm_agreeing_readings gives an attitude, covariance and readings for which the attitude moves, under both conventions for the attitude; the predicted measurement is doubled in the code."
  },
  {
   "property": "C115",
   "status": "proved",
   "theorems": [
    "Verif.vec_init_safe",
    "Verif.vec_from_arr_safe",
    "Verif.vec_copy_safe",
    "Verif.vec_get_subset_safe",
    "Verif.vec_add_safe",
    "Verif.vec_sub_safe",
    "Verif.vec_neg_safe",
    "Verif.vec_scalar_safe",
    "Verif.vec_dot_safe",
    "Verif.vec_norm_safe",
    "Verif.vec_dist_safe",
    "Verif.vec_project_safe",
    "Verif.vec_project_onto_safe",
    "Verif.vec_to_unit_safe",
    "Verif.vec_cross_safe",
    "Verif.vec_sum_safe",
    "Verif.vec_ar_mean_safe",
    "Verif.vec_rev_safe",
    "Verif.vec_zte_safe",
    "Verif.vec_tests_safe",
    "Verif.vec_from_arr_safe_iff",
    "Verif.vec_copy_safe_iff",
    "Verif.vec_get_subset_wraps",
    "Verif.vec_get_subset_safe_any"
   ],
   "note": "For every scalar type (no arithmetic law used) and every combination of sizes. zsl_vec_to_unit and zsl_vec_rev need at least one element; sorting is C13/C64."
  },
  {
   "property": "C116",
   "status": "proved",
   "theorems": [
    "Verif.mtx_get_safe",
    "Verif.mtx_set_safe",
    "Verif.mtx_init_callback_safe",
    "Verif.mtx_init_safe",
    "Verif.mtx_from_arr_safe",
    "Verif.mtx_copy_safe",
    "Verif.mtx_get_row_safe",
    "Verif.mtx_get_col_safe",
    "Verif.mtx_set_row_safe",
    "Verif.mtx_set_col_safe",
    "Verif.mtx_unary_op_safe",
    "Verif.mtx_binary_op_safe",
    "Verif.mtx_binary_op_d_safe",
    "Verif.mtx_add_sub_safe",
    "Verif.mtx_sum_rows_safe",
    "Verif.mtx_sum_rows_scaled_safe",
    "Verif.mtx_mult_safe",
    "Verif.mtx_mult_d_safe",
    "Verif.mtx_scalar_mult_safe",
    "Verif.mtx_scalar_mult_row_safe",
    "Verif.mtx_trans_safe",
    "Verif.mtx_3x3_safe",
    "Verif.mtx_reduce_safe",
    "Verif.mtx_augm_diag_safe",
    "Verif.mtx_deter_safe",
    "Verif.mtx_deter_overread",
    "Verif.mtx_adjoint_safe",
    "Verif.mtx_gauss_elim_safe",
    "Verif.mtx_norm_elem_safe",
    "Verif.mtx_gauss_reduc_safe",
    "Verif.mtx_inv_3x3_safe",
    "Verif.mtx_inv_safe",
    "Verif.mtx_vec_wedge_safe",
    "Verif.mtx_extrema_safe",
    "Verif.mtx_tests_safe",
    "Verif.mtx_set_col_overread",
    "Verif.mtx_get_row_overrun",
    "Verif.mtx_get_col_overrun",
    "Verif.mtx_set_row_overread",
    "Verif.mtx_row_col_safe_iff",
    "Verif.mtx_reduce_safe_iff",
    "Verif.mtx_from_arr_safe_iff",
    "Verif.mtx_sum_rows_scaled_safe_iff",
    "Verif.mtx_extrema_empty"
   ],
   "note": "For every scalar type and combination of shapes; determinant, adjoint, minor and elimination need square matrices, and mtx_deter_overread shows that the determinant of a 2x1 matrix reads past the buffer."
  },
  {
   "property": "C117",
   "status": "partial",
   "theorems": [
    "Verif.mtx_qrd_small_r",
    "Verif.mtx_qrd_wrong_q",
    "Verif.mtx_eigenvectors_overflow",
    "Verif.mtx_gram_schmidt_safe",
    "Verif.mtx_cols_norm_safe",
    "Verif.mtx_cholesky_safe",
    "Verif.mtx_householder_safe",
    "Verif.mtx_qrd_safe",
    "Verif.mtx_qrd_iter_safe",
    "Verif.mtx_cols_norm_overread",
    "Verif.mtx_gram_schmidt_overread",
    "Verif.mtx_gram_schmidt_safe_iff",
    "Verif.mtx_householder_safe_iff",
    "Verif.mtx_balance_safe",
    "Verif.mtx_eigenvalues_safe",
    "Verif.mtx_eigenvectors_safe_partial"
   ],
   "note": "Proved for every scalar type for all listed functions; balancing need not end, so it and its callers are stated for runs whose balancing returns. zsl_mtx_eigenvectors stores more columns than the matrix has (mtx_eigenvectors_overflow), so its safety theorem needs a larger output buffer."
  },
  {
   "property": "C118",
   "status": "partial",
   "theorems": [
    "Verif.mtx_eigenvalues_returns_good",
    "Verif.mtx_eigenvalues_returns_iff",
    "Verif.mtx_qrd_triangular",
    "Verif.mtx_qrd_hess_fixed",
    "Verif.mtx_qrd_iter_triangular",
    "Verif.mtx_eigenvalues_triangular",
    "Verif.mtx_eigenvalues_returns_partial",
    "Verif.mtx_eigenvalues_diagonal"
   ],
   "note": "The stored values are proved for every run that returns (mtx_eigenvalues_triangular). That it returns is false in general; the exact condition on the uninitialised locals of the balancing step is proved (mtx_eigenvalues_returns_iff)."
  },
  {
   "property": "C119",
   "status": "proved",
   "theorems": [
    "Verif.mtx_eigenvectors_separate",
    "Verif.mtx_eigenvectors_in_place",
    "Verif.mtx_eigenvectors_correct",
    "Verif.mtx_eigenvectors_complete",
    "Verif.mtx_eigenvectors_diagonal"
   ],
   "note": "Given what zsl_mtx_eigenvalues returned (C118 for triangular and diagonal matrices); the 1e-6 tests of the elimination are excluded by the NoTiny hypothesis of Spec/Elim."
  },
  {
   "property": "C120",
   "status": "partial",
   "theorems": [
    "Verif.mtx_svd_over_v",
    "Verif.mtx_svd_over_v_wrong",
    "Verif.mtx_svd_separate",
    "Verif.mtx_svd_over_e",
    "Verif.mtx_svd_over_e_wrong",
    "Verif.nochk_mtx_svd_correct",
    "Verif.mtx_svd_correct",
    "Verif.mtx_svd_diagonal",
    "Verif.mtx_svd_wide",
    "Verif.mtx_svd_order"
   ],
   "note": "Proved for tall and square matrices of any rank whose eigenvalues the eigenvalue function delivers exactly, descending and separated (mtx_svd_correct; instances for all rectangular diagonal matrices: mtx_svd_diagonal). Negations: wide matrices read out of bounds (mtx_svd_wide); with eigenvalues not in descending order the product is not the input (mtx_svd_order). The convergence of the singular values is C134; that of the factors U and V is not proved."
  },
  {
   "property": "C121",
   "status": "partial",
   "theorems": [
    "Verif.mtx_pinv_aliasing",
    "Verif.nochk_mtx_pinv_correct_partial",
    "Verif.mtx_pinv_wide",
    "Verif.mtx_pinv_correct_partial",
    "Verif.mtx_pinv_singular"
   ],
   "note": "Full column rank: mtx_pinv_correct_partial. Negations: every rank deficient matrix yields only infinities and NaNs (mtx_pinv_singular); wide matrices read out of bounds (mtx_pinv_wide)."
  },
  {
   "property": "C122",
   "status": "partial",
   "theorems": [
    "Verif.sh_lat2g_north_partial",
    "Verif.sh_lat2g_south",
    "Verif.sh_lat2g_below_sea",
    "Verif.sh_lat2g_refused",
    "Verif.sh_lat2g_words",
    "Verif.sh_ct2rgb_correct",
    "Verif.sh_ct2rgbf_correct",
    "Verif.sh_ct2rgb_refused",
    "Verif.sh_ct2rgb_huge",
    "Verif.sh_version_correct"
   ],
   "note": "lat2g: proved for the northern hemisphere (sh_lat2g_north_partial); false on the equator and south of it, where every point is refused (sh_lat2g_south); altitudes from -500 m to 0 pass the check of the command and fail in the library (sh_lat2g_below_sea). ct2rgb and ct2rgbf: proved for temperatures below 2^32 K, undefined conversion above (sh_ct2rgb_huge)."
  },
  {
   "property": "C123",
   "status": "proved",
   "theorems": [
    "Verif.arm_vec_add_correct",
    "Verif.arm_vec_scalar_add_correct",
    "Verif.arm_vec_scalar_mult_correct",
    "Verif.arm_vec_scalar_div_correct",
    "Verif.arm_vec_same"
   ],
   "note": "The functions are plain C and are modelled separately."
  },
  {
   "property": "C124",
   "status": "proved",
   "theorems": [
    "Verif.vec_dot_rounding",
    "Verif.vec_sum_of_sqrs_rounding",
    "Verif.vec_norm_rounding",
    "Verif.vec_elementwise_rounding",
    "Verif.vec_dist_rounding",
    "Verif.vec_ar_mean_rounding",
    "Verif.vec_to_unit_rounding"
   ],
   "note": "Model Base/FX.lean: every operation correctly rounded with relative error u; overflow and underflow excluded. Instances: round to nearest with p bits (Spec/Nearest.lean)."
  },
  {
   "property": "C125",
   "status": "proved",
   "theorems": [
    "Verif.mtx_mult_rounding"
   ],
   "note": "Same floating point model as C124."
  },
  {
   "property": "C126",
   "status": "proved",
   "theorems": [
    "Verif.quat_magn_rounding",
    "Verif.quat_to_unit_rounding",
    "Verif.quat_mult_rounding"
   ],
   "note": "Same floating point model as C124."
  },
  {
   "property": "C127",
   "status": "proved",
   "theorems": [
    "Verif.interp_lin_y_monotone_rounding",
    "Verif.interp_lin_y_rounding",
    "Verif.interp_lerp_rounding"
   ],
   "note": "Same floating point model as C124. Exactness at the first point needs an ordinate that is a floating point number."
  },
  {
   "property": "C128",
   "status": "proved",
   "theorems": [
    "Verif.sta_var_rounding",
    "Verif.sta_std_dev_rounding",
    "Verif.sta_covar_rounding",
    "Verif.sta_covar_mtx_rounding"
   ],
   "note": "Same floating point model as C124."
  },
  {
   "property": "C129",
   "status": "partial",
   "theorems": [
    "Verif.sta_linear_reg_rounding_partial",
    "Verif.sta_linear_reg_cancels"
   ],
   "note": "Proved for abscissae that are spread widely enough (sta_linear_reg_rounding_partial). False in general: in double precision the points (2^27, 0) and (2^27+1, 1) give an infinite slope (sta_linear_reg_cancels)."
  },
  {
   "property": "C130",
   "status": "proved",
   "theorems": [
    "Verif.fed_unitised",
    "Verif.quat_to_unit_on_sphere",
    "Verif.attitude_never_drifts"
   ],
   "note": "Same floating point model as C124; fed_unitised holds for every scalar type."
  },
  {
   "property": "C131",
   "status": "proved",
   "theorems": [
    "Verif.phy_atomic_rounding",
    "Verif.phy_dynamics_rounding",
    "Verif.phy_eleccomp_rounding",
    "Verif.phy_electric_rounding",
    "Verif.phy_electricity_rounding",
    "Verif.phy_energy_rounding",
    "Verif.phy_fluids_rounding",
    "Verif.phy_gases_rounding",
    "Verif.phy_gravitation_rounding",
    "Verif.phy_kinematics_rounding",
    "Verif.phy_momentum_rounding",
    "Verif.phy_optics_rounding",
    "Verif.phy_photons_rounding",
    "Verif.phy_projectiles_rounding",
    "Verif.phy_rotation_rounding",
    "Verif.phy_sound_rounding",
    "Verif.phy_thermo_rounding",
    "Verif.phy_signed_rounding",
    "Verif.phy_fluid_press_rounding"
   ],
   "note": "Same floating point model as C124; relates the rounded run to the exact run, whose formulas are the subject of the other physics properties. Helpers calling sin, cos, pow, exp, log are not included."
  },
  {
   "property": "C132",
   "status": "proved",
   "theorems": [
    "Verif.phy_dynamics_sum_rounding",
    "Verif.phy_energy_sum_rounding",
    "Verif.phy_fluids_sum_rounding",
    "Verif.phy_kinematics_sum_rounding",
    "Verif.phy_momentum_sum_rounding",
    "Verif.phy_photons_sum_rounding",
    "Verif.phy_projectiles_sum_rounding",
    "Verif.phy_rotation_sum_rounding",
    "Verif.phy_thermo_sum_rounding",
    "Verif.phy_thermo_cels_kel_cancels"
   ],
   "note": "Same floating point model as C124. The negative part: phy_thermo_cels_kel_cancels."
  },
  {
   "property": "C133",
   "status": "partial",
   "theorems": [
    "Verif.mtx_qrd_iter_converges",
    "Verif.mtx_qrd_iter_gram_converges",
    "Verif.mtx_eigenvalues_converge_partial",
    "Verif.mtx_qrd_iter_converges_general",
    "Verif.mtx_eigenvalues_converge",
    "Verif.mtx_eigenvalues_converge_distinct_partial",
    "Verif.mtx_eigenvalues_converge_symm",
    "Verif.mtx_qrd_iter_stuck",
    "Verif.mtx_eigenvalues_stuck",
    "Verif.mtx_eigenvalues_converge_distinct",
    "Verif.mtx_eigenvalues_converge_symm_good"
   ],
   "note": "Proved for the QR iteration without further hypotheses (mtx_qrd_iter_converges, mtx_qrd_iter_converges_general). The eigenvalue function: for all contents of its uninitialised locals for which it returns (mtx_eigenvalues_converge, mtx_eigenvalues_converge_symm), and these contents are characterised exactly (mtx_eigenvalues_converge_distinct, mtx_eigenvalues_converge_symm_good); otherwise it hangs (C81). False with opposite eigenvalues: mtx_qrd_iter_stuck, mtx_eigenvalues_stuck. Open: matrices with complex eigenvalues or without a basis of eigenvectors."
  },
  {
   "property": "C134",
   "status": "partial",
   "theorems": [
    "Verif.mtx_svd_sigma_converges_partial",
    "Verif.mtx_svd_sigma_converges_full"
   ],
   "note": "For full column rank the singular values converge for all contents of the uninitialised locals with which the function returns (mtx_svd_sigma_converges_full). For every rank mtx_svd_sigma_converges_partial needs these locals to hold zero (C81) and speaks of runs that return."
  },
  {
   "property": "C135",
   "status": "proved",
   "theorems": [
    "Verif.mtx_qrd_keeps_hess",
    "Verif.mtx_qrd_iter_keeps_hess",
    "Verif.mtx_eigenvalues_certificate",
    "Verif.mtx_eigenvalues_backward"
   ],
   "note": "For every run that returns (mtx_eigenvalues_certificate, mtx_eigenvalues_backward), with the Hessenberg form kept by the QR steps (mtx_qrd_keeps_hess, mtx_qrd_iter_keeps_hess). A matrix that passes the symmetry test gets no such check: mtx_eigenvalues_stuck (C133) shows a success return with wrong values."
  },
  {
   "property": "C136",
   "status": "partial",
   "theorems": [
    "Verif.mtx_eigenvalues_near",
    "Verif.mtx_eigenvalues_complex_partial",
    "Verif.mtx_eigenvalues_complex"
   ],
   "note": "The distance bound and the report of complex eigenvalues hold for every run that returns (mtx_eigenvalues_near, mtx_eigenvalues_complex), in terms of the balanced matrix; in terms of the input if the locals of the balancing step hold zero (mtx_eigenvalues_complex_partial). Eigenvalues closer to the real line than the bound are not covered."
  },
  {
   "property": "C137",
   "status": "partial",
   "theorems": [
    "Verif.mtx_balance_balances_partial",
    "Verif.mtx_balance_keeps",
    "Verif.mtx_balance_first_row"
   ],
   "note": "Proved when the uninitialised locals of zsl_mtx_balance hold zero (mtx_balance_balances_partial). For other contents with which it returns, every row except the first is balanced (mtx_balance_returns_iff) and the first need not be (mtx_balance_first_row). A matrix within a factor of two is not changed (mtx_balance_keeps)."
  },
  {
   "property": "C138",
   "status": "proved",
   "theorems": [
    "Verif.vec_dot_finite_err",
    "Verif.vec_dot_in_range",
    "Verif.vec_sum_of_sqrs_range",
    "Verif.mtx_mult_in_range"
   ],
   "note": "Any format with overflow and gradual underflow (Base/BX.lean), in particular IEEE double and single (Spec/Ieee.lean)."
  },
  {
   "property": "C139",
   "status": "partial",
   "theorems": [
    "Verif.vec_norm_overflow",
    "Verif.vec_norm_underflow",
    "Verif.vec_to_unit_overflow",
    "Verif.vec_to_unit_underflow",
    "Verif.vec_norm_in_range_partial",
    "Verif.vec_norm_double_partial",
    "Verif.vec_to_unit_double_partial",
    "Verif.vec_project_overflow",
    "Verif.vec_project_underflow",
    "Verif.vec_dist_overflow"
   ],
   "note": "False in general: vec_norm_overflow, vec_to_unit_overflow, vec_norm_underflow, vec_to_unit_underflow, vec_project_overflow, vec_project_underflow, vec_dist_overflow give the results for data whose squares leave the range. Proved for data whose sum of squares stays in range: vec_norm_in_range_partial for every format, vec_norm_double_partial and vec_to_unit_double_partial in double precision for norms from 2^-400 to 2^500."
  },
  {
   "property": "C140",
   "status": "partial",
   "theorems": [
    "Verif.vec_ar_mean_in_range_partial",
    "Verif.vec_ar_mean_overflow",
    "Verif.sta_var_overflow"
   ],
   "note": "False in general: vec_ar_mean_overflow, sta_var_overflow. Proved for the mean if the sum of the absolute values stays in range (vec_ar_mean_in_range_partial)."
  },
  {
   "property": "C141",
   "status": "partial",
   "theorems": [
    "Verif.quat_overflow",
    "Verif.quat_to_unit_double_partial"
   ],
   "note": "False in general: quat_overflow. Proved in double precision for magnitudes from 2e-6 to 2^500 (quat_to_unit_double_partial). Below 1e-6 the library returns zero by design (C56)."
  },
  {
   "property": "C142",
   "status": "partial",
   "theorems": [
    "Verif.mahn_instances_partial",
    "Verif.madg_instances_partial",
    "Verif.comp_instances_partial",
    "Verif.saam_instances",
    "Verif.aqua_instances_partial",
    "Verif.kalm_instances_partial",
    "Verif.mahn_instances_interfere",
    "Verif.madg_instances_interfere",
    "Verif.comp_instances_interfere",
    "Verif.aqua_instances_interfere",
    "Verif.kalm_instances_interfere",
    "Verif.kalm_second_instance_blind"
   ],
   "note": "SAAM: proved. Mahony, Madgwick, complementary: proved when all instances use one frequency and none is fed before its init; refuted for different frequencies. AQUA, Kalman: proved once one instance has been fed, for one frequency; refuted for first feeds."
  },
  {
   "property": "C143",
   "status": "partial",
   "theorems": [
    "Verif.mahn_restarts",
    "Verif.madg_restarts",
    "Verif.comp_restarts",
    "Verif.saam_restarts",
    "Verif.aqua_not_restarts",
    "Verif.kalm_not_restarts"
   ],
   "note": "Mahony, Madgwick, complementary, SAAM: proved. AQUA, Kalman: refuted (init does not reset the first-feed flag)."
  },
  {
   "property": "C144",
   "status": "partial",
   "theorems": [
    "Verif.cubic_alone",
    "Verif.cubic_threads_partial",
    "Verif.cubic_interleaved_wrong",
    "Verif.cubic_threads_interfere",
    "Verif.cubic_interleaved_overread"
   ],
   "note": "Proved for all sequences of calls that do not interrupt one another (cubic_threads_partial). False otherwise: the search interval is kept in static variables (cubic_threads_interfere, cubic_interleaved_overread)."
  },
  {
   "property": "C145",
   "status": "partial",
   "theorems": [
    "Verif.vec_project_separate",
    "Verif.vec_project_onto_in_place",
    "Verif.vec_project_over_v",
    "Verif.vec_project_over_v_wrong",
    "Verif.vec_cross_separate",
    "Verif.vec_cross_over_v",
    "Verif.vec_cross_over_w_wrong",
    "Verif.mtx_svd_over_v",
    "Verif.mtx_svd_over_v_wrong",
    "Verif.vec_sort_separate",
    "Verif.vec_sort_in_place_wrong",
    "Verif.sta_demean_aliasing",
    "Verif.quat_conj_aliasing",
    "Verif.quat_exp_aliasing",
    "Verif.quat_log_aliasing",
    "Verif.quat_diff_aliasing",
    "Verif.quat_rot_aliasing",
    "Verif.quat_lerp_aliasing",
    "Verif.quat_slerp_aliasing",
    "Verif.quat_from_ang_vel_aliasing",
    "Verif.mtx_binary_op_separate",
    "Verif.mtx_mult_aliasing",
    "Verif.mtx_trans_separate",
    "Verif.mtx_trans_in_place",
    "Verif.mtx_trans_in_place_iff",
    "Verif.mtx_adjoint_3x3_separate",
    "Verif.mtx_adjoint_3x3_in_place",
    "Verif.mtx_adjoint_3x3_in_place_wrong",
    "Verif.mtx_inv_3x3_separate",
    "Verif.mtx_inv_3x3_in_place_wrong",
    "Verif.mtx_inv_separate",
    "Verif.mtx_inv_in_place",
    "Verif.mtx_cholesky_separate",
    "Verif.mtx_cholesky_in_place",
    "Verif.mtx_cholesky_in_place_wrong",
    "Verif.mtx_cols_norm_aliasing",
    "Verif.mtx_gram_schmidt_aliasing",
    "Verif.vec_get_subset_separate",
    "Verif.vec_get_subset_in_place",
    "Verif.vec_sum_any_pointers",
    "Verif.vec_sum_in_place",
    "Verif.vec_mean_in_place",
    "Verif.mtx_copy_aliasing",
    "Verif.mtx_gauss_elim_aliasing",
    "Verif.mtx_gauss_elim_d_is",
    "Verif.mtx_gauss_elim_same",
    "Verif.mtx_norm_elem_aliasing",
    "Verif.mtx_norm_elem_same",
    "Verif.mtx_balance_aliasing",
    "Verif.mtx_reduce_aliasing",
    "Verif.mtx_adjoint_separate",
    "Verif.mtx_adjoint_in_place",
    "Verif.mtx_adjoint_in_place_wrong",
    "Verif.mtx_qrd_aliasing",
    "Verif.mtx_qrd_iter_aliasing",
    "Verif.quat_pow_aliasing",
    "Verif.mtx_householder_aliasing",
    "Verif.mtx_pinv_aliasing",
    "Verif.mtx_eigenvectors_separate",
    "Verif.mtx_eigenvectors_in_place",
    "Verif.mtx_svd_separate",
    "Verif.mtx_svd_over_e",
    "Verif.mtx_svd_over_e_wrong",
    "Verif.sta_mode_separate",
    "Verif.sta_mode_in_place",
    "Verif.sta_covar_mtx_separate",
    "Verif.sta_covar_mtx_in_place",
    "Verif.sta_covar_mtx_in_place_wrong",
    "Verif.mtx_augm_diag_separate",
    "Verif.mtx_augm_diag_in_place",
    "Verif.mtx_qrd_one_object",
    "Verif.mtx_reduce_iter_separate",
    "Verif.mtx_reduce_iter_one_placeholder",
    "Verif.mtx_reduce_iter_destroys"
   ],
   "note": "Proved for all pointers: vector and matrix sums, differences and component-wise products, copies, matrix product, demeaning, Gram-Schmidt, column norms, balancing, Householder matrix, QR iteration, pseudo-inverse, minors, Gaussian elimination and element normalisation with separate companion, quaternion functions. Proved for separate objects, and false in place, for: sort, subset (overlap is undefined behaviour), sum and mean of vectors, projection over v, cross product over w, mode, covariance matrix, transpose (exact result: right iff symmetric), adjoint, 3x3 adjoint and inverse, inverse (always the identity), Cholesky, eigenvectors (return code), singular values with e = m or v = m (square, full rank), augmentation (always the identity), QR decomposition with q = r (only Q is kept), iterated reduction (one matrix for both placeholders, or the input as a placeholder). Missing: singular values with u equal to m (and v = m when not square or rank-deficient), and objects that overlap only in part."
  },
  {
   "property": "C146",
   "status": "partial",
   "theorems": [
    "Verif.comp_settles",
    "Verif.comp_settles_rate",
    "Verif.comp_turns_away",
    "Verif.mahn_turns_over",
    "Verif.aqua_settles",
    "Verif.aqua_stops_short",
    "Verif.mahn_keeps",
    "Verif.aqua_keeps",
    "Verif.madg_not_kept",
    "Verif.madg_never_level",
    "Verif.madg_never_level_any"
   ],
   "note": "Complementary filter: converges at a geometric rate from every attitude that is not within 2e-12 of the opposite quaternion [comp_settles, comp_settles_rate]; a single feed may move the orientation away, because q and -q are not identified [comp_turns_away]. AQUA with the accelerometer: converges at the rate 1 - alpha for thresholds up to 1 - 1e-6 [aqua_settles]; with a threshold of 1 or more it stops short [aqua_stops_short]. Refuted for Mahony: the vertical tends to the opposite of the measured one [mahn_turns_over]. Refuted for Madgwick: an attitude that agrees with the reading is not kept [madg_not_kept], while Mahony and AQUA keep it, and from an estimate tilted about any horizontal axis a level device never becomes level [madg_never_level_any]. Not covered: limits for Madgwick from other attitudes, Kalman, AQUA with a magnetometer."
  },
  {
   "property": "C147",
   "status": "partial",
   "theorems": [
    "Verif.nochk_vec_add",
    "Verif.nochk_vec_sub",
    "Verif.nochk_vec_dot",
    "Verif.nochk_vec_norm",
    "Verif.nochk_vec_to_unit",
    "Verif.nochk_vec_dist",
    "Verif.nochk_vec_project",
    "Verif.nochk_vec_cross",
    "Verif.nochk_vec_sum",
    "Verif.nochk_vec_mean",
    "Verif.nochk_vec_get_subset_partial",
    "Verif.nochk_vec_get_subset_fails",
    "Verif.nochk_vec_add_rejected",
    "Verif.nochk_mtx_get",
    "Verif.nochk_mtx_set",
    "Verif.nochk_mtx_copy",
    "Verif.nochk_mtx_init",
    "Verif.nochk_mtx_get_row",
    "Verif.nochk_mtx_get_col",
    "Verif.nochk_mtx_set_row",
    "Verif.nochk_mtx_set_col",
    "Verif.nochk_mtx_get_rejected",
    "Verif.nochk_mtx_binary_op",
    "Verif.nochk_mtx_binary_op_d",
    "Verif.nochk_mtx_binary_func",
    "Verif.nochk_mtx_sum_rows",
    "Verif.nochk_mtx_sum_rows_scaled",
    "Verif.nochk_mtx_scalar_mult_row",
    "Verif.nochk_mtx_mult",
    "Verif.nochk_mtx_mult_d",
    "Verif.nochk_mtx_trans",
    "Verif.nochk_mtx_is_sym",
    "Verif.nochk_mtx_reduce_partial",
    "Verif.nochk_mtx_reduce_fails",
    "Verif.nochk_mtx_deter_3x3",
    "Verif.nochk_mtx_deter",
    "Verif.nochk_mtx_adjoint_3x3",
    "Verif.nochk_mtx_adjoint_partial",
    "Verif.nochk_mtx_adjoint_fails",
    "Verif.nochk_mtx_gauss_elim",
    "Verif.nochk_mtx_norm_elem",
    "Verif.nochk_mtx_gauss_reduc_partial",
    "Verif.nochk_mtx_gauss_reduc_fails",
    "Verif.nochk_mtx_inv_3x3",
    "Verif.nochk_mtx_inv",
    "Verif.nochk_mtx_vec_wedge",
    "Verif.nochk_mtx_augm_diag",
    "Verif.nochk_mtx_gram_schmidt",
    "Verif.nochk_mtx_cols_norm",
    "Verif.nochk_mtx_cholesky",
    "Verif.nochk_mtx_balance",
    "Verif.nochk_mtx_householder",
    "Verif.nochk_mtx_qrd",
    "Verif.nochk_mtx_qrd_iter",
    "Verif.nochk_mtx_eigenvalues",
    "Verif.nochk_mtx_eigenvectors",
    "Verif.nochk_mtx_svd_partial",
    "Verif.nochk_mtx_pinv_partial",
    "Verif.nochk_mtx_svd_correct",
    "Verif.nochk_mtx_pinv_correct_partial",
    "Verif.nochk_cal_rot_mtx",
    "Verif.nochk_cal_rot_axis_angle",
    "Verif.nochk_cal_corr_vec",
    "Verif.nochk_cal_magn",
    "Verif.calTilt_nochk",
    "Verif.nochk_cal_madg",
    "Verif.nochk_cal_mahn",
    "Verif.nochk_cal_magn_fast_partial",
    "Verif.nochk_clr_xyz_rgb",
    "Verif.nochk_clr_ct_rgb",
    "Verif.nochk_fus_init",
    "Verif.nochk_fus_mahn_feed",
    "Verif.nochk_fus_madg_feed",
    "Verif.nochk_fus_comp_feed",
    "Verif.nochk_fus_saam_feed",
    "Verif.nochk_fus_aqua_feed",
    "Verif.nochk_fus_kalm_feed_partial",
    "Verif.nochk_kalm_feed_fails",
    "Verif.nochk_quat_exp_log_pow",
    "Verif.nochk_quat_rot",
    "Verif.nochk_quat_lerp",
    "Verif.nochk_quat_slerp",
    "Verif.nochk_quat_from_ang_vel",
    "Verif.nochk_quat_from_ang_mom",
    "Verif.nochk_quat_to_rot_mtx",
    "Verif.nochk_quat_from_rot_mtx",
    "Verif.nochk_quat_to_axis_angle",
    "Verif.nochk_quat_from_axis_angle",
    "Verif.nochk_att_from_accel",
    "Verif.nochk_att_from_accelmag",
    "Verif.nochk_att_accel_angle",
    "Verif.nochk_comp_dms_to_dd",
    "Verif.nochk_comp_magn_north",
    "Verif.nochk_comp_geo_north",
    "Verif.nochk_prob_uni",
    "Verif.nochk_prob_uni_mean",
    "Verif.nochk_prob_uni_var",
    "Verif.nochk_prob_erf_inv",
    "Verif.nochk_prob_normal_cdf_inv",
    "Verif.nochk_prob_binomial_coef",
    "Verif.nochk_prob_binomial",
    "Verif.nochk_prob_binomial_mean",
    "Verif.nochk_prob_binomial_var",
    "Verif.nochk_prob_entropy",
    "Verif.nochk_prob_bayes",
    "Verif.nochk_phy_mass_center",
    "Verif.nochk_sta_percentile",
    "Verif.nochk_sta_quartiles",
    "Verif.nochk_sta_trim_mean",
    "Verif.nochk_sta_weighted_mean",
    "Verif.nochk_sta_time_weighted_mean",
    "Verif.nochk_sta_weighted_median",
    "Verif.nochk_sta_mode",
    "Verif.nochk_sta_demean",
    "Verif.nochk_sta_mean_abs_dev",
    "Verif.nochk_sta_var",
    "Verif.nochk_sta_sta_err",
    "Verif.nochk_sta_covar",
    "Verif.nochk_sta_covar_mtx",
    "Verif.nochk_sta_linear_reg",
    "Verif.nochk_sta_mult_linear_reg",
    "Verif.nochk_sta_weighted_mult_linear_reg",
    "Verif.nochk_sta_quad_fit"
   ],
   "note": "Vectors, matrices, decompositions, statistics, quaternions, attitude, compass, probability, mass centre, the six filters, calibration and RGB conversions: for every accepted call, except get_subset, reduce, adjoint, gauss_reduc and the Kalman feed, where the claim is false and is proved on the intended shapes, and svd/pinv, which ignore the results of the eigenvector function and are covered when it finds full sets (always under the assumptions of mtx_svd_correct). zsl_fus_cal_magn_fast ignores the code of the Cholesky decomposition and is covered for fits with real coefficients."
  },
  {
   "property": "C148",
   "status": "proved",
   "theorems": [
    "Verif.quat_exp_log_pow_safe",
    "Verif.quat_from_ang_vel_safe",
    "Verif.quat_from_ang_mom_safe",
    "Verif.quat_to_rot_mtx_safe",
    "Verif.quat_from_rot_mtx_safe",
    "Verif.quat_axis_angle_safe",
    "Verif.att_from_accel_safe",
    "Verif.att_from_accelmag_safe",
    "Verif.att_accel_angle_safe",
    "Verif.comp_north_safe",
    "Verif.mahn_feed_safe",
    "Verif.madg_feed_safe",
    "Verif.comp_feed_safe",
    "Verif.saam_feed_safe",
    "Verif.aqua_feed_safe",
    "Verif.kalm_feed_safe"
   ],
   "note": "For every scalar type. SAAM needs both readings and the first call of AQUA its accelerometer: without them the code dereferences NULL (saam_null_ub, aqua_first_null_ub)."
  },
  {
   "property": "C149",
   "status": "proved",
   "theorems": [
    "Verif.sta_mean_safe",
    "Verif.sta_weighted_mean_safe",
    "Verif.sta_demean_safe",
    "Verif.sta_mean_abs_dev_safe",
    "Verif.sta_var_safe",
    "Verif.sta_covar_safe",
    "Verif.sta_covar_mtx_safe",
    "Verif.sta_linear_reg_safe",
    "Verif.sta_mode_safe",
    "Verif.sta_mode_size",
    "Verif.sta_mult_linear_reg_safe",
    "Verif.sta_weighted_reg_safe",
    "Verif.sta_quad_fit_safe",
    "Verif.prob_entropy_safe",
    "Verif.interp_find_x_safe",
    "Verif.interp_arr_safe",
    "Verif.interp_cubic_calc_safe",
    "Verif.interp_cubic_arr_safe",
    "Verif.cal_rot_mtx_safe",
    "Verif.cal_rot_axis_angle_safe",
    "Verif.cal_corr_vec_safe",
    "Verif.cal_gain_safe",
    "Verif.cal_magn_fast_safe",
    "Verif.cal_magn_safe",
    "Verif.phy_networks_safe",
    "Verif.phy_mass_center_safe",
    "Verif.clr_spd_xyz_safe",
    "Verif.clr_ct_xyz_safe",
    "Verif.clr_norm_spd_safe",
    "Verif.clr_xyz_rgbf_safe",
    "Verif.clr_ct_rgbf_safe"
   ],
   "note": "For every scalar type. zsl_fus_cal_magn under the hypothesis that its three sorts stay within their buffers; the other functions that sort are outside the claim (C12). Interpolation searches use the law that a number neither above nor below another, but comparable with it, is equal to it."
  },
  {
   "property": "C150",
   "status": "proved",
   "theorems": [
    "Verif.mes_header_size",
    "Verif.mes_get_set_same",
    "Verif.mes_get_set_other",
    "Verif.mes_ext",
    "Verif.mes_words",
    "Verif.mes_enums",
    "Verif.mes_units_grouped"
   ],
   "note": "For little-endian targets whose ABI allocates bit-fields from the least significant bit."
  },
  {
   "property": "C151",
   "status": "partial",
   "theorems": [
    "Verif.instr_cycles_partial",
    "Verif.instr_cycles_wrap_wrong"
   ],
   "note": "Proved when the counter does not pass its end (instr_cycles_partial). False otherwise: every wrap-around loses one cycle (instr_cycles_wrap_wrong)."
  },
  {
   "property": "C152",
   "status": "proved",
   "theorems": [
    "Verif.vec_print_correct",
    "Verif.mtx_print_correct",
    "Verif.quat_eul_print",
    "Verif.quat_eul_print_text"
   ],
   "note": "The conversion of numbers to text is left to the C library."
  },
  {
   "property": "C153",
   "status": "partial",
   "theorems": [
    "Verif.madg_tilts_further",
    "Verif.madg_tilts_back_partial",
    "Verif.madg_jacobian_gravity",
    "Verif.madg_jacobian_field_iff",
    "Verif.madg_tilts_further_any",
    "Verif.madg_tilts_back_any_partial",
    "Verif.madg_step_sign",
    "Verif.madg_works_turned_round"
   ],
   "note": "Refuted: the Jacobian of the gravity part is the derivative for the inverse rotation [madg_jacobian_gravity]; a feed tilts a level device further from every tilt below 60 degrees about any horizontal axis [madg_tilts_further_any]; three entries of the magnetic Jacobian are the derivative of neither rotation [madg_jacobian_field_iff]. For a level device and every attitude the direction of a small step is decided exactly: away from level if cos(tilt) (1 + cos(heading)) > 1, towards it if less than 1 [madg_step_sign]; it holds for estimates turned by more than 90 degrees about the vertical [madg_works_turned_round] and from 60 to 180 degrees about horizontal axes [madg_tilts_back_any_partial]. Missing: readings of a device that is not level; the code violates the full statement."
  },
  {
   "property": "C154",
   "status": "partial",
   "theorems": [
    "Verif.erf_inv_accurate",
    "Verif.normal_quantile_accurate",
    "Verif.erf_inv_mono_partial",
    "Verif.erf_inv_nearly_mono",
    "Verif.erf_inv_not_mono",
    "Verif.erf_inv_far_tail"
   ],
   "note": "Accuracy: erf_inv_accurate for every argument, normal_quantile_accurate for every mean, deviation and probability. Order: erf_inv_mono_partial inside each of the two ranges, erf_inv_nearly_mono everywhere up to 0.00000015; erf_inv_not_mono proves that order fails where the polynomials meet. erf_inv_far_tail: at 1 - 1e-15 the result is above 18, the true inverse below 6."
  },
  {
   "property": "C155",
   "status": "proved",
   "theorems": [
    "Verif.cct_round_trip",
    "Verif.cct_round_trip_steps",
    "Verif.cct_round_trip_coarse"
   ],
   "note": "2 degree observer, exact arithmetic; all temperatures from 1000 K to the row of 19986 K. The steps of the result are part of the statement."
  },
  {
   "property": "C156",
   "status": "partial",
   "theorems": [
    "Verif.lef_rises",
    "Verif.lef_falls",
    "Verif.lef_photopic_unit_partial",
    "Verif.lef_scotopic_not_unit",
    "Verif.lef_photopic_observer",
    "Verif.ybar_unimodal",
    "Verif.observer_bump"
   ],
   "note": "All but the upper bound for the dark-adapted function, which is refuted (998 at 505 nm)."
  },
  {
   "property": "C157",
   "status": "proved",
   "theorems": [
    "Verif.mccamy_round_trip",
    "Verif.mccamy_round_trip_warm",
    "Verif.mccamy_round_trip_hot",
    "Verif.mccamy_round_trip_all",
    "Verif.mccamy_round_trip_cool"
   ],
   "note": "2 degree observer, exact arithmetic. mccamy_round_trip_hot and mccamy_round_trip_cool prove how far off the formula is outside the range; nothing is claimed between 1180 K and 1800 K and between 12500 K and 16300 K."
  },
  {
   "property": "C158",
   "status": "proved",
   "theorems": [
    "Verif.mtx_cholesky_backward",
    "Verif.mtx_cholesky_success",
    "Verif.mtx_cholesky_rounding",
    "Verif.mtx_cholesky_breakdown"
   ],
   "note": "mtx_cholesky_rounding, mtx_cholesky_success, mtx_cholesky_backward for every size and every rounding with bounded relative error; overflow and underflow are excluded by the scalar model (FX). mtx_cholesky_breakdown shows that the margin cannot be dropped."
  },
  {
   "property": "C159",
   "status": "proved",
   "theorems": [
    "Verif.mtx_deter_rounding",
    "Verif.mtx_deter_3x3_rounding",
    "Verif.mtx_deter_sign",
    "Verif.mtx_deter_integers",
    "Verif.mtx_adjoint_3x3_rounding",
    "Verif.mtx_adjoint_rounding",
    "Verif.mtx_inv_3x3_rounding",
    "Verif.mtx_inv_3x3_singular_missed"
   ],
   "note": "any size, any rounding; the case the code gets wrong (a singular matrix not recognised) is proved as mtx_inv_3x3_singular_missed"
  },
  {
   "property": "C160",
   "status": "proved",
   "theorems": [
    "Verif.vec_elementwise_integers",
    "Verif.vec_dot_integers",
    "Verif.vec_sum_of_sqrs_integers",
    "Verif.vec_cross_integers",
    "Verif.mtx_elementwise_integers",
    "Verif.mtx_mult_integers",
    "Verif.mtx_adjoint_3x3_integers",
    "Verif.mtx_inv_3x3_integers",
    "Verif.quat_mult_integers",
    "Verif.quat_conj_scale_integers",
    "Verif.quat_chain_integers"
   ],
   "note": "any size, any precision"
  },
  {
   "property": "C161",
   "status": "proved",
   "theorems": [
    "Verif.quat_mult_norm_rounding",
    "Verif.quat_inv_rounding",
    "Verif.quat_diff_rounding",
    "Verif.quat_rot_rounding",
    "Verif.quat_to_rot_mtx_rounding"
   ],
   "note": "Quaternion inverse, product, difference, rotation and rotation matrix with rounding errors, in terms of lengths of quaternions."
  },
  {
   "property": "C162",
   "status": "proved",
   "theorems": [
    "Verif.quat_from_ang_vel_rounding",
    "Verif.gyro_integration_rounding",
    "Verif.gyro_million_double"
   ],
   "note": "One step for all rates and durations, then all histories by induction."
  },
  {
   "property": "C163",
   "status": "proved",
   "theorems": [
    "Verif.mahn_feed_rounding",
    "Verif.mahn_history_rounding",
    "Verif.madg_feed_rounding",
    "Verif.madg_history_rounding",
    "Verif.comp_feed_rounding",
    "Verif.comp_zero_rounding",
    "Verif.comp_history_rounding"
   ],
   "note": "Mahony for all non-negative gains, Madgwick for gains up to half the frequency (for larger gains the attitude can vanish, see C63), complementary for all weights (the attitude can vanish, see C63)."
  },
  {
   "property": "C164",
   "status": "proved",
   "theorems": [
    "Verif.quat_lerp_rounding",
    "Verif.quat_lerp_rounding_near",
    "Verif.quat_chain_rounding",
    "Verif.quat_chain_million_double"
   ],
   "note": "LERP and chains of products with rounding"
  },
  {
   "property": "C165",
   "status": "proved",
   "theorems": [
    "Verif.quat_from_euler_rounding",
    "Verif.quat_from_euler_unit_rounding",
    "Verif.quat_from_axis_angle_rounding",
    "Verif.quat_from_angles_double"
   ],
   "note": "For every library with the stated accuracy of sine and cosine"
  },
  {
   "property": "C166",
   "status": "partial",
   "theorems": [
    "Verif.saam_parallel_nan",
    "Verif.saam_feed_numbers_partial"
   ],
   "note": "Numbers for readings that are not parallel up to 17 roundings; refuted for parallel readings in double precision (saam_parallel_nan)."
  },
  {
   "property": "C167",
   "status": "partial",
   "theorems": [
    "Verif.att_accel_angle_argument",
    "Verif.att_accel_angle_rounding_partial",
    "Verif.att_accel_angle_same_nan"
   ],
   "note": "Cosine of the returned angle right up to 13 roundings for readings that are not parallel; refuted for a reading with itself in double precision (att_accel_angle_same_nan)."
  },
  {
   "property": "C168",
   "status": "proved",
   "theorems": [
    "Verif.nearest_sqrt_sq",
    "Verif.vec_norm_dominates",
    "Verif.quat_to_unit_components",
    "Verif.quat_to_axis_angle_numbers",
    "Verif.quat_log_numbers"
   ],
   "note": "All quaternions and vectors of representable numbers, any number of bits; ignores overflow and underflow like the other rounding claims."
  },
  {
   "property": "C169",
   "status": "proved",
   "theorems": [
    "Verif.ohno_duv_agree",
    "Verif.ohno2011_join",
    "Verif.ohno2011_last_correction"
   ],
   "note": "Range of angles 1.65 to 2.88; last correction for raw temperatures from 1000 K to 20000 K."
  },
  {
   "property": "C170",
   "status": "partial",
   "theorems": [
    "Verif.flat_light_white",
    "Verif.xbar_shape_partial",
    "Verif.zbar_shape_partial",
    "Verif.observer_step"
   ],
   "note": "The 2 degree table breaks the shape at 380 nm (observer_dip), 630 nm (observer_step) and 765 nm (observer_bump); the 10 degree table has it everywhere."
  },
  {
   "property": "C171",
   "status": "proved",
   "theorems": [
    "Verif.interp_cubic_unique",
    "Verif.interp_cubic_exact",
    "Verif.interp_cubic_accuracy",
    "Verif.interp_lin_y_arr_accuracy",
    "Verif.interp_nn_arr_accuracy"
   ],
   "note": "Exact arithmetic; the linear and nearest-neighbour tables have gaps of at least 1e-6 (the code rejects closer points)."
  },
  {
   "property": "C172",
   "status": "proved",
   "theorems": [
    "Verif.sta_mean_moves",
    "Verif.sta_weighted_mean_moves",
    "Verif.sta_percentile_moves",
    "Verif.sta_quart_moves",
    "Verif.sta_median_robust",
    "Verif.sta_mean_not_robust"
   ],
   "note": "Percentiles, median and quartiles for data that zsl_vec_sort sorts (SortOK, see C12); exact arithmetic."
  },
  {
   "property": "C173",
   "status": "proved",
   "theorems": [
    "Verif.sta_order",
    "Verif.sta_linear_reg_order",
    "Verif.sta_percentile_order",
    "Verif.sta_units",
    "Verif.sta_linear_reg_units"
   ],
   "note": "exact arithmetic"
  }
 ]
}