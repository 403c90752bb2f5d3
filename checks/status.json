{
 "C04": {
  "status": "partial",
  "note": "zsl_vec_sum starts from the old value of its output; the plain-sum claim is proved when the output starts at 0 and refuted otherwise."
 },
 "C08": {
  "status": "partial",
  "note": "Correct when output and input are distinct; the in-place call is refuted (vec_cross_in_place_wrong)."
 },
 "C12": {
  "status": "partial",
  "note": "zsl_vec_sort is a permutation and sorted when distinct values lie more than 1e-5 apart (vec_sort_partial); its exact behaviour is proved for every input (vec_sort_exact). For all finite data it either stores the sorted form of a vector within 1e-5 of the data or overruns the output (vec_sort_dichotomy); it does the former whenever closeness is transitive on the data (vec_sort_near). Negations: close values are merged and tiny ones replaced by zero (vec_sort_tiny), and the buffer is read or written past its end (vec_sort_overread, vec_sort_overrun, vec_sort_empty)."
 },
 "C17": {
  "status": "partial",
  "note": "All unary operations and the add, sub, mult, div binary operations are proved for every shape. The switch of zsl_mtx_binary_op has no break from MEAN on, so every later operation stores the result of the last case (mtx_binary_op_fallthrough, mtx_binary_op_mean_wrong)."
 },
 "C20": {
  "status": "partial",
  "note": "zsl_mtx_sum_rows_scaled_d checks the row index j against the number of columns: proved for square matrices and for j below both bounds; refuted by mtx_sum_rows_scaled_overread and mtx_sum_rows_scaled_refused."
 },
 "C23": {
  "status": "partial",
  "note": "The exact result is proved for every size: the adjugate for 3x3, its transpose for every other n >= 2 (mtx_adjoint_exact); the claim is refuted for n = 2 and undefined for n = 1."
 },
 "C26": {
  "status": "partial",
  "note": "zsl_mtx_inv treats elements below 1e-6 in absolute value as zero while reducing. Proved exact for every invertible matrix whose reduction meets no non-zero number below 1e-6 (mtx_inv_noTiny_partial), for integer matrices with bounded elements or minors (mtx_inv_entries_partial, mtx_inv_minors_partial) and for every 3x3 matrix (mtx_inv_size3). With such numbers the stored matrix is the exact inverse of a matrix within a stated distance, about 1e-6 times the row sum, of the input (mtx_inv_backward), without any assumption on the reduction if x.Ax >= mu x.x for a mu above 1e-6 by a stated amount (mtx_inv_coercive). The singular case is proved for every size (mtx_inv_singular); the general claim is refuted (mtx_inv_small_pivot)."
 },
 "C33": {
  "status": "partial",
  "note": "zsl_mtx_is_notneg and zsl_mtx_is_sym are proved for every matrix. zsl_mtx_is_equal compares rows+cols cells instead of rows*cols: exact behaviour proved (mtx_is_equal_iff), correct for 2x2 only (mtx_is_equal_partial), refuted for every larger shape (mtx_is_equal_wrong) and out of bounds for single rows (mtx_is_equal_overread)."
 },
 "C35": {
  "status": "partial",
  "note": "Proved whenever the inverse used inside is exact (mtx_vec_wedge_of_inv), in particular for bounded integer rows (mtx_vec_wedge_partial) and when the reduction meets no non-zero number below 1e-6 (mtx_vec_wedge_noTiny); with such numbers orthogonal up to a stated bound when no pivot is small (mtx_vec_wedge_near). Refuted in general because zsl_mtx_inv treats elements below 1e-6 as zero (mtx_vec_wedge_wrong)."
 },
 "C34": {
  "status": "partial",
  "note": "The claim is false: the guard (x < 1E-6) || (x > -1E-6) holds for every value, so a zero singular value becomes infinite (pinv_invert_zero_wrong). Exact behaviour of the inversion step proved for every matrix (pinv_invert_exact); correct when no singular value is zero (pinv_invert_partial)."
 },
 "C81": {
  "status": "partial",
  "note": "False in general: the locals row and col are used uninitialised, and for some contents the call never returns (mtx_balance_hangs_init). The exact condition on real contents of these locals under which it returns is proved (mtx_balance_returns_iff); it holds for all non-negative contents (mtx_balance_returns_nonneg), in particular zero (mtx_balance_terminates_partial)."
 },
 "C39": {
  "status": "partial",
  "note": "Proved for every table segment with distinct ordinates (interp_lin_x_partial); a horizontal segment is accepted and gives NaN with return code 0 (interp_lin_x_flat)."
 },
 "C40": {
  "status": "partial",
  "note": "The code compares x with 1.5*x1 rather than with the midpoint. Exact behaviour proved for the pair and for the table function (interp_nn_value, interp_nn_arr_value); correct under the stated side condition (interp_nn_partial) and refuted otherwise (interp_nn_wrong, interp_nn_arr_wrong)."
 },
 "C42": {
  "status": "partial",
  "note": "Weighted mean proved for all vectors of equal size. A size mismatch is refused only if the weight buffer holds as many cells as there are data (sta_weighted_mean_mismatch_partial), otherwise it is read past its end (sta_weighted_mean_overread). Trimmed mean: complete description for 0 < p <= 50 (sta_trim_mean_exact); right when two or more data are kept (sta_trim_mean_partial), wrong when one is kept (sta_trim_mean_wrong), undefined when none is kept (sta_trim_mean_empty) or p = 0 (sta_trim_mean_zero)."
 },
 "C44": {
  "status": "proved",
  "note": ""
 },
 "C45": {
  "status": "partial",
  "note": "Least squares and exact recovery proved in full; the correlation lies in [-1,1] when y is not constant (sta_linear_reg_corr_partial) and is NaN with return code 0 when it is (sta_linear_reg_corr_const)."
 },
 "C47": {
  "status": "partial",
  "note": "Absolute and standard error proved. The relative error is the percentage of the signed expected value: right for positive expected values (sta_rel_err_partial), negative for negative ones (sta_rel_err_neg), infinite or NaN for zero (sta_rel_err_zero)."
 },
 "C46": {
  "status": "partial",
  "note": "Proved exactly for 0 < p < 100 and data that zsl_vec_sort sorts (see C12), and within 1e-5 for all data on which closeness is transitive (sta_percentile_near, sta_quart_near). For p = 0 and p = 100 a cell outside the sorted copy is read (sta_percentile_zero, sta_percentile_hundred); percentiles of data below 1e-5 are zero, hence possibly outside the data (sta_percentile_tiny)."
 },
 "C48": {
  "status": "partial",
  "note": "The claim is false: on success the weights are replaced by their reciprocals (sta_weighted_reg_clobbers). The rejecting paths leave them alone."
 },
 "C83": {
  "status": "partial",
  "note": "Mean absolute deviation proved for all data; range and median absolute deviation exactly for data that zsl_vec_sort sorts (see C12) and within 1e-5 (2e-5 for the range) for all data on which closeness is transitive."
 },
 "C84": {
  "status": "partial",
  "note": "Minimality, coefficient of determination and refusals proved for every shape on condition that the inverse computed inside is exact (see C26), in particular when the reduction meets no non-zero number below 1e-6 (sta_mult_linear_reg_noTiny); unconditionally for two predictors. For every design whose normal matrix has its eigenvalues above a stated bound the residuals are within a stated distance of the minimum (sta_mult_linear_reg_near, sta_weighted_reg_near)."
 },
 "C49": {
  "status": "proved",
  "note": "Density, distribution function and moments are stated with Lebesgue integrals."
 },
 "C50": {
  "status": "proved",
  "note": "Overflow is proved for every n >= 13; the coefficient is undefined for 0 <= k <= n, n >= 13."
 },
 "C51": {
  "status": "partial",
  "note": "Everything holds for 0 <= x <= n <= 12 and x < 0 (cdf), and beyond n for p < 1. For p = 1 and x > n the pdf is a NaN (binomial_pdf_nan)."
 },
 "C52": {
  "status": "proved",
  "note": "The set of accepted inputs is characterised exactly."
 },
 "C53": {
  "status": "partial",
  "note": "Correct for full support; any zero probability makes the result a NaN with return code 0 (entropy_zero_outcome), in particular the certain outcome (entropy_certain_nan)."
 },
 "C54": {
  "status": "proved",
  "note": "The pdf uses the constants of consts.h for pi and e; erf_inv also has the sign of its argument."
 },
 "C85": {
  "status": "proved",
  "note": "Stated with Mathlib's gaussianPDFReal."
 },
 "C55": {
  "status": "proved",
  "note": "exact scalars; aliasing for every scalar type"
 },
 "C56": {
  "status": "proved",
  "note": ""
 },
 "C57": {
  "status": "proved",
  "note": ""
 },
 "C58": {
  "status": "proved",
  "note": "a pure argument is one with |r| <= 1e-6 (the code's test); rigid motion proved for r = 0"
 },
 "C59": {
  "status": "partial",
  "note": "from_rot_mtx loses signs of half turns (witness proved) and of components with |4 r x| <= 1e-6; round trips proved outside these cases. to_rot_mtx does not normalise (witness proved)"
 },
 "C60": {
  "status": "proved",
  "note": "slerp correctness proved for unit inputs that are not nearly parallel or opposite; the nearly parallel case returns the start"
 },
 "C61": {
  "status": "proved",
  "note": ""
 },
 "C62": {
  "status": "proved",
  "note": ""
 },
 "C86": {
  "status": "partial",
  "note": "Exact outside the gimbal-lock band and in exact gimbal lock. Inside the band (1 - 2e-6 < |sin pitch| < 1) the code sets yaw to 0: the exact statement is refuted there (quat_euler_roundtrip_inexact, quat_euler_yaw_lost) and the round trip is within 3e-3 for every quaternion (quat_euler_roundtrip_close)."
 },
 "C87": {
  "status": "partial",
  "note": "false for the identity rotation (zero axis, rebuilt as the zero quaternion; NaN axis for -1), both proved"
 },
 "C74": {
  "status": "proved",
  "note": ""
 },
 "C75": {
  "status": "proved",
  "note": ""
 },
 "C76": {
  "status": "partial",
  "note": "Time, trajectory, range and launch velocity are proved. False in general: the time of flight can be negative (proj_time_negative), the range ignores the error of the time (proj_range_ignores_error), straight down is reported as straight up (proj_angle_vertical)."
 },
 "C77": {
  "status": "proved",
  "note": "An empty list gives infinity for reciprocal sums (res_empty)."
 },
 "C78": {
  "status": "proved",
  "note": ""
 },
 "C79": {
  "status": "partial",
  "note": "All helpers have a theorem. The guards of the gravitation, sound level/intensity/shock wave, Bohr velocity/energy helpers are incomplete and the refractive index is inverted (refutations next to the _partial theorems)."
 },
 "C80": {
  "status": "proved",
  "note": ""
 },
 "C88": {
  "status": "proved",
  "note": ""
 },
 "C89": {
  "status": "proved",
  "note": ""
 },
 "C90": {
  "status": "proved",
  "note": ""
 },
 "C91": {
  "status": "proved",
  "note": ""
 },
 "C92": {
  "status": "proved",
  "note": ""
 },
 "C93": {
  "status": "proved",
  "note": ""
 },
 "C63": {
  "status": "partial",
  "note": "Mahony: every history. Madgwick: every history with beta at most 0.999999 freq; false for beta = freq (proved). Complementary filter: unit or zero; zero does occur (proved). SAAM: unit or zero. AQUA: unit outside singular readings, NaN for good after one (proved). Kalman: unit or zero in every history of real readings (kalm_history_unit)."
 },
 "C64": {
  "status": "proved",
  "note": "For a constant nonnegative limit and an initial feedback within it; any single accepted feed with an accelerometer reading brings the feedback within the limit."
 },
 "C65": {
  "status": "partial",
  "note": "Proved for the init functions and the feeds of Mahony, Madgwick, complementary, and AQUA after its first feed. False for SAAM with a NULL reading and for the first feed of AQUA (both proved). The Kalman filter is C111."
 },
 "C96": {
  "status": "partial",
  "note": "False for every field with a negative y component: the heading of the opposite field is returned (atan2 used where the source formula has arctan of the quotient). Proved for the rest."
 },
 "C94": {
  "status": "partial",
  "note": "Refuted for Mahony (every attitude, every reading that does not already agree, every gain below 2 freq) and for Madgwick (at the upright attitude, every gain); proved for AQUA."
 },
 "C98": {
  "status": "partial",
  "note": "Proved for readings whose SAAM quaternion has length at least 1e-6. False for level readings (zero quaternion) and a NULL pointer (undefined behaviour), both proved."
 },
 "C99": {
  "status": "partial",
  "note": "Proved outside the singular readings (acceleration seen exactly upside down, field seen vertical or due south). At an upside down reading the attitude becomes NaN for good, proved."
 },
 "C69": {
  "status": "proved",
  "note": "For real XYZ values. NaN input is undefined behaviour in the 8-bit conversion (see C100)."
 },
 "C70": {
  "status": "partial",
  "note": "Proved for every spectrum with a nonzero Y response. A dark spectrum is accepted with NaN (spd_xyz_dark)."
 },
 "C100": {
  "status": "partial",
  "note": "Proved for every nonzero temperature. At zero kelvin the XYZ conversion succeeds with NaN and the 8-bit RGB conversion is undefined (ct_xyz_zero, ct_rgb8_zero_ub)."
 },
 "C101": {
  "status": "proved",
  "note": "For every positive temperature whose successor on the locus differs (planckUv_moves shows there are some) and off the singular line of the xyY conversion."
 },
 "C72": {
  "status": "proved",
  "note": ""
 },
 "C102": {
  "status": "partial",
  "note": "The formula as coded is proved for every chromaticity, and near the locus the result stays between the neighbours; the triangular solution is refuted (ohno2014_not_triangular, ohno2014_far): squared distances are squared again, so that close to the locus the position between rows has no influence (ohno2014_insensitive)."
 },
 "C103": {
  "status": "proved",
  "note": "Ohno 2011 where its intermediate values are numbers (ohno2011_meets shows such a chromaticity)."
 },
 "C104": {
  "status": "partial",
  "note": "Proved for the 2 degree observer and the nine RGB spaces whose white is in the list. No illuminant has a 10 degree entry (illum_get_10deg), the sRGB white is flagged (d65_flagged), and the 2 degree z function has a dip at 380 nm (observer_dip)."
 },
 "C66": {
  "status": "partial",
  "note": "Refuted: for every real data set both searches return the gain 0, and a concrete data set is given for each search where another candidate has a strictly smaller accumulated error. The refusals and the absence of undefined behaviour are proved."
 },
 "C67": {
  "status": "proved",
  "note": ""
 },
 "C108": {
  "status": "partial",
  "note": "Optimality and exact recovery hold whenever the inverse computed inside is exact (C26), which is proved for integer points with leading minors up to a million and when the reduction meets no non-zero number below 1e-6 (sta_quad_fit_noTiny); up to a stated distance for every set of points whose normal matrix has its eigenvalues above a stated bound (sta_quad_fit_near). Refuted for underdetermined data: fewer than nine points are accepted and a wrong quadric is stored (sta_quad_fit_one_point); an empty set is undefined behaviour."
 },
 "C109": {
  "status": "partial",
  "note": "All points of the fitted ellipsoid get the same magnitude, but it is me times the square root of 1 plus the offset term, not me; cal_magn_fast_radius gives data where the squared magnitude is 5/4 of me squared. The fit itself is taken from C108."
 },
 "C110": {
  "status": "partial",
  "note": "Symmetry holds for all inputs and every scalar type. The exact result is proved for readings on a sphere that include the ends of the axes, and for all readings that are symmetric about the origin (zero offset, explicit recurrence for the matrix). Refuted: for readings on a sphere without the ends of the axes the matrix is not the identity (cal_magn_pair, cal_magn_not_identity). Other readings are not covered."
 },
 "C105": {
  "status": "partial",
  "note": "Proved for times that zsl_vec_sort sorts (C12). One sample gives NaN (sta_time_weighted_mean_single), samples at different times all below 1e-5 give NaN with success reported (sta_time_weighted_mean_tiny) and no samples is undefined behaviour."
 },
 "C106": {
  "status": "partial",
  "note": "Proved for data given in ascending order. Refuted otherwise: the weights are not moved with the data (sta_weighted_median_order)."
 },
 "C107": {
  "status": "partial",
  "note": "Proved for data whose distinct values, and zero, are at least 1e-5 apart. Refuted below the tolerance (sta_mode_small)."
 },
 "C111": {
  "status": "partial",
  "note": "Proved once the filter has started, and for negative variances always. False for the first call: kalm_first_rejected shows that it resets the covariance and marks the filter as started."
 },
 "C112": {
  "status": "partial",
  "note": "All equations proved, with C the result of the library's inversion of S; H is proved to be the derivative of the directions seen from the attitude. Negations: NaN attitude when field and acceleration are parallel at the first call (kalm_start_parallel), a zero attitude is never left (kalm_zero_stuck), covariance and attitude are propagated with different maps (kalm_transition_mismatch)."
 },
 "C113": {
  "status": "partial",
  "note": "Proved whenever the inversion of S is exact, in particular when its reduction meets no non-zero number below 1e-6 (kalm_covariance_noTiny_partial). False in general: kalm_covariance_asymmetric. For variances above a stated bound the stored covariance is within a stated distance of a positive semidefinite one that does not exceed the prediction (kalm_covariance_near_var)."
 },
 "C114": {
  "status": "partial",
  "note": "False: kalm_agreeing_readings gives an attitude, covariance and readings for which the attitude moves, under both conventions for the attitude; the predicted measurement is doubled in the code."
 },
 "C115": {
  "status": "proved",
  "note": "For every scalar type (no arithmetic law used) and every combination of sizes. zsl_vec_to_unit and zsl_vec_rev need at least one element; sorting is C13/C64."
 },
 "C116": {
  "status": "proved",
  "note": "For every scalar type and combination of shapes; determinant, adjoint, minor and elimination need square matrices, and mtx_deter_overread shows that the determinant of a 2x1 matrix reads past the buffer."
 },
 "C117": {
  "status": "partial",
  "note": "Proved for every scalar type for all listed functions; balancing need not end, so it and its callers are stated for runs whose balancing returns. zsl_mtx_eigenvectors stores more columns than the matrix has (mtx_eigenvectors_overflow), so its safety theorem needs a larger output buffer."
 },
 "C118": {
  "status": "partial",
  "note": "The stored values are proved for every run that returns (mtx_eigenvalues_triangular). That it returns is false in general; the exact condition on the uninitialised locals of the balancing step is proved (mtx_eigenvalues_returns_iff)."
 },
 "C119": {
  "status": "proved",
  "note": "Given what zsl_mtx_eigenvalues returned (C118 for triangular and diagonal matrices); the 1e-6 tests of the elimination are excluded by the NoTiny hypothesis of Spec/Elim."
 },
 "C120": {
  "status": "partial",
  "note": "Proved for tall and square matrices of any rank whose eigenvalues the eigenvalue function delivers exactly, descending and separated (mtx_svd_correct; instances for all rectangular diagonal matrices: mtx_svd_diagonal). Negations: wide matrices read out of bounds (mtx_svd_wide); with eigenvalues not in descending order the product is not the input (mtx_svd_order). The convergence of the singular values is C134; that of the factors U and V is not proved."
 },
 "C121": {
  "status": "partial",
  "note": "Full column rank: mtx_pinv_correct_partial. Negations: every rank deficient matrix yields only infinities and NaNs (mtx_pinv_singular); wide matrices read out of bounds (mtx_pinv_wide)."
 },
 "C122": {
  "status": "partial",
  "note": "lat2g: proved for the northern hemisphere (sh_lat2g_north_partial); false on the equator and south of it, where every point is refused (sh_lat2g_south); altitudes from -500 m to 0 pass the check of the command and fail in the library (sh_lat2g_below_sea). ct2rgb and ct2rgbf: proved for temperatures below 2^32 K, undefined conversion above (sh_ct2rgb_huge)."
 },
 "C123": {
  "status": "proved",
  "note": "The functions are plain C and are modelled separately."
 },
 "C124": {
  "status": "proved",
  "note": "Model Base/FX.lean: every operation correctly rounded with relative error u; overflow and underflow excluded. Instances: round to nearest with p bits (Spec/Nearest.lean)."
 },
 "C125": {
  "status": "proved",
  "note": "Same floating point model as C124."
 },
 "C126": {
  "status": "proved",
  "note": "Same floating point model as C124."
 },
 "C127": {
  "status": "proved",
  "note": "Same floating point model as C124. Exactness at the first point needs an ordinate that is a floating point number."
 },
 "C128": {
  "status": "proved",
  "note": "Same floating point model as C124."
 },
 "C129": {
  "status": "partial",
  "note": "Proved for abscissae that are spread widely enough (sta_linear_reg_rounding_partial). False in general: in double precision the points (2^27, 0) and (2^27+1, 1) give an infinite slope (sta_linear_reg_cancels)."
 },
 "C130": {
  "status": "proved",
  "note": "Same floating point model as C124; fed_unitised holds for every scalar type."
 },
 "C131": {
  "status": "proved",
  "note": "Same floating point model as C124; relates the rounded run to the exact run, whose formulas are the subject of the other physics properties. Helpers calling sin, cos, pow, exp, log are not included."
 },
 "C132": {
  "status": "proved",
  "note": "Same floating point model as C124. The negative part: phy_thermo_cels_kel_cancels."
 },
 "C133": {
  "status": "partial",
  "note": "Proved for the QR iteration without further hypotheses (mtx_qrd_iter_converges, mtx_qrd_iter_converges_general). The eigenvalue function: for all contents of its uninitialised locals for which it returns (mtx_eigenvalues_converge, mtx_eigenvalues_converge_symm), and these contents are characterised exactly (mtx_eigenvalues_converge_distinct, mtx_eigenvalues_converge_symm_good); otherwise it hangs (C81). False with opposite eigenvalues: mtx_qrd_iter_stuck, mtx_eigenvalues_stuck. Open: matrices with complex eigenvalues or without a basis of eigenvectors."
 },
 "C134": {
  "status": "partial",
  "note": "For full column rank the singular values converge for all contents of the uninitialised locals with which the function returns (mtx_svd_sigma_converges_full). For every rank mtx_svd_sigma_converges_partial needs these locals to hold zero (C81) and speaks of runs that return."
 },
 "C135": {
  "status": "proved",
  "note": "For every run that returns (mtx_eigenvalues_certificate, mtx_eigenvalues_backward), with the Hessenberg form kept by the QR steps (mtx_qrd_keeps_hess, mtx_qrd_iter_keeps_hess). A matrix that passes the symmetry test gets no such check: mtx_eigenvalues_stuck (C133) shows a success return with wrong values."
 },
 "C136": {
  "status": "partial",
  "note": "The distance bound and the report of complex eigenvalues hold for every run that returns (mtx_eigenvalues_near, mtx_eigenvalues_complex), in terms of the balanced matrix; in terms of the input if the locals of the balancing step hold zero (mtx_eigenvalues_complex_partial). Eigenvalues closer to the real line than the bound are not covered."
 },
 "C137": {
  "status": "partial",
  "note": "Proved when the uninitialised locals of zsl_mtx_balance hold zero (mtx_balance_balances_partial). For other contents with which it returns, every row except the first is balanced (mtx_balance_returns_iff) and the first need not be (mtx_balance_first_row). A matrix within a factor of two is not changed (mtx_balance_keeps)."
 },
 "C37": {
  "status": "proved",
  "note": "For tables of 2^31 points or more the claim is false (interp_find_x_huge)."
 },
 "C138": {
  "status": "proved",
  "note": "Any format with overflow and gradual underflow (Base/BX.lean), in particular IEEE double and single (Spec/Ieee.lean)."
 },
 "C139": {
  "status": "partial",
  "note": "False in general: vec_norm_overflow, vec_to_unit_overflow, vec_norm_underflow, vec_to_unit_underflow, vec_project_overflow, vec_project_underflow, vec_dist_overflow give the results for data whose squares leave the range. Proved for data whose sum of squares stays in range: vec_norm_in_range_partial for every format, vec_norm_double_partial and vec_to_unit_double_partial in double precision for norms from 2^-400 to 2^500."
 },
 "C140": {
  "status": "partial",
  "note": "False in general: vec_ar_mean_overflow, sta_var_overflow. Proved for the mean if the sum of the absolute values stays in range (vec_ar_mean_in_range_partial)."
 },
 "C141": {
  "status": "partial",
  "note": "False in general: quat_overflow. Proved in double precision for magnitudes from 2e-6 to 2^500 (quat_to_unit_double_partial). Below 1e-6 the library returns zero by design (C56)."
 },
 "C142": {
  "status": "partial",
  "note": "SAAM: proved. Mahony, Madgwick, complementary: proved when all instances use one frequency and none is fed before its init; refuted for different frequencies. AQUA, Kalman: proved once one instance has been fed, for one frequency; refuted for first feeds."
 },
 "C143": {
  "status": "partial",
  "note": "Mahony, Madgwick, complementary, SAAM: proved. AQUA, Kalman: refuted (init does not reset the first-feed flag)."
 },
 "C144": {
  "status": "partial",
  "note": "Proved for all sequences of calls that do not interrupt one another (cubic_threads_partial). False otherwise: the search interval is kept in static variables (cubic_threads_interfere, cubic_interleaved_overread)."
 },
 "C145": {
  "status": "partial",
  "note": "Proved for all pointers: vector and matrix sums, differences and component-wise products, copies, matrix product, demeaning, Gram-Schmidt, column norms, balancing, Householder matrix, QR iteration, pseudo-inverse, minors, Gaussian elimination and element normalisation with separate companion, quaternion functions. Proved for separate objects, and false in place, for: sort, subset (overlap is undefined behaviour), sum and mean of vectors, projection over v, cross product over w, mode, covariance matrix, transpose (exact result: right iff symmetric), adjoint, 3x3 adjoint and inverse, inverse (always the identity), Cholesky, eigenvectors (return code), singular values with e = m or v = m (square, full rank), augmentation (always the identity), QR decomposition with q = r (only Q is kept), iterated reduction (one matrix for both placeholders, or the input as a placeholder). Missing: singular values with u equal to m (and v = m when not square or rank-deficient), and objects that overlap only in part."
 },
 "C03": {
  "status": "proved",
  "note": "All pointers, all sizes and contents, every scalar type; the values over the reals."
 },
 "C146": {
  "status": "partial",
  "note": "Complementary filter: converges at a geometric rate from every attitude that is not within 2e-12 of the opposite quaternion [comp_settles, comp_settles_rate]; a single feed may move the orientation away, because q and -q are not identified [comp_turns_away]. AQUA with the accelerometer: converges at the rate 1 - alpha for thresholds up to 1 - 1e-6 [aqua_settles]; with a threshold of 1 or more it stops short [aqua_stops_short]. Refuted for Mahony: the vertical tends to the opposite of the measured one [mahn_turns_over]. Refuted for Madgwick: an attitude that agrees with the reading is not kept [madg_not_kept], while Mahony and AQUA keep it, and from an estimate tilted about any horizontal axis a level device never becomes level [madg_never_level_any]. Not covered: limits for Madgwick from other attitudes, Kalman, AQUA with a magnetometer."
 },
 "C147": {
  "status": "partial",
  "note": "Vectors, matrices, decompositions, statistics, quaternions, attitude, compass, probability, mass centre, the six filters, calibration and RGB conversions: for every accepted call, except get_subset, reduce, adjoint, gauss_reduc and the Kalman feed, where the claim is false and is proved on the intended shapes, and svd/pinv, which ignore the results of the eigenvector function and are covered when it finds full sets (always under the assumptions of mtx_svd_correct). zsl_fus_cal_magn_fast ignores the code of the Cholesky decomposition and is covered for fits with real coefficients."
 },
 "C148": {
  "status": "proved",
  "note": "For every scalar type. SAAM needs both readings and the first call of AQUA its accelerometer: without them the code dereferences NULL (saam_null_ub, aqua_first_null_ub)."
 },
 "C149": {
  "status": "proved",
  "note": "For every scalar type. zsl_fus_cal_magn under the hypothesis that its three sorts stay within their buffers; the other functions that sort are outside the claim (C12). Interpolation searches use the law that a number neither above nor below another, but comparable with it, is equal to it."
 },
 "C150": {
  "status": "proved",
  "note": "For little-endian targets whose ABI allocates bit-fields from the least significant bit."
 },
 "C151": {
  "status": "partial",
  "note": "Proved when the counter does not pass its end (instr_cycles_partial). False otherwise: every wrap-around loses one cycle (instr_cycles_wrap_wrong)."
 },
 "C152": {
  "status": "proved",
  "note": "The conversion of numbers to text is left to the C library."
 },
 "C153": {
  "status": "partial",
  "note": "Refuted: the Jacobian of the gravity part is the derivative for the inverse rotation [madg_jacobian_gravity]; a feed tilts a level device further from every tilt below 60 degrees about any horizontal axis [madg_tilts_further_any]; three entries of the magnetic Jacobian are the derivative of neither rotation [madg_jacobian_field_iff]. For a level device and every attitude the direction of a small step is decided exactly: away from level if cos(tilt) (1 + cos(heading)) > 1, towards it if less than 1 [madg_step_sign]; it holds for estimates turned by more than 90 degrees about the vertical [madg_works_turned_round] and from 60 to 180 degrees about horizontal axes [madg_tilts_back_any_partial]. Missing: readings of a device that is not level; the code violates the full statement."
 },
 "C154": {
  "status": "partial",
  "note": "Accuracy: erf_inv_accurate for every argument, normal_quantile_accurate for every mean, deviation and probability. Order: erf_inv_mono_partial inside each of the two ranges, erf_inv_nearly_mono everywhere up to 0.00000015; erf_inv_not_mono proves that order fails where the polynomials meet. erf_inv_far_tail: at 1 - 1e-15 the result is above 18, the true inverse below 6."
 },
 "C155": {
  "status": "proved",
  "note": "2 degree observer, exact arithmetic; all temperatures from 1000 K to the row of 19986 K. The steps of the result are part of the statement."
 },
 "C156": {
  "status": "partial",
  "note": "All but the upper bound for the dark-adapted function, which is refuted (998 at 505 nm)."
 },
 "C157": {
  "status": "proved",
  "note": "2 degree observer, exact arithmetic. mccamy_round_trip_hot and mccamy_round_trip_cool prove how far off the formula is outside the range; nothing is claimed between 1180 K and 1800 K and between 12500 K and 16300 K."
 },
 "C158": {
  "status": "proved",
  "note": "mtx_cholesky_rounding, mtx_cholesky_success, mtx_cholesky_backward for every size and every rounding with bounded relative error; overflow and underflow are excluded by the scalar model (FX). mtx_cholesky_breakdown shows that the margin cannot be dropped."
 },
 "C159": {
  "status": "proved",
  "note": "any size, any rounding; the case the code gets wrong (a singular matrix not recognised) is proved as mtx_inv_3x3_singular_missed"
 },
 "C160": {
  "status": "proved",
  "note": "any size, any precision"
 },
 "C161": {
  "status": "proved",
  "note": "Quaternion inverse, product, difference, rotation and rotation matrix with rounding errors, in terms of lengths of quaternions."
 },
 "C162": {
  "status": "proved",
  "note": "One step for all rates and durations, then all histories by induction."
 },
 "C163": {
  "status": "proved",
  "note": "Mahony for all non-negative gains, Madgwick for gains up to half the frequency (for larger gains the attitude can vanish, see C63), complementary for all weights (the attitude can vanish, see C63)."
 },
 "C164": {
  "status": "proved",
  "note": "LERP and chains of products with rounding"
 },
 "C165": {
  "status": "proved",
  "note": "For every library with the stated accuracy of sine and cosine"
 },
 "C166": {
  "status": "partial",
  "note": "Numbers for readings that are not parallel up to 17 roundings; refuted for parallel readings in double precision (saam_parallel_nan)."
 },
 "C167": {
  "status": "partial",
  "note": "Cosine of the returned angle right up to 13 roundings for readings that are not parallel; refuted for a reading with itself in double precision (att_accel_angle_same_nan)."
 },
 "C168": {
  "status": "proved",
  "note": "All quaternions and vectors of representable numbers, any number of bits; ignores overflow and underflow like the other rounding claims."
 },
 "C169": {
  "status": "proved",
  "note": "Range of angles 1.65 to 2.88; last correction for raw temperatures from 1000 K to 20000 K."
 },
 "C170": {
  "status": "partial",
  "note": "The 2 degree table breaks the shape at 380 nm (observer_dip), 630 nm (observer_step) and 765 nm (observer_bump); the 10 degree table has it everywhere."
 },
 "C171": {
  "status": "proved",
  "note": "Exact arithmetic; the linear and nearest-neighbour tables have gaps of at least 1e-6 (the code rejects closer points)."
 },
 "C172": {
  "status": "proved",
  "note": "Percentiles, median and quartiles for data that zsl_vec_sort sorts (SortOK, see C12); exact arithmetic."
 },
 "C173": {
  "status": "proved",
  "note": "exact arithmetic"
 }
}