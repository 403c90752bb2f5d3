{"id": "C01", "title": "Subset extraction copies exactly the requested window", "statement": "zsl_vec_get_subset(v, offset, len, vsub) returns -EINVAL and writes nothing when offset >= v.sz or when vsub cannot hold the (truncated) window; otherwise it returns 0, vsub.sz becomes min(len, v.sz - offset) and vsub holds exactly v[offset .. offset+vsub.sz). No element outside either buffer is touched. A request whose offset+len wraps around size_t is rejected, never served from the wrong place.", "quantifier": "all vectors, offsets, lengths and output buffers, any scalar contents", "why_tests_cant": "all sizes and the wrap-around corner of size_t", "anchors": ["src/vectors.c:zsl_vec_get_subset"]}
{"id": "C02", "title": "Element-wise vector arithmetic is exact and total", "statement": "zsl_vec_add/sub (equal sizes), neg, scalar_add, scalar_mult and scalar_div (s != 0) return 0 and store exactly the component-wise result in every one of the first sz cells and nowhere else; size mismatch or division by zero returns -EINVAL and leaves every output unchanged. Adding then subtracting the same vector returns the original one.", "quantifier": "all vectors of all sizes, all contents", "why_tests_cant": "the claim is about every size and every content; tests sample a few", "anchors": ["src/vectors.c:zsl_vec_add", "src/vectors.c:zsl_vec_sub", "src/vectors.c:zsl_vec_neg", "src/vectors.c:zsl_vec_scalar_add", "src/vectors.c:zsl_vec_scalar_mult", "src/vectors.c:zsl_vec_scalar_div", "src/vectors.c:zsl_vec_copy", "src/vectors.c:zsl_vec_init", "src/vectors.c:zsl_vec_from_arr"]}
{"id": "C03", "title": "Vector and matrix sums may be computed in place", "statement": "zsl_vec_add/sub and zsl_mtx_add_d/sub_d give the same result whichever of their arguments share storage (output aliasing either input, or both inputs aliased): the output buffer ends up holding the component-wise result of the input values at the time of the call, and no other buffer changes.", "quantifier": "all aliasing patterns of the arguments, all sizes and contents", "why_tests_cant": "aliasing patterns times sizes times contents is unbounded", "anchors": ["src/vectors.c:zsl_vec_add", "src/vectors.c:zsl_vec_sub", "src/matrices.c:zsl_mtx_add_d", "src/matrices.c:zsl_mtx_sub_d"]}
{"id": "C04", "title": "Summing and averaging a list of vectors", "statement": "zsl_vec_sum(v, n, w) returns -EINVAL without writing when n = 0 or the sizes differ, otherwise w becomes the component-wise sum of the n vectors; zsl_vec_mean gives the component-wise mean.", "quantifier": "all lists of vectors, all prior contents of the output vector", "why_tests_cant": "depends on the prior contents of the output buffer, which tests always zero first", "anchors": ["src/vectors.c:zsl_vec_sum", "src/vectors.c:zsl_vec_mean"]}
{"id": "C05", "title": "Dot product, norm and distance obey the Euclidean laws", "statement": "zsl_vec_dot is the symmetric bilinear sum of products; zsl_vec_norm is >= 0, zero only for the zero vector, absolutely homogeneous and satisfies Cauchy-Schwarz; zsl_vec_dist is symmetric, zero exactly between equal vectors and satisfies the triangle inequality; dist returns NaN and dot returns -EINVAL on size mismatch.", "quantifier": "all finite real vectors of all sizes", "why_tests_cant": "universally quantified inequalities over reals", "anchors": ["src/vectors.c:zsl_vec_dot", "src/vectors.c:zsl_vec_norm", "src/vectors.c:zsl_vec_dist", "src/vectors.c:zsl_vec_sum_of_sqrs"]}
{"id": "C06", "title": "Projection leaves an orthogonal remainder", "statement": "For u != 0, zsl_vec_project(u, v, w) sets w to a multiple of u such that v - w is orthogonal to u, also when w is the same vector as u; projecting twice changes nothing.", "quantifier": "all real vectors with u != 0, all sizes", "why_tests_cant": "universally quantified over reals", "anchors": ["src/vectors.c:zsl_vec_project"]}
{"id": "C07", "title": "Normalising yields a unit vector", "statement": "zsl_vec_to_unit turns every vector with sz >= 1 into one of norm exactly 1: a non-zero vector keeps its direction (positive multiple), the zero vector becomes (1,0,...,0).", "quantifier": "all real vectors, sz >= 1", "why_tests_cant": "universally quantified over reals", "anchors": ["src/vectors.c:zsl_vec_to_unit"]}
{"id": "C08", "title": "Cross product laws", "statement": "zsl_vec_cross on three 3-vectors is orthogonal to both inputs, anti-commutative, bilinear and satisfies Lagrange's identity; any other size is rejected with -EINVAL and nothing is written.", "quantifier": "all real 3-vectors, all sizes for the error case", "why_tests_cant": "universally quantified over reals", "anchors": ["src/vectors.c:zsl_vec_cross"]}
{"id": "C09", "title": "Reversal is exact and self-inverse", "statement": "For sz >= 1 zsl_vec_rev reverses exactly the first sz cells in place and touches nothing else; doing it twice restores the vector. (sz = 0 is undefined behaviour in the code.)", "quantifier": "all vectors of every size, any contents", "why_tests_cant": "the claim is about every size and every content; tests sample a few", "anchors": ["src/vectors.c:zsl_vec_rev"]}
{"id": "C10", "title": "Zeros-to-end is a stable partition", "statement": "zsl_vec_zte moves every zero (0 <= x < 1e-6) to the end keeping the order of the others, never changes sz, never touches memory outside the vector.", "quantifier": "all vectors of every size, any contents", "why_tests_cant": "the claim is about every size and every content; tests sample a few", "anchors": ["src/vectors.c:zsl_vec_zte"]}
{"id": "C11", "title": "Approximate comparison, containment and sign test mean what they say", "statement": "zsl_vec_is_equal is true exactly when sizes match and every difference is strictly smaller than eps in magnitude; zsl_vec_contains counts exactly the elements within eps of the value; zsl_vec_is_nonneg is true exactly when no element is negative.", "quantifier": "all vectors, all eps", "why_tests_cant": "the claim is about every size and every content; tests sample a few", "anchors": ["src/vectors.c:zsl_vec_is_equal", "src/vectors.c:zsl_vec_contains", "src/vectors.c:zsl_vec_is_nonneg"]}
{"id": "C12", "title": "Sorting produces the sorted permutation", "statement": "zsl_vec_sort(v, w) terminates, stays inside its buffers and leaves in w the elements of v in ascending order.", "quantifier": "all vectors of every size and contents", "why_tests_cant": "termination and memory safety of a recursive quicksort over all inputs", "anchors": ["src/vectors.c:zsl_vec_sort", "src/vectors.c:zsl_vec_quicksort"]}
{"id": "C13", "title": "Arithmetic mean of a vector lies between its extremes", "statement": "zsl_vec_ar_mean / zsl_sta_mean return sum/sz; for sz >= 1 the mean lies between the smallest and largest element, shifts with a constant added to all elements and scales with a factor; sz = 0 gives -EINVAL from zsl_vec_ar_mean.", "quantifier": "all real vectors", "why_tests_cant": "universally quantified over reals", "anchors": ["src/vectors.c:zsl_vec_ar_mean", "src/statistics.c:zsl_sta_mean"]}
{"id": "C14", "title": "Element access is bounds-checked and independent", "statement": "zsl_mtx_set followed by zsl_mtx_get at the same in-range (i,j) returns the stored value, leaves every other element unchanged; out-of-range indices give -EINVAL and change nothing; no access ever leaves the rows*cols buffer.", "quantifier": "all shapes, all index pairs, all contents", "why_tests_cant": "the claim is about every size and every content; tests sample a few", "anchors": ["src/matrices.c:zsl_mtx_get", "src/matrices.c:zsl_mtx_set"]}
{"id": "C15", "title": "Row and column transfer is exact", "statement": "get_row/get_col return exactly the addressed row/column, set_row/set_col replace exactly it and nothing else; an out-of-range index returns -EINVAL without change; get after set returns what was stored.", "quantifier": "all shapes, indices and contents", "why_tests_cant": "the claim is about every size and every content; tests sample a few", "anchors": ["src/matrices.c:zsl_mtx_get_row", "src/matrices.c:zsl_mtx_set_row", "src/matrices.c:zsl_mtx_get_col", "src/matrices.c:zsl_mtx_set_col"]}
{"id": "C16", "title": "Initialisation, array import and copy", "statement": "zsl_mtx_init(NULL/empty) zeroes every element, the identity callback yields the identity pattern, zsl_mtx_from_arr installs the array in row-major order, zsl_mtx_copy reproduces the source and rejects a shape mismatch with -EINVAL without writing; a failing entry callback stops the initialisation and its code is returned.", "quantifier": "all shapes and contents", "why_tests_cant": "the claim is about every size and every content; tests sample a few", "anchors": ["src/matrices.c:zsl_mtx_init", "src/matrices.c:zsl_mtx_from_arr", "src/matrices.c:zsl_mtx_copy", "src/matrices.c:zsl_mtx_entry_fn_identity", "src/matrices.c:zsl_mtx_entry_fn_empty"]}
{"id": "C17", "title": "Component-wise unary and binary operations", "statement": "zsl_mtx_unary_op applies the chosen scalar operation to every element and returns 0; zsl_mtx_binary_op does so for every operation of its enum (add, sub, mult, div with x/0 = 0, mean, power, min, max and the six comparisons) on equally shaped matrices and returns -EINVAL without writing on a shape mismatch.", "quantifier": "all shapes, contents and operations", "why_tests_cant": "all operations times all shapes", "anchors": ["src/matrices.c:zsl_mtx_unary_op", "src/matrices.c:zsl_mtx_unary_func", "src/matrices.c:zsl_mtx_binary_op", "src/matrices.c:zsl_mtx_binary_func", "src/matrices.c:zsl_mtx_add", "src/matrices.c:zsl_mtx_sub"]}
{"id": "C18", "title": "Matrix product is the mathematical product", "statement": "For compatible shapes zsl_mtx_mult stores the matrix product, also when the output is the same object as an input (zsl_mtx_mult_d); consequently products computed with it are associative, distribute over zsl_mtx_add and have the identity as neutral element; incompatible shapes give -EINVAL and leave the output unchanged.", "quantifier": "all shapes and real contents, all aliasing patterns", "why_tests_cant": "the claim is about every size and every content; tests sample a few", "anchors": ["src/matrices.c:zsl_mtx_mult", "src/matrices.c:zsl_mtx_mult_d", "src/matrices.c:zsl_mtx_scalar_mult_d"]}
{"id": "C19", "title": "Transpose is exact, involutive and reverses products", "statement": "zsl_mtx_trans stores element (j,i) of the input at (i,j) of the (distinct) output; transposing twice gives the original; transpose of a product is the reversed product of transposes; wrong output shape gives -EINVAL without writing.", "quantifier": "all shapes and contents", "why_tests_cant": "the claim is about every size and every content; tests sample a few", "anchors": ["src/matrices.c:zsl_mtx_trans"]}
{"id": "C20", "title": "Row operations change exactly one row", "statement": "zsl_mtx_sum_rows_d, zsl_mtx_sum_rows_scaled_d and zsl_mtx_scalar_mult_row_d change row i only, to row_i + row_j, row_i + s*row_j and s*row_i; row indices out of range are rejected with -EINVAL and nothing is read or written outside the buffer. Adding a multiple of another row never changes the determinant of a square matrix.", "quantifier": "all shapes, indices, scalars and contents", "why_tests_cant": "the claim is about every size and every content; tests sample a few", "anchors": ["src/matrices.c:zsl_mtx_sum_rows_d", "src/matrices.c:zsl_mtx_sum_rows_scaled_d", "src/matrices.c:zsl_mtx_scalar_mult_row_d"]}
{"id": "C21", "title": "Minor extraction and block augmentation", "statement": "zsl_mtx_reduce on an n x n matrix (n >= 2) returns the (n-1) x (n-1) matrix with row i and column j deleted; iterating zsl_mtx_reduce_iter until it returns 0 terminates and yields the lower-right block of the requested size; zsl_mtx_augm_diag embeds a square matrix as the lower-right block of an identity. With an output smaller than the matrix it returns 0 and leaves the lower-right block of the matrix there. Asked for an output larger than the matrix, or empty, zsl_mtx_reduce_iter asks to be called again n - 1 times and then declares an array of length zero.", "quantifier": "all n, all index pairs, all contents", "why_tests_cant": "the claim is about every size and every content; tests sample a few", "anchors": ["src/matrices.c:zsl_mtx_reduce", "src/matrices.c:zsl_mtx_reduce_iter", "src/matrices.c:zsl_mtx_augm_diag"]}
{"id": "C22", "title": "Determinant is the determinant", "statement": "For every square matrix of size n >= 1 zsl_mtx_deter returns 0 and stores the determinant; hence it is multiplicative with respect to zsl_mtx_mult, invariant under zsl_mtx_trans, and zero for a matrix with two equal rows. A non-square matrix with more than three rows is rejected.", "quantifier": "all n >= 1, all real contents", "why_tests_cant": "recursive algorithm over unbounded n", "anchors": ["src/matrices.c:zsl_mtx_deter", "src/matrices.c:zsl_mtx_deter_3x3"]}
{"id": "C23", "title": "Adjoint matrix", "statement": "zsl_mtx_adjoint stores the adjugate matrix: A * adj(A) = det(A) * I for every square A.", "quantifier": "all n, all real contents", "why_tests_cant": "the claim is about every size and every content; tests sample a few", "anchors": ["src/matrices.c:zsl_mtx_adjoint", "src/matrices.c:zsl_mtx_adjoint_3x3"]}
{"id": "C24", "title": "3x3 inverse", "statement": "zsl_mtx_inv_3x3 stores the two-sided inverse whenever the determinant is non-zero and the identity when it is zero; returns 0 in both cases and -EINVAL for any other shape.", "quantifier": "all real 3x3 matrices", "why_tests_cant": "universally quantified over reals", "anchors": ["src/matrices.c:zsl_mtx_inv_3x3"]}
{"id": "C25", "title": "Gaussian elimination is a sequence of recorded row operations", "statement": "zsl_mtx_gauss_elim(_d), zsl_mtx_norm_elem(_d) and zsl_mtx_gauss_reduc multiply the working matrix and the companion matrix by the same invertible matrix from the left, so if companion*original = working held before it holds after; elimination at (i,j) with |m_ij| >= 1e-6 makes every other entry of column j zero or leaves it below 1e-6 in magnitude; normalisation makes m_ij equal to 1.", "quantifier": "all square sizes, pivots and real contents", "why_tests_cant": "the claim is about every size and every content; tests sample a few", "anchors": ["src/matrices.c:zsl_mtx_gauss_elim", "src/matrices.c:zsl_mtx_gauss_elim_d", "src/matrices.c:zsl_mtx_gauss_reduc", "src/matrices.c:zsl_mtx_norm_elem", "src/matrices.c:zsl_mtx_norm_elem_d"]}
{"id": "C26", "title": "General inverse", "statement": "zsl_mtx_inv stores the inverse of every square matrix with non-zero determinant and the identity for zero determinant.", "quantifier": "all n, all real contents", "why_tests_cant": "the claim is about every size and every content; tests sample a few", "anchors": ["src/matrices.c:zsl_mtx_inv"]}
{"id": "C27", "title": "Cholesky decomposition", "statement": "For a symmetric positive definite matrix zsl_mtx_cholesky returns 0 and stores a lower triangular L with positive diagonal and L * L^T = M; a non-square or non-symmetric input, or a wrongly shaped output, gives -EINVAL and leaves the output unchanged.", "quantifier": "all n, all real contents", "why_tests_cant": "the claim is about every size and every content; tests sample a few", "anchors": ["src/matrices.c:zsl_mtx_cholesky"]}
{"id": "C28", "title": "Householder reflections", "statement": "zsl_mtx_householder produces a symmetric orthogonal matrix that maps the first column of its input (or, in Hessenberg mode, the part below the first row) onto a multiple of the first axis.", "quantifier": "all n, all real contents including zero columns", "why_tests_cant": "the claim is about every size and every content; tests sample a few", "anchors": ["src/matrices.c:zsl_mtx_householder"]}
{"id": "C29", "title": "QR decomposition", "statement": "zsl_mtx_qrd(.., false) of a square matrix yields an orthogonal Q and an upper triangular R with Q*R equal to the input; with hessenberg=true it yields an orthogonal Q and an upper Hessenberg R with Q*R*Q^T equal to the input.", "quantifier": "all n >= 1, all real contents", "why_tests_cant": "the claim is about every size and every content; tests sample a few", "anchors": ["src/matrices.c:zsl_mtx_qrd"]}
{"id": "C30", "title": "QR iteration and balancing preserve eigenvalues", "statement": "zsl_mtx_qrd_iter returns a matrix orthogonally similar to its input for every iteration count, and zsl_mtx_balance, whenever it returns, a matrix diagonally similar to its input (with positive factors); so characteristic polynomial, trace and determinant never change.", "quantifier": "all n, iteration counts and real contents", "why_tests_cant": "all iteration counts", "anchors": ["src/matrices.c:zsl_mtx_qrd_iter", "src/matrices.c:zsl_mtx_balance"]}
{"id": "C31", "title": "Gram-Schmidt orthogonalises the columns", "statement": "For a matrix with linearly independent columns zsl_mtx_gram_schmidt stores pairwise orthogonal non-zero columns, each input column differing from the output column by a combination of earlier output columns; zsl_mtx_cols_norm makes every column a unit vector.", "quantifier": "all shapes, all real contents with independent columns", "why_tests_cant": "the claim is about every size and every content; tests sample a few", "anchors": ["src/matrices.c:zsl_mtx_gram_schmidt", "src/matrices.c:zsl_mtx_cols_norm"]}
{"id": "C32", "title": "Minimum and maximum of a matrix and their first position", "statement": "zsl_mtx_min/max return an element of the matrix that bounds all others; min_idx/max_idx return the position of the first such element in row-major order.", "quantifier": "all non-empty shapes, all totally ordered contents", "why_tests_cant": "the claim is about every size and every content; tests sample a few", "anchors": ["src/matrices.c:zsl_mtx_min", "src/matrices.c:zsl_mtx_max", "src/matrices.c:zsl_mtx_min_idx", "src/matrices.c:zsl_mtx_max_idx"]}
{"id": "C33", "title": "Matrix predicates", "statement": "zsl_mtx_is_equal is true exactly when shape and all elements agree; zsl_mtx_is_notneg exactly when no element is negative; zsl_mtx_is_sym exactly when |m_ij - m_ji| < 1e-6 for all i,j.", "quantifier": "all shapes and contents", "why_tests_cant": "the claim is about every size and every content; tests sample a few", "anchors": ["src/matrices.c:zsl_mtx_is_equal", "src/matrices.c:zsl_mtx_is_notneg", "src/matrices.c:zsl_mtx_is_sym"]}
{"id": "C34", "title": "Pseudo-inverse handles singular matrices", "statement": "In zsl_mtx_pinv a zero singular value stays zero (is not inverted).", "quantifier": "all matrices", "why_tests_cant": "needs the exact semantics of the guard for all values", "anchors": ["src/matrices.c:zsl_mtx_pinv"]}
{"id": "C35", "title": "Wedge product is perpendicular to its inputs", "statement": "zsl_mtx_vec_wedge of n-1 independent vectors of size n returns a vector orthogonal to each of them.", "quantifier": "all n >= 4, all real rows", "why_tests_cant": "the claim is about every size and every content; tests sample a few", "anchors": ["src/matrices.c:zsl_mtx_vec_wedge"]}
{"id": "C36", "title": "Linear blend stays between its end points", "statement": "zsl_interp_lerp returns v0 at t=0, v1 at t=1, lies between them and is monotone in t for t in [0,1]; any other t (also NaN is not detected) gives -EINVAL and NaN.", "quantifier": "all reals v0, v1, t", "why_tests_cant": "universally quantified over reals", "anchors": ["src/interp.c:zsl_interp_lerp"]}
{"id": "C37", "title": "Table search finds the bracketing interval", "statement": "For every monotone table of n >= 2 points and every x inside its range zsl_interp_find_x terminates, returns 0 and an index idx with 0 <= idx <= n-2 such that x lies between xy[idx].x and xy[idx+1].x; below range it reports -1 and above range n, both with -EINVAL; n < 2 gives -1 and -EINVAL. It never reads outside the table.", "quantifier": "all table lengths below 2^31 (the index is an int; for longer tables the claim is refuted), contents and x", "why_tests_cant": "binary search over unbounded tables", "anchors": ["src/interp.c:zsl_interp_find_x"]}
{"id": "C38", "title": "Piecewise linear interpolation", "statement": "zsl_interp_lin_y returns the point of the chord: exact at both ends and between y1 and y3; zsl_interp_lin_y_arr on an ascending table reproduces the table at its knots and otherwise returns a value between the neighbouring table values; outside the range both give -EINVAL and NaN.", "quantifier": "all tables and x", "why_tests_cant": "the claim is about every size and every content; tests sample a few", "anchors": ["src/interp.c:zsl_interp_lin_y", "src/interp.c:zsl_interp_lin_y_arr"]}
{"id": "C39", "title": "Inverse linear interpolation", "statement": "zsl_interp_lin_x inverts zsl_interp_lin_y: whenever it succeeds, the returned x lies between x1 and x3 and interpolating y at it gives y2 back.", "quantifier": "all point pairs and y2", "why_tests_cant": "universally quantified over reals; the zero-height chord is the corner", "anchors": ["src/interp.c:zsl_interp_lin_x"]}
{"id": "C40", "title": "Nearest neighbour returns the nearer point", "statement": "zsl_interp_nn returns y3 when x2 is at or beyond the midpoint of x1 and x3 and y1 otherwise.", "quantifier": "all point pairs and x2 in range", "why_tests_cant": "universally quantified over reals", "anchors": ["src/interp.c:zsl_interp_nn", "src/interp.c:zsl_interp_nn_arr"]}
{"id": "C41", "title": "Cubic spline interpolates its knots and solves the spline equations", "statement": "After zsl_interp_cubic_calc on a strictly increasing table of n >= 3 points the second derivatives satisfy the tridiagonal continuity equations at every interior knot and the requested end condition, for every n; zsl_interp_cubic_arr then returns exactly y_k at every knot x_k and reproduces straight lines exactly.", "quantifier": "all tables with strictly increasing x, all y, all n >= 3", "why_tests_cant": "recurrences over unbounded tables", "anchors": ["src/interp.c:zsl_interp_cubic_calc", "src/interp.c:zsl_interp_cubic_arr"]}
{"id": "C42", "title": "Weighted and trimmed means are averages of the data", "statement": "zsl_sta_weighted_mean rejects size mismatch, negative weights and all-zero weights with -EINVAL; otherwise the result lies between the extremes of the data and equals the plain mean for equal weights. zsl_sta_trim_mean rejects p outside 0..50.", "quantifier": "all data and weight vectors", "why_tests_cant": "universally quantified over reals", "anchors": ["src/statistics.c:zsl_sta_weighted_mean", "src/statistics.c:zsl_sta_trim_mean"]}
{"id": "C43", "title": "De-meaned data has zero mean", "statement": "zsl_sta_demean returns v minus its mean in every component; the mean of the result is zero and its pairwise differences equal those of v; size mismatch gives -EINVAL.", "quantifier": "all real vectors, sz >= 1", "why_tests_cant": "universally quantified over reals", "anchors": ["src/statistics.c:zsl_sta_demean"]}
{"id": "C44", "title": "Variance and covariance laws", "statement": "For sz >= 2: variance is >= 0, zero exactly for constant data, invariant under shifts and quadratic under scaling; covariance is symmetric, bilinear, equals the variance on the diagonal and |cov(v,w)|^2 <= var(v)*var(w); the covariance matrix is symmetric with variances on the diagonal.", "quantifier": "all real vectors, sz >= 2", "why_tests_cant": "universally quantified over reals", "anchors": ["src/statistics.c:zsl_sta_var", "src/statistics.c:zsl_sta_std_dev", "src/statistics.c:zsl_sta_covar", "src/statistics.c:zsl_sta_covar_mtx"]}
{"id": "C45", "title": "Simple linear regression is the least-squares line", "statement": "zsl_sta_linear_reg returns slope and intercept that minimise the sum of squared residuals over all lines (x not constant), recovers an exact linear relation, and a correlation in [-1,1].", "quantifier": "all data sets with non-constant x", "why_tests_cant": "minimality over all lines", "anchors": ["src/statistics.c:zsl_sta_linear_reg"]}
{"id": "C46", "title": "Percentiles stay inside the data", "statement": "zsl_sta_percentile returns a value between the smallest and the largest element, the median is the 50th percentile, quartiles are ordered, and no element outside the sorted copy is read.", "quantifier": "all vectors and all p in 0..100", "why_tests_cant": "the claim is about every size and every content; tests sample a few", "anchors": ["src/statistics.c:zsl_sta_percentile", "src/statistics.c:zsl_sta_median", "src/statistics.c:zsl_sta_quart"]}
{"id": "C47", "title": "Error measures", "statement": "zsl_sta_abs_err is |val - exp|: non-negative, symmetric and zero exactly on equality; zsl_sta_rel_err is |val - exp| relative to exp and non-negative.", "quantifier": "all reals", "why_tests_cant": "universally quantified over reals", "anchors": ["src/statistics.c:zsl_sta_abs_err", "src/statistics.c:zsl_sta_rel_err", "src/statistics.c:zsl_sta_sta_err"]}
{"id": "C48", "title": "Weighted regression does not modify its inputs", "statement": "zsl_sta_weighted_mult_linear_reg leaves the caller's weight vector unchanged.", "quantifier": "all inputs", "why_tests_cant": "frame condition over all inputs", "anchors": ["src/statistics.c:zsl_sta_weighted_mult_linear_reg"]}
{"id": "C49", "title": "Uniform distribution", "statement": "For a < b: pdf is >= 0 and integrates to 1, cdf is its integral: monotone, 0 up to a, 1 from b on; mean and variance are those of the distribution; a >= b is reported with -EINVAL (returned as the number -22 by pdf and cdf).", "quantifier": "all reals a, b, x", "why_tests_cant": "universally quantified over reals", "anchors": ["src/probability.c:zsl_prob_uni_pdf", "src/probability.c:zsl_prob_uni_cdf", "src/probability.c:zsl_prob_uni_mean", "src/probability.c:zsl_prob_uni_var"]}
{"id": "C50", "title": "Factorials and binomial coefficients are exact while they fit an int", "statement": "zsl_prob_factorial returns n! for 0 <= n <= 12, -EINVAL for n < 0 and overflows (undefined behaviour) for n >= 13; zsl_prob_binomial_coef returns n choose k for 0 <= k <= n <= 12, 0 for k outside 0..n, -EINVAL for n < 0.", "quantifier": "all ints n, k", "why_tests_cant": "overflow boundary over the whole int range", "anchors": ["src/probability.c:zsl_prob_factorial", "src/probability.c:zsl_prob_binomial_coef"]}
{"id": "C51", "title": "Binomial distribution", "statement": "For 0 <= p <= 1 and 0 <= n <= 12 the pdf is >= 0, sums to 1 over 0..n, the cdf is the running sum: monotone, in [0,1], 0 below 0 and 1 at n; mean and variance are n*p and n*p*(1-p), the moments of that pdf.", "quantifier": "all n <= 12, p in [0,1], x", "why_tests_cant": "universally quantified over reals", "anchors": ["src/probability.c:zsl_prob_binomial_pdf", "src/probability.c:zsl_prob_binomial_cdf", "src/probability.c:zsl_prob_binomial_mean", "src/probability.c:zsl_prob_binomial_var"]}
{"id": "C52", "title": "Bayes rule returns a probability", "statement": "Whenever zsl_prob_bayes returns 0, the posterior lies in [0,1] and posterior*pb = pba*pa; inconsistent or out-of-range inputs give -EINVAL and write nothing.", "quantifier": "all reals", "why_tests_cant": "universally quantified over reals", "anchors": ["src/probability.c:zsl_prob_bayes"]}
{"id": "C53", "title": "Entropy", "statement": "zsl_prob_entropy rejects negative entries and sums away from 1 with -EINVAL; for a probability vector it returns the Shannon entropy in bits, which is >= 0 and is zero for a certain outcome.", "quantifier": "all probability vectors", "why_tests_cant": "zero probabilities are the corner", "anchors": ["src/probability.c:zsl_prob_entropy"]}
{"id": "C54", "title": "Normal distribution helpers", "statement": "pdf is positive and symmetric around the mean; zsl_prob_erf_inv is odd and -EINVAL outside (-1,1); zsl_prob_normal_cdf_inv maps p = 1/2 to the mean and p, 1-p symmetrically around it, rejecting p outside (0,1).", "quantifier": "all reals", "why_tests_cant": "universally quantified over reals", "anchors": ["src/probability.c:zsl_prob_normal_pdf", "src/probability.c:zsl_prob_erf_inv", "src/probability.c:zsl_prob_normal_cdf_inv", "src/probability.c:zsl_prob_normal_cdf"]}
{"id": "C55", "title": "Quaternion product is Hamilton's product", "statement": "zsl_quat_mult stores the Hamilton product for any aliasing of its arguments; it is associative, has the identity quaternion as unit, and the magnitude of the product is the product of magnitudes.", "quantifier": "all quaternions, all aliasing patterns", "why_tests_cant": "universally quantified over reals", "anchors": ["src/orientation/quaternions.c:zsl_quat_mult", "src/orientation/quaternions.c:zsl_quat_magn", "src/orientation/quaternions.c:zsl_quat_init"]}
{"id": "C56", "title": "Quaternion normalisation", "statement": "zsl_quat_to_unit(_d) returns 0 and yields a unit quaternion with the same direction for |q| >= 1e-6 and the zero quaternion below; zsl_quat_is_unit accepts every such unit result.", "quantifier": "all quaternions", "why_tests_cant": "universally quantified over reals", "anchors": ["src/orientation/quaternions.c:zsl_quat_to_unit", "src/orientation/quaternions.c:zsl_quat_to_unit_d", "src/orientation/quaternions.c:zsl_quat_is_unit", "src/orientation/quaternions.c:zsl_quat_scale"]}
{"id": "C57", "title": "Quaternion inverse and difference", "statement": "zsl_quat_inv yields the multiplicative inverse of every quaternion of magnitude >= 1e-6, conj reverses products, and zsl_quat_diff gives qd with qa*qd = qb.", "quantifier": "all quaternions", "why_tests_cant": "universally quantified over reals", "anchors": ["src/orientation/quaternions.c:zsl_quat_inv", "src/orientation/quaternions.c:zsl_quat_conj", "src/orientation/quaternions.c:zsl_quat_diff", "src/orientation/quaternions.c:zsl_quat_inv_d"]}
{"id": "C58", "title": "Quaternion rotation is a rigid motion", "statement": "zsl_quat_rot by a unit quaternion maps pure quaternions to pure quaternions, preserves magnitudes and dot products; a non-pure argument gives -EINVAL and writes nothing.", "quantifier": "all unit rotation quaternions and pure arguments", "why_tests_cant": "universally quantified over reals", "anchors": ["src/orientation/quaternions.c:zsl_quat_rot"]}
{"id": "C59", "title": "Rotation matrices of quaternions", "statement": "zsl_quat_to_rot_mtx of a unit quaternion (the documented precondition) is a proper rotation (orthogonal, determinant 1) that acts like the quaternion, q and -q give the same matrix, zsl_quat_from_rot_mtx makes a unit quaternion of every rotation matrix, and the two are inverse up to the sign of the quaternion.", "quantifier": "all unit quaternions and all rotation matrices", "why_tests_cant": "universally quantified over reals", "anchors": ["src/orientation/quaternions.c:zsl_quat_to_rot_mtx", "src/orientation/quaternions.c:zsl_quat_from_rot_mtx"]}
{"id": "C60", "title": "Quaternion interpolation", "statement": "zsl_quat_lerp and zsl_quat_slerp return the (normalised) start at t=0 and end at t=1, reject t outside [0,1] with -EINVAL, lerp results are unit (or zero) quaternions and slerp of unit quaternions stays on the unit sphere and moves at constant angular speed, qa (qa^-1 qb)^t; slerp rejects opposite quaternions.", "quantifier": "all quaternions and t", "why_tests_cant": "universally quantified over reals", "anchors": ["src/orientation/quaternions.c:zsl_quat_lerp", "src/orientation/quaternions.c:zsl_quat_slerp"]}
{"id": "C61", "title": "Constructors of orientation quaternions return unit quaternions", "statement": "zsl_quat_from_euler, zsl_quat_from_axis_angle (axis norm >= 1e-6) and zsl_quat_from_ang_vel return unit quaternions; wrong dimensions or negative time give -EINVAL.", "quantifier": "all angles, axes, rates", "why_tests_cant": "universally quantified over reals", "anchors": ["src/orientation/quaternions.c:zsl_quat_from_euler", "src/orientation/quaternions.c:zsl_quat_from_axis_angle", "src/orientation/quaternions.c:zsl_quat_from_ang_vel", "src/orientation/quaternions.c:zsl_quat_from_ang_mom"]}
{"id": "C62", "title": "Quaternion exponential, logarithm and power", "statement": "zsl_quat_exp is the exponential of the quaternion algebra, exp(log q) = q for every q other than zero with log the principal branch, zsl_quat_pow with an integer exponent is the ordinary power (q^0 = 1, q^1 = q), powers of one quaternion add, and the exponential of a pure quaternion is a unit quaternion.", "quantifier": "all quaternions (nonzero for log and pow), all real exponents", "why_tests_cant": "universally quantified over reals", "anchors": ["src/orientation/quaternions.c:zsl_quat_exp", "src/orientation/quaternions.c:zsl_quat_log", "src/orientation/quaternions.c:zsl_quat_pow"]}
{"id": "C63", "title": "Fusion filters keep the attitude quaternion normalised", "statement": "Over every sequence of feed calls of the Madgwick, Mahony, complementary and AQUA filters the attitude quaternion is, after each successful call, a unit quaternion (or the zero quaternion if normalisation met a magnitude below 1e-6), and a rejected call leaves it unchanged.", "quantifier": "all histories of feeds with arbitrary sensor vectors", "why_tests_cant": "unbounded histories", "anchors": ["src/orientation/fusion/madgwick.c:zsl_fus_madg_feed", "src/orientation/fusion/mahony.c:zsl_fus_mahn_feed", "src/orientation/fusion/complementary.c:zsl_fus_comp_feed", "src/orientation/fusion/aqua.c:zsl_fus_aqua_feed"]}
{"id": "C64", "title": "Mahony integral feedback is bounded", "statement": "After every accepted feed each component of the integral feedback lies within [-limit, limit], over every history.", "quantifier": "all histories of feeds", "why_tests_cant": "unbounded histories", "anchors": ["src/orientation/fusion/mahony.c:zsl_fus_mahn_feed"]}
{"id": "C65", "title": "Fusion configuration validation", "statement": "Every filter's init rejects frequency 0 with -EINVAL and otherwise makes the new frequency effective; every feed rejects out-of-range gains with -EINVAL leaving the orientation untouched.", "quantifier": "all configurations and inputs", "why_tests_cant": "frame condition over all inputs", "anchors": ["src/orientation/fusion/madgwick.c", "src/orientation/fusion/mahony.c", "src/orientation/fusion/complementary.c", "src/orientation/fusion/aqua.c", "src/orientation/fusion/saam.c", "src/orientation/fusion/kalman.c"]}
{"id": "C66", "title": "Calibration search returns the best candidate", "statement": "zsl_fus_cal_madg and zsl_fus_cal_mahn return the candidate gain with the smallest accumulated error.", "quantifier": "all data sets", "why_tests_cant": "argmin over all data", "anchors": ["src/orientation/fusion/calibration.c"]}
{"id": "C67", "title": "Sensor correction inverts the calibrated distortion", "statement": "zsl_fus_cal_corr_scalar/vec apply k*(d+b) / K*(v+b) exactly, so with K the inverse of the distortion and b the negated offset the true value is recovered; wrong dimensions give -EINVAL.", "quantifier": "all real data", "why_tests_cant": "universally quantified over reals", "anchors": ["src/orientation/fusion/calibration.c"]}
{"id": "C68", "title": "Chromaticity conversions are mutually inverse", "statement": "XYZ -> xyY -> XYZ, uv60 -> xyY -> uv60 and uv60 <-> uv76 return the starting value whenever no denominator is zero; composite conversions equal the composition; observer and illuminant travel along.", "quantifier": "all finite colours off the singular lines", "why_tests_cant": "universally quantified over reals", "anchors": ["src/colorimetry/conv.c:zsl_clr_conv_xyy_xyz", "src/colorimetry/conv.c:zsl_clr_conv_xyz_xyy", "src/colorimetry/conv.c:zsl_clr_conv_xyy_uv60", "src/colorimetry/conv.c:zsl_clr_conv_uv60_xyy", "src/colorimetry/conv.c:zsl_clr_conv_uv60_uv76", "src/colorimetry/conv.c:zsl_clr_conv_uv76_uv60"]}
{"id": "C69", "title": "RGB conversion stays in gamut and flags clipping", "statement": "With bound capping, zsl_clr_conv_xyz_rgbf returns channels in [0,1] that equal the matrix product when it is in [0,1), and sets the invalid flag exactly for channels outside [0,1); the 8-bit conversion always yields 0..255 with no undefined float-to-int conversion; a matrix that is not 3x3 is rejected and all channels are flagged.", "quantifier": "all finite XYZ values and matrices", "why_tests_cant": "universally quantified over reals", "anchors": ["src/colorimetry/conv.c:zsl_clr_conv_xyz_rgbf", "src/colorimetry/conv.c:zsl_clr_conv_xyz_rgb8"]}
{"id": "C70", "title": "Spectrum to tristimulus", "statement": "zsl_clr_conv_spd_xyz reads the observer table only inside its bounds for every spectrum, ignores samples outside 360..830 nm, rejects spectra with no usable sample, is invariant under scaling the spectrum and normalises Y to 1.", "quantifier": "all spectra", "why_tests_cant": "the claim is about every size and every content; tests sample a few", "anchors": ["src/colorimetry/conv.c:zsl_clr_conv_spd_xyz"]}
{"id": "C71", "title": "Spectrum normalisation", "statement": "zsl_clr_norm_spd scales every component by the same factor so that the largest becomes exactly 1; an all-non-positive spectrum is rejected with -EINVAL and left unchanged.", "quantifier": "all spectra", "why_tests_cant": "the claim is about every size and every content; tests sample a few", "anchors": ["src/colorimetry/norm.c:zsl_clr_norm_spd"]}
{"id": "C72", "title": "Planckian table lookup is memory safe", "statement": "zsl_clr_conv_uv60_cct (Ohno 2014) never reads outside its 304-row table and rejects chromaticities nearest to a table end with -EINVAL, for every (u,v).", "quantifier": "all (u,v)", "why_tests_cant": "universally quantified over reals", "anchors": ["src/colorimetry/conv.c:zsl_clr_conv_uv60_cct_ohno2014"]}
{"id": "C73", "title": "Luminous efficiency lookup", "statement": "zsl_clr_lef_lerp is 0 outside 380..780 nm, equals the table at multiples of 5 nm and lies between the neighbouring table entries elsewhere; the table is never read out of bounds.", "quantifier": "all wavelengths and tables", "why_tests_cant": "the claim is about every size and every content; tests sample a few", "anchors": ["src/colorimetry/lumeff.c"]}
{"id": "C74", "title": "Collisions and centre of mass", "statement": "The velocities returned by zsl_phy_mom_elas and zsl_phy_mom_inelas conserve total momentum exactly, an inelastic collision never gains kinetic energy and its velocity lies between the two initial ones; the centre of mass lies inside the bounding box of the particles and moves with a translation of all of them; invalid masses give -EINVAL and NaN.", "quantifier": "all masses, velocities and particle lists", "why_tests_cant": "universally quantified over reals and list lengths", "anchors": ["src/physics/momentum.c:zsl_phy_mom_elas", "src/physics/momentum.c:zsl_phy_mom_inelas", "src/physics/mass.c:zsl_phy_mass_center"]}
{"id": "C75", "title": "Kinematics functions agree with each other", "statement": "The motion helpers (distance, velocity, time, acceleration, initial position and velocity) are mutually consistent: each inverts the others where they are defined.", "quantifier": "all reals in the accepted range", "why_tests_cant": "universally quantified over reals", "anchors": ["src/physics/kinematics.c"]}
{"id": "C76", "title": "Projectile motion is self-consistent", "statement": "At the flight time reported by zsl_phy_proj_time the vertical motion is at the requested height, no later time reaches it, the range is the horizontal position at ground impact, and the trajectory height equals the vertical motion at the matching time.", "quantifier": "all launch parameters in the accepted range", "why_tests_cant": "universally quantified over reals", "anchors": ["src/physics/projectiles.c"]}
{"id": "C77", "title": "Electric component combination", "statement": "Series resistance / parallel capacitance are sums, parallel resistance / series capacitance reciprocal sums: independent of the order of components, at most every single component for reciprocal sums, at least every one for sums; components of the wrong sign are rejected with -EINVAL and NaN.", "quantifier": "all lists of components of every length >= 1", "why_tests_cant": "unbounded lists", "anchors": ["src/physics/electricity.c:zsl_phy_elcty_res_series", "src/physics/electricity.c:zsl_phy_elcty_res_parallel", "src/physics/electricity.c:zsl_phy_elcty_cap_series", "src/physics/electricity.c:zsl_phy_elcty_cap_parallel"]}
{"id": "C78", "title": "Temperature conversions are inverse", "statement": "Celsius/Fahrenheit and Celsius/Kelvin conversions in the two directions invert each other exactly and are strictly monotone.", "quantifier": "all reals", "why_tests_cant": "universally quantified over reals", "anchors": ["src/physics/thermo.c:zsl_phy_thermo_fahren_cels", "src/physics/thermo.c:zsl_phy_thermo_cels_kel"]}
{"id": "C79", "title": "Physics helpers compute their documented formula", "statement": "Every physics helper returns 0 and the value of its documented formula for all finite inputs in its domain, and -EINVAL with NaN for all finite inputs outside of it; in particular it never returns 0 with a value that is not finite.", "quantifier": "all finite inputs of every physics helper", "why_tests_cant": "division by zero corners over all inputs", "anchors": ["src/physics/"]}
{"id": "C80", "title": "Atomic weight table", "statement": "The atomic weight table has an in-bounds entry for every element enumerator 0..118; entries are never negative and are zero only for the null element and for elements without a standard weight.", "quantifier": "the whole table", "why_tests_cant": "whole table, not a sample", "anchors": ["src/chemistry.c:zsl_chem_atom_weight", "include/zsl/chemistry.h"]}
{"id": "C81", "title": "Balancing terminates", "statement": "zsl_mtx_balance returns for every square matrix.", "quantifier": "all n, all real contents, all contents of uninitialised memory", "why_tests_cant": "termination over all inputs and all contents of the stack is not observable by running examples", "anchors": ["src/matrices.c:zsl_mtx_balance"]}
{"id": "C82", "title": "Eigenvalues of a symmetric matrix add up to its trace", "statement": "For a symmetric matrix zsl_mtx_eigenvalues, whenever it returns, returns 0 and, for every iteration count, stores the diagonal of a matrix similar to the input; so the stored values add up to the trace.", "quantifier": "all n >= 1, all symmetric real matrices, all iteration counts, all contents of uninitialised memory", "why_tests_cant": "holds for every iteration count, not only for those large enough to converge", "anchors": ["src/matrices.c:zsl_mtx_eigenvalues"]}
{"id": "C83", "title": "Measures of dispersion", "statement": "zsl_sta_data_range is the largest minus the smallest element; zsl_sta_mean_abs_dev is the mean absolute distance from the mean, non-negative, zero exactly for constant data, unchanged by shifts and refused with -EINVAL for empty data; zsl_sta_median_abs_dev is the median of the absolute distances from the median and non-negative.", "quantifier": "all real vectors, sz >= 1", "why_tests_cant": "universally quantified over reals and sizes", "anchors": ["src/statistics.c:zsl_sta_data_range", "src/statistics.c:zsl_sta_mean_abs_dev", "src/statistics.c:zsl_sta_median_abs_dev"]}
{"id": "C84", "title": "Multiple linear regression is the least-squares fit", "statement": "zsl_sta_mult_linear_reg returns the coefficients that minimise the sum of squared residuals over all coefficient vectors, and the coefficient of determination 1 - SSR/SST; it refuses shape mismatches and a (nearly) singular design with -EINVAL and leaves the outputs alone then. zsl_sta_weighted_mult_linear_reg minimises the sum of squared residuals divided by the weights.", "quantifier": "all design matrices, observations and coefficient vectors", "why_tests_cant": "minimality over all coefficient vectors", "anchors": ["src/statistics.c:zsl_sta_mult_linear_reg", "src/statistics.c:zsl_sta_weighted_mult_linear_reg"]}
{"id": "C85", "title": "Normal cumulative distribution function", "statement": "For s > 0 zsl_prob_normal_cdf returns the integral of the normal density with mean m and variance s^2 up to x: strictly increasing, strictly between 0 and 1, and cdf(m+d) + cdf(m-d) = 1.", "quantifier": "all reals m, x, d and all s > 0", "why_tests_cant": "Monotonicity and symmetry relate all pairs of arguments, and the value is an improper integral for every argument.", "anchors": ["src/probability.c: zsl_prob_normal_cdf"]}
{"id": "C86", "title": "Euler angle round trip", "statement": "Converting a quaternion to Euler angles and back with zsl_quat_to_euler and zsl_quat_from_euler gives its unit quaternion up to sign, and converting principal Euler angles to a quaternion and back gives the angles.", "quantifier": "all quaternions of magnitude >= 1e-6, all principal angles", "why_tests_cant": "holds for every orientation; tests sample a few angles", "anchors": ["src/orientation/quaternions.c:zsl_quat_to_euler", "src/orientation/quaternions.c:zsl_quat_from_euler"]}
{"id": "C87", "title": "Axis-angle round trip", "statement": "zsl_quat_to_axis_angle gives a unit axis and an angle from which zsl_quat_from_axis_angle rebuilds the normalised quaternion.", "quantifier": "all quaternions of magnitude >= 1e-6", "why_tests_cant": "holds for every orientation, including the identity and full turns", "anchors": ["src/orientation/quaternions.c:zsl_quat_to_axis_angle", "src/orientation/quaternions.c:zsl_quat_from_axis_angle"]}
{"id": "C88", "title": "Charging and discharging of RC and RL circuits", "statement": "Charge while charging plus charge while discharging is the full charge at every time, both stay between 0 and the full charge, charging is strictly increasing with time and its current strictly decreasing, discharging in two steps is discharging for the total time, and the RL current rises strictly towards but never reaches its limit.", "quantifier": "all component values, charges and times in the accepted range", "why_tests_cant": "universally quantified over reals", "anchors": ["src/physics/eleccomp.c"]}
{"id": "C89", "title": "Conservation laws hold between the helpers", "statement": "Bernoulli, continuity, Pascal, ideal-gas, Boyle, Charles, lever, electric power and energy helpers conserve the quantity they are named for when their results are fed into each other; a falling body keeps its total energy.", "quantifier": "all finite inputs in the accepted range", "why_tests_cant": "relations between several functions over all reals", "anchors": ["src/physics/fluids.c", "src/physics/gases.c", "src/physics/energy.c", "src/physics/projectiles.c", "src/physics/electricity.c", "src/physics/dynamics.c"]}
{"id": "C90", "title": "Refraction is reversible and total reflection starts at the critical angle", "statement": "Light sent back along the ray Snell's law returns leaves along the original ray; from a dense medium zsl_phy_opt_snell succeeds exactly up to the angle zsl_phy_opt_critic_angle reports, where the refracted ray grazes; focal length and power satisfy the mirror equation.", "quantifier": "all refractive indices and angles", "why_tests_cant": "universally quantified over reals", "anchors": ["src/physics/optics.c"]}
{"id": "C91", "title": "Inverse square laws", "statement": "Gravitational and Coulomb force are symmetric, scale with the inverse square of the distance, equal mass times acceleration / charge times field, have the right sign, and agree with the potential helpers; escape velocity squared is twice the orbital velocity squared; a circular orbit takes Kepler's period and its centripetal acceleration is the gravitational one.", "quantifier": "all masses, charges and distances in the accepted range", "why_tests_cant": "relations between several functions over all reals", "anchors": ["src/physics/gravitation.c", "src/physics/electric.c", "src/physics/rotation.c"]}
{"id": "C92", "title": "Photon helpers of different modules agree", "statement": "Photon energy computed from a wavelength in metres, in nanometres or from the frequency of that wavelength is the same; wavelength and frequency invert each other; the photoelectric energy is the photon energy minus the work function.", "quantifier": "all positive wavelengths", "why_tests_cant": "relations between several functions over all reals", "anchors": ["src/physics/photons.c", "src/physics/energy.c"]}
{"id": "C93", "title": "Rotation and decay helpers are consistent", "statement": "Period times frequency is 1, one period is one turn, both centripetal acceleration helpers agree with omega^2 r, rotational and kinetic energy of a point mass agree; radioactive decay over two intervals composes and never increases the amount.", "quantifier": "all inputs in the accepted range", "why_tests_cant": "relations between several functions over all reals", "anchors": ["src/physics/rotation.c", "src/physics/energy.c", "src/physics/atomic.c"]}
{"id": "C94", "title": "Accelerometer corrections of the fusion filters point the right way", "statement": "With the gyroscope at rest, one Mahony, Madgwick or AQUA feed with an accelerometer reading different from the estimated vertical brings the vertical the attitude predicts (by rotating the up direction with zsl_quat_rot) closer to the measured one, for a small enough gain.", "quantifier": "all unit accelerometer readings and gains", "why_tests_cant": "the direction of a feedback loop must be right for every reading", "anchors": ["src/orientation/fusion/mahony.c:zsl_fus_mahn_feed", "src/orientation/fusion/madgwick.c:zsl_fus_madg_feed", "src/orientation/fusion/aqua.c:zsl_fus_aqua_feed"]}
{"id": "C95", "title": "Attitude from accelerometer and magnetometer recovers the tilt", "statement": "For every nonzero accelerometer reading the roll and pitch returned describe exactly the rotation under which gravity is seen in the measured direction, independent of the reading's magnitude; the yaw returned with a magnetometer makes the levelled field point north; the angle between two readings is the Euclidean angle; conversions between attitude and Euler angles are inverse up to the rounding of the constants; wrong dimensions are rejected without touching the output.", "quantifier": "all nonzero readings", "why_tests_cant": "trigonometric identity over all of space", "anchors": ["src/orientation/ahrs.c:zsl_att_from_accel", "src/orientation/ahrs.c:zsl_att_from_accelmag", "src/orientation/ahrs.c:zsl_att_accel_angle", "src/orientation/ahrs.c:zsl_att_to_euler"]}
{"id": "C96", "title": "Compass heading is the direction of the horizontal field", "statement": "zsl_comp_magn_north returns the angle of the horizontal part of the field, so that different horizontal directions give different headings, and zsl_comp_geo_north adds the declination.", "quantifier": "all magnetometer readings", "why_tests_cant": "the tests only cover two half-axes and one quadrant", "anchors": ["src/orientation/compass.c:zsl_comp_magn_north", "src/orientation/compass.c:zsl_comp_geo_north"]}
{"id": "C97", "title": "Degree conversion and gravity model accept exactly their range", "statement": "zsl_comp_dms_to_dd accepts exactly degrees in [-180,180] with minutes and seconds in [0,60] and adds them away from zero; zsl_grav_lat_alt accepts exactly latitudes in [-90,90] with nonnegative altitude, is symmetric in the latitude, falls with altitude and stays within 9.78..9.84 at sea level.", "quantifier": "all real inputs", "why_tests_cant": "range over all reals", "anchors": ["src/orientation/compass.c:zsl_comp_dms_to_dd", "src/orientation/gravity.c:zsl_grav_lat_alt"]}
{"id": "C98", "title": "SAAM explains both measurements", "statement": "The attitude zsl_fus_saam_feed returns turns the vertical into the measured acceleration direction and a north-and-vertical field direction into the measured magnetic direction, for all valid readings; it is a unit quaternion.", "quantifier": "all real accelerometer and magnetometer readings of length at least 1e-6", "why_tests_cant": "an identity between real functions of six variables, with singular readings of measure zero that samples miss", "anchors": ["src/orientation/fusion/saam.c:zsl_fus_saam_feed"]}
{"id": "C99", "title": "AQUA corrections explain the measurements", "statement": "With full gain an AQUA feed returns an attitude that turns the vertical exactly into the measured acceleration direction and, with a magnetometer, sees the measured field without an east component and pointing north; with any gain in [0,1] the accelerometer correction never moves the predicted vertical away from the measured one.", "quantifier": "all attitudes, readings, gains and thresholds", "why_tests_cant": "an identity between real functions of ten variables, with singular readings that samples miss", "anchors": ["src/orientation/fusion/aqua.c:zsl_fus_aqua_feed"]}
{"id": "C100", "title": "Colour temperature to colour follows Planck's law", "statement": "zsl_clr_conv_ct_xyz returns, for every positive temperature and both observers, the tristimulus values of the black-body spectrum of Planck's law integrated against the observer on the 5 nm grid and scaled to Y = 1 (with positive X and Z); the uv60 and RGB conversions compose it with the chromaticity and matrix formulas; no temperature leads to undefined behaviour.", "quantifier": "all real temperatures, both observers", "why_tests_cant": "real-valued parameter; sums of 95 exponentials", "anchors": ["src/colorimetry/conv.c:zsl_clr_conv_ct_xyz", "src/colorimetry/conv.c:zsl_clr_conv_ct_uv60", "src/colorimetry/conv.c:zsl_clr_conv_ct_rgbf", "src/colorimetry/conv.c:zsl_clr_conv_ct_rgb8"]}
{"id": "C101", "title": "Duv offsets are perpendicular to the black-body locus and of the right length", "statement": "zsl_clr_conv_cct_xyy displaces the chromaticity of the black body of the given temperature by Duv in the uv60 plane, perpendicular to the secant of the locus between T and T + 0.01 K, and returns that point in xyY with Y = 1; the xyz variant composes it with the xyY to XYZ conversion.", "quantifier": "all positive temperatures, all real Duv, both observers", "why_tests_cant": "real-valued parameters", "anchors": ["src/colorimetry/conv.c:zsl_clr_conv_cct_xyy", "src/colorimetry/conv.c:zsl_clr_conv_cct_xyz"]}
{"id": "C102", "title": "Ohno 2014 correlated colour temperature", "statement": "zsl_clr_conv_uv60_cct with the Ohno 2014 method returns the temperature at the foot of the perpendicular from the chromaticity to the chord of the neighbours of the nearest table row (triangular solution), between the temperatures of those neighbours, with Duv measured from (0.292, 0.24).", "quantifier": "all chromaticities with an inner nearest row", "why_tests_cant": "real-valued inputs; 302 different triangles", "anchors": ["src/colorimetry/conv.c:zsl_clr_conv_uv60_cct_ohno2014"]}
{"id": "C103", "title": "McCamy and Ohno 2011 methods, dispatch and rejection", "statement": "zsl_clr_conv_uv60_cct computes McCamy's cubic or Ohno's 2011 polynomials exactly as published, falls back to Ohno 2014 for an unknown method, and every method rejects flagged chromaticities with -EINVAL and flags both results.", "quantifier": "all methods, all real chromaticities off the singular points", "why_tests_cant": "real-valued inputs", "anchors": ["src/colorimetry/conv.c:zsl_clr_conv_uv60_cct", "src/colorimetry/conv.c:zsl_clr_conv_uv60_cct_mccamy", "src/colorimetry/conv.c:zsl_clr_conv_uv60_cct_ohno2011"]}
{"id": "C104", "title": "Reference data are complete and consistent", "statement": "zsl_clr_illum_get finds every illuminant for every observer, with luminance 1; zsl_clr_rgbccm_get returns a regular 3x3 matrix for every enumerator; each RGB space maps its reference white to (1,1,1) within 0.0002 and does not flag it as out of gamut; the observer functions are smooth.", "quantifier": "all illuminants, observers, RGB spaces, memory contents and configurations", "why_tests_cant": "relations between tables; one wrong digit in one entry goes unnoticed by samples", "anchors": ["src/colorimetry/illuminants.c:zsl_clr_illum_get", "src/colorimetry/rgbccms.c:zsl_clr_rgbccm_get", "src/colorimetry/observers.c"]}
{"id": "C108", "title": "Quadric fit", "statement": "zsl_sta_quad_fit stores the coefficients of the quadric that misses the given points least in the sum of squares, so points on one quadric give back that quadric; data that are not triples and outputs that do not hold nine coefficients give -EINVAL without writing; points that do not determine a quadric are reported.", "quantifier": "all finite sets of real points, any number of them", "why_tests_cant": "optimality is a claim about all other quadrics, for every point set", "anchors": ["src/statistics.c: zsl_sta_quad_fit"]}
{"id": "C109", "title": "Fast magnetometer calibration", "statement": "After zsl_fus_cal_magn_fast, zsl_fus_cal_corr_vec maps all readings on the fitted ellipsoid to one magnitude, the given field magnitude (50 if none is given), and -b is the centre of the ellipsoid; wrong shapes and a negative magnitude give -EINVAL without writing.", "quantifier": "all data sets whose fitted quadric is an ellipsoid, all magnitudes", "why_tests_cant": "claim about every point of every ellipsoid", "anchors": ["src/orientation/fusion/calibration.c: zsl_fus_cal_magn_fast, zsl_fus_cal_corr_vec"]}
{"id": "C110", "title": "Iterative magnetometer calibration", "statement": "zsl_fus_cal_magn returns a symmetric soft iron matrix; for undistorted readings (on a sphere) it is the identity and b is the negated centre; wrong shapes and mu below 1 give -EINVAL without writing.", "quantifier": "all data sets, all starting values", "why_tests_cant": "histories of arbitrary length of a damped iteration", "anchors": ["src/orientation/fusion/calibration.c: zsl_fus_cal_magn"]}
{"id": "C105", "title": "Time weighted mean", "statement": "zsl_sta_time_weighted_mean stores the mean over time of the broken line through the points (time, value), whatever the order of the points, and it lies between the smallest and the largest value; mismatched sizes, negative values and repeated times give -EINVAL and leave the output alone.", "quantifier": "all vectors of non-negative values and distinct times, in any order", "why_tests_cant": "every ordering of every set of samples", "anchors": ["src/statistics.c: zsl_sta_time_weighted_mean"]}
{"id": "C106", "title": "Weighted median", "statement": "zsl_sta_weighted_median stores a value such that the data below it and the data above it have at most half of the weight each, whatever the order of the data; mismatched sizes, negative weights and weights that do not add up to one give -EINVAL.", "quantifier": "all data and weights, in any order", "why_tests_cant": "every ordering of every weighted data set", "anchors": ["src/statistics.c: zsl_sta_weighted_median"]}
{"id": "C107", "title": "Mode", "statement": "zsl_sta_mode stores exactly the values that occur most often, each once, and sets the size of the output to their number.", "quantifier": "all data vectors", "why_tests_cant": "every data set, including several modes and zero", "anchors": ["src/statistics.c: zsl_sta_mode"]}
{"id": "C111", "title": "The Kalman filter refuses unusable calls without side effects", "statement": "A feed of the extended Kalman filter with a missing sensor, a sensor vector of another size than three or a negative variance returns -EINVAL and changes neither the readings, the configuration, the covariance nor the attitude.", "quantifier": "all sensor pointers and sizes, variances, attitudes, covariances and both states of the filter (started or not)", "why_tests_cant": "every combination of arguments and every previous history", "anchors": ["src/orientation/fusion/kalman.c: zsl_fus_kalm_feed, zsl_fus_kalman, zsl_fus_kalm_quat_init, zsl_fus_kalm_P_init"]}
{"id": "C112", "title": "The Kalman filter computes the equations of the extended Kalman filter", "statement": "For real readings, non-negative variances and a positive sample frequency a feed succeeds; covariance and attitude are predicted from the rate and corrected with the gain P H^T S^-1; the attitude stays a unit quaternion in every history; the first feed starts from the frame given by the readings and the identity covariance.", "quantifier": "all real readings, inclinations, variances, frequencies, attitudes, covariances and histories of calls", "why_tests_cant": "infinitely many states and unbounded histories", "anchors": ["src/orientation/fusion/kalman.c: zsl_fus_kalm_feed, zsl_fus_kalman, zsl_fus_kalm_quat_init"]}
{"id": "C113", "title": "The covariance of the Kalman filter stays symmetric and positive semidefinite", "statement": "If the covariance in the configuration is symmetric and positive semidefinite before a feed it is so afterwards, and a measurement never increases it above the predicted covariance.", "quantifier": "all positive semidefinite covariances, readings, attitudes and variances", "why_tests_cant": "a statement on all quadratic forms for every reachable state", "anchors": ["src/orientation/fusion/kalman.c: zsl_fus_kalman"]}
{"id": "C114", "title": "Readings which agree with the attitude leave it alone", "statement": "If the readings of a resting device are exactly the directions the attitude predicts for gravity and the magnetic field, a feed of the Kalman filter does not change the attitude.", "quantifier": "all attitudes, covariances and variances", "why_tests_cant": "a fixed point property for every attitude", "anchors": ["src/orientation/fusion/kalman.c: zsl_fus_kalman"]}
{"id": "C115", "title": "Vector functions stay within their buffers whatever the vectors contain", "statement": "Called with vectors whose buffers hold at least their declared size, the functions of the vector module never read or write outside the buffers, whatever the elements are, including infinities and NaN, and whatever the sizes of the arguments relative to each other; output vectors keep their size and buffer. Copying a vector, or an array into a vector, stays within the buffers exactly when the buffer of the destination, or the array, is long enough. zsl_vec_get_subset does so for every offset and length: where their sum wraps around to an index inside the vector it refuses the call and leaves the output alone.", "quantifier": "all scalars of any format, all sizes and combinations of sizes", "why_tests_cant": "absence of bad accesses for every content and every combination of sizes", "anchors": ["src/vectors.c"]}
{"id": "C116", "title": "Matrix functions stay within their buffers whatever the matrices contain", "statement": "Called with matrices whose buffers hold at least rows * cols elements, the elementary matrix functions (access, initialisation, copy, arithmetic, transpose, minors, determinant, adjoint, elimination, inverse, wedge product, extrema and tests) never read or write outside the buffers, whatever the elements are, for every combination of shapes; the determinant, adjoint, minor and elimination functions need square matrices. The functions that copy a row or column from or to an array stay within the array exactly when it is long enough. zsl_mtx_reduce, which accepts every shape one row and one column larger than the output, stays within its buffers exactly when the matrix has not more columns than rows.", "quantifier": "all scalars of any format, all shapes", "why_tests_cant": "absence of bad accesses for every content and every combination of shapes", "anchors": ["src/matrices.c"]}
{"id": "C117", "title": "Decompositions stay within their buffers whatever the matrices contain", "statement": "Called with square matrices and outputs of the same shape, the matrix decompositions (Gram-Schmidt, column normalisation, Cholesky, balancing, Householder, QR, QR iteration, eigenvalues, eigenvectors) never read or write outside the buffers, whatever the elements are and whatever the uninitialised locals hold. Gram-Schmidt and column normalisation into an output with more rows than the input read past the end of a local column, whatever the matrix. The Householder matrix is defined exactly for matrices with a row, and with two rows in the Hessenberg form. zsl_mtx_qrd with a triangular factor smaller than the input is undefined; with an orthogonal factor of the wrong shape it returns 0 and leaves that factor as it was.", "quantifier": "all scalars of any format, all sizes, iteration counts and contents of uninitialised locals", "why_tests_cant": "absence of bad accesses for every content, size and iteration count", "anchors": ["src/matrices.c: zsl_mtx_gram_schmidt, zsl_mtx_cols_norm, zsl_mtx_cholesky, zsl_mtx_balance, zsl_mtx_householder, zsl_mtx_qrd, zsl_mtx_qrd_iter, zsl_mtx_eigenvalues, zsl_mtx_eigenvectors"]}
{"id": "C118", "title": "Eigenvalues of triangular and diagonal matrices are the diagonal entries", "statement": "For an upper triangular matrix of any size, zsl_mtx_eigenvalues returns 0 and stores the diagonal entries, whatever the iteration count and the contents of the output and of the uninitialised scratch matrices: in order if the matrix passes the symmetry test (in particular if it is diagonal), otherwise with the entries in [0, 1e-6) replaced by zeros moved to the end. The function returns for every matrix.", "quantifier": "all real upper triangular matrices of all sizes, all iteration counts, all contents of outputs and scratch matrices", "why_tests_cant": "all sizes and entries; return of the balancing loop for every matrix", "anchors": ["src/matrices.c: zsl_mtx_eigenvalues, zsl_mtx_balance, zsl_mtx_qrd, zsl_mtx_qrd_iter"]}
{"id": "C119", "title": "Eigenvectors are eigenvectors, independent, and complete when the matrix can be diagonalised", "statement": "When the elimination meets no entries strictly between 0 and 1e-6 in absolute value, zsl_mtx_eigenvectors stores b <= n columns; each is an eigenvector for a value within 1e-6 of a computed eigenvalue, the columns are linearly independent, they span the eigenspaces of all separated eigenvalues, and with the orthonormal flag the columns of one eigenvalue are orthonormal. The result is 0 exactly if b = n and -EEIGENSIZE otherwise. If the computed eigenvalues diagonalise the matrix, the result is 0 and A V = V diag(lambda) with V invertible, orthogonal for a symmetric matrix with the flag set. In particular this holds for every diagonal matrix with separated entries.", "quantifier": "all real square matrices of all sizes, all iteration counts, all contents of the output and of uninitialised locals", "why_tests_cant": "all matrices and sizes, including repeated eigenvalues and defective matrices", "anchors": ["src/matrices.c: zsl_mtx_eigenvectors, zsl_mtx_gauss_reduc, zsl_mtx_gram_schmidt, zsl_mtx_cols_norm"]}
{"id": "C120", "title": "The singular value decomposition reproduces the matrix", "statement": "For a matrix with at least as many rows as columns, if the eigenvalues of A^T A and A A^T come out exactly, in descending order and separated (zero or at least 1e-6 apart), zsl_mtx_svd returns 0 with U and V orthogonal, E holding the square roots of the eigenvalues of A^T A on its diagonal, and A = U E V^T, whatever the rank; in particular for every rectangular diagonal matrix with descending separated entries.", "quantifier": "all real matrices of all sizes and ranks, all iteration counts, all contents of outputs and uninitialised locals", "why_tests_cant": "all matrices, sizes and ranks", "anchors": ["src/matrices.c: zsl_mtx_svd"]}
{"id": "C121", "title": "The pseudo-inverse is the least squares inverse", "statement": "Under the assumptions of the decomposition, for a matrix of full column rank zsl_mtx_pinv returns 0 and the matrix (A^T A)^-1 A^T: a left inverse P of A with A P symmetric.", "quantifier": "all real matrices of full column rank, all sizes, iteration counts and contents of uninitialised locals", "why_tests_cant": "all matrices and sizes; behaviour at rank deficient matrices", "anchors": ["src/matrices.c: zsl_mtx_pinv, zsl_mtx_svd"]}
{"id": "C122", "title": "Shell commands print what the library computes and refuse bad arguments", "statement": "The command lat2g prints the gravity of every point given by a latitude in [-90, 90] and an altitude in [0, 10000], prints its usage without arguments or for help, and refuses missing, surplus and out of range arguments with -EINVAL and one line naming the problem, never reading beyond its words. The commands ct2rgb and ct2rgbf print the sRGB channels of a black body of the given positive temperature and a gamut warning exactly if a channel is out of gamut, and refuse zero and negative temperatures.", "quantifier": "all command lines, all ways of reading words as numbers", "why_tests_cant": "all arguments; the samples in the usage text cover the northern hemisphere only", "anchors": ["src/orientation/shell.c: zsl_orient_shell_cmd_lat2g", "src/colorimetry/shell.c: zsl_clr_shell_cmd_ct2rgb, zsl_clr_shell_cmd_ct2rgbf"]}
{"id": "C123", "title": "The ARM build of the vector functions agrees with the generic one", "statement": "The definitions of zsl_vec_add, zsl_vec_scalar_add, zsl_vec_scalar_mult and zsl_vec_scalar_div that are compiled for ARM Thumb2 meet the same specification as those in vectors.c, for every call.", "quantifier": "all scalars of any format, all vectors", "why_tests_cant": "agreement for all inputs; the tests run one configuration", "anchors": ["include/zsl/asm/arm/asm_arm_vectors.h: zsl_vec_add, zsl_vec_scalar_add, zsl_vec_scalar_mult, zsl_vec_scalar_div"]}
{"id": "C124", "title": "Vector operations in floating point have small rounding errors", "statement": "In floating point with relative rounding error u (no overflow or underflow), the dot product is wrong by at most gamma_n times the sum of the absolute products, where gamma_k = 1/(1-u)^k - 1; sum of squares, norm and distance have relative errors gamma_n, gamma_(n+1), gamma_(n+3); sum, difference and scaling round each element once; the mean is wrong by at most gamma_(n+2) times the mean absolute value; a nonzero vector made a unit vector has squared length one up to 2(n+4) roundings.", "quantifier": "all roundings with relative error u < 1 (single, double, any precision), all lengths, all finite data", "why_tests_cant": "a bound on the error for all data of all lengths; tests compare a few values with a tolerance", "anchors": ["src/vectors.c: zsl_vec_dot, zsl_vec_sum_of_sqrs, zsl_vec_norm, zsl_vec_dist, zsl_vec_add, zsl_vec_sub, zsl_vec_scalar_add, zsl_vec_scalar_mult, zsl_vec_ar_mean, zsl_vec_to_unit"]}
{"id": "C125", "title": "The matrix product in floating point has a small rounding error", "statement": "Every element of the computed matrix product is wrong by at most gamma_n times the sum of the absolute products of its row and column, n being the inner dimension.", "quantifier": "all roundings with relative error u < 1, all dimensions, all finite matrices", "why_tests_cant": "a bound for all matrices of all sizes", "anchors": ["src/matrices.c: zsl_mtx_mult"]}
{"id": "C126", "title": "Quaternion operations in floating point have small rounding errors", "statement": "The magnitude of a quaternion is right up to five roundings; a quaternion of length at least 2e-6 is made a unit quaternion up to six roundings per component and twelve in the squared length; the product is wrong in each component by at most four roundings of the sum of the absolute products.", "quantifier": "all roundings with relative error u <= 1/16, all finite quaternions", "why_tests_cant": "a bound for all quaternions", "anchors": ["src/orientation/quaternions.c: zsl_quat_magn, zsl_quat_to_unit, zsl_quat_mult"]}
{"id": "C127", "title": "Linear interpolation in floating point is accurate, monotone and exact at the ends", "statement": "With rounding, the interpolated ordinate is exact at the first point, monotone in the abscissa and wrong by at most six roundings of its two summands; interpolation by a weight in [0, 1] is exact at both ends and wrong by at most three roundings of its two summands.", "quantifier": "all roundings with relative error u < 1 that are monotone, all points, all abscissae between them", "why_tests_cant": "monotonicity under rounding for all pairs of abscissae", "anchors": ["src/interp.c: zsl_interp_lin_y, zsl_interp_lerp"]}
{"id": "C128", "title": "Variance, standard deviation and covariance in floating point keep their sign, symmetry and accuracy", "statement": "With rounding, the variance and the standard deviation are numbers and not negative, and lie between the exact ones times the factor of n+4 (n+5) roundings, up to the square of the error of the mean; the covariance does not depend on the order of its arguments and is wrong by at most n+4 roundings of the product of the deviations plus the product of the errors of the means; the covariance matrix is exactly symmetric with a diagonal that is not negative.", "quantifier": "all roundings with relative error u < 1, all lengths n >= 2, all finite data", "why_tests_cant": "bounds and signs for all data and all lengths", "anchors": ["src/statistics.c: zsl_sta_var, zsl_sta_sta_dev, zsl_sta_covar, zsl_sta_covar_mtx"]}
{"id": "C129", "title": "Linear regression in floating point is accurate", "statement": "With rounding, the computed slope is close to the least squares slope. True if the abscissae are spread widely enough compared with their distance from zero; false otherwise: the one-pass formula cancels.", "quantifier": "all roundings with relative error u < 1, all lengths, all finite data", "why_tests_cant": "the cancellation depends on the data in a way samples near zero do not show", "anchors": ["src/statistics.c: zsl_sta_linear_reg"]}
{"id": "C130", "title": "The attitude does not drift off the unit sphere", "statement": "In every history of calls of the feed functions of the fusion filters, whatever the readings, the attitude that started as zero or as a unit quaternion up to twelve roundings is so after every call, or is not finite: the length error does not grow with the number of calls.", "quantifier": "all roundings with relative error u < 1, all finite sequences of feeds of any of the six filters with any readings, configuration and frequency", "why_tests_cant": "ranges over unbounded histories; drift shows only after many steps", "anchors": ["src/orientation/fusion/*.c: zsl_fus_*_feed", "src/orientation/quaternions.c: zsl_quat_to_unit_d"]}
{"id": "C131", "title": "Physics helpers made of products, quotients and roots are accurate in floating point", "statement": "With rounding, each helper accepts exactly the arguments that exact arithmetic accepts, also where it decides on the sign of a computed value, and its result has a relative error of at most a stated number of roundings (between 1 and 19, constants included).", "quantifier": "all roundings with relative error u < 1, all finite arguments", "why_tests_cant": "a bound for all arguments", "anchors": ["src/physics/*.c: 90 functions"]}
{"id": "C132", "title": "Physics helpers which add terms of both signs have an error bounded by the terms", "statement": "With rounding, each of these helpers accepts exactly the arguments that exact arithmetic accepts, and its error is at most a stated number of roundings of the sum of the absolute values of the terms. A bound relative to the result does not hold: at the temperature nearest to 273.15 K the conversion to Celsius loses all digits.", "quantifier": "all roundings with relative error u < 1, all finite arguments; for the negative part all precisions", "why_tests_cant": "a bound for all arguments; cancellation shows at isolated arguments", "anchors": ["src/physics/*.c: zsl_phy_dyn_tension, zsl_phy_ener_mec, zsl_phy_ener_final, zsl_phy_fluid_bernoulli, zsl_phy_kin_*, zsl_phy_mom_elas, zsl_phy_mom_inelas, zsl_phy_photon_photoelectric, zsl_phy_proj_*, zsl_phy_rot_angle, zsl_phy_rot_omega, zsl_phy_thermo_*"]}
{"id": "C133", "title": "The QR iteration and the eigenvalues converge", "statement": "As the iteration count grows, the QR iteration of a matrix with a real basis of eigenvectors and no two eigenvalues adding up to zero becomes upper triangular, and the diagonal - and so the values stored by the eigenvalue function - converges to the eigenvalues with their multiplicities. For symmetric matrices the limit is diagonal and zero eigenvalues are allowed. With opposite eigenvalues it is false: for a symmetric matrix whose square is a multiple of the identity the diagonal never changes, however many iterations are asked for.", "quantifier": "all sizes, all real matrices with these properties, all iteration counts, all contents of uninitialised memory", "why_tests_cant": "a limit; tests see single matrices at a fixed number of iterations", "anchors": ["src/matrices.c: zsl_mtx_qrd_iter, zsl_mtx_eigenvalues, zsl_mtx_qrd, zsl_mtx_balance"]}
{"id": "C134", "title": "The singular values converge", "statement": "Whenever the singular value decomposition of a matrix with at least as many rows as columns returns, its second output is a rectangular diagonal matrix, and as the iteration count grows its diagonal converges to the singular values with their multiplicities.", "quantifier": "all shapes with rows >= columns, all real matrices of any rank, all iteration counts", "why_tests_cant": "a limit; tests see single matrices at a fixed number of iterations", "anchors": ["src/matrices.c: zsl_mtx_svd, zsl_mtx_eigenvalues"]}
{"id": "C135", "title": "A success return of the eigenvalue function certifies the values", "statement": "When zsl_mtx_eigenvalues returns 0 for a matrix that is not symmetric, the stored values are, up to replacing those from 0 up to 1e-6 by zero, exactly the eigenvalues with multiplicity of a nearby matrix: the difference from the input is, in suitable coordinates, a matrix with elements only just below the diagonal, all smaller than 1e-6. Otherwise it returns -ECOMPLEXVAL with fewer than n values.", "quantifier": "all n, all real matrices that fail the symmetry test, all iteration counts, all contents of uninitialised memory for which the call returns", "why_tests_cant": "the claim is about every matrix and every iteration count; a test only sees that some known eigenvalues come out", "anchors": ["src/matrices.c:zsl_mtx_eigenvalues", "src/matrices.c:zsl_mtx_qrd", "src/matrices.c:zsl_mtx_qrd_iter"]}
{"id": "C136", "title": "Eigenvalues far from the returned values do not exist, and complex eigenvalues are reported", "statement": "When zsl_mtx_eigenvalues returns 0 for a matrix that is not symmetric, every real or complex eigenvalue z of the input satisfies prod |z - l_i| <= n 1e-6 ((1 + sqrt n) K)^(n-1), where the l_i are the returned values and K the sum of the absolute values of the balanced matrix. So an eigenvalue with an imaginary part that is not tiny always makes it return -ECOMPLEXVAL, whatever the iteration count.", "quantifier": "all n, all real matrices that fail the symmetry test, all iteration counts, all complex eigenvalues", "why_tests_cant": "no finite set of matrices and iteration counts shows that complex eigenvalues are never missed", "anchors": ["src/matrices.c:zsl_mtx_eigenvalues", "src/matrices.c:zsl_mtx_balance"]}
{"id": "C137", "title": "Balancing balances", "statement": "In the matrix stored by zsl_mtx_balance the sum of the absolute values of row i and that of column i are within a factor of 7/3 of each other unless one of them is zero, and the sum of the absolute values of all elements is not larger than that of the input.", "quantifier": "all n, all real matrices, all i", "why_tests_cant": "the loop runs until nothing changes; what holds at its end for every input is a statement about all runs", "anchors": ["src/matrices.c:zsl_mtx_balance"]}
{"id": "C138", "title": "Dot and matrix products in a format with overflow and underflow", "statement": "Whenever the computed dot product is finite it differs from the exact one by at most ((1+u)^(n+1)-1) sum|x_i y_i| + 2n eta (1+u)^(n+1), with unit roundoff u and half the smallest number eta; it is finite if (1+u)^(n+1) (sum|x_i y_i| + 2n eta) does not exceed the largest number. The same holds for every element of a matrix product. A sum of squares is never NaN, is infinite as soon as one square overflows and zero if all squares underflow.", "quantifier": "all floating point formats (all IEEE binary formats), all n, all finite data of any size", "why_tests_cant": "no finite set of data shows that no combination of overflow, underflow and rounding breaks the bound", "anchors": ["src/vectors.c:zsl_vec_dot", "src/vectors.c:zsl_vec_sum_of_sqrs", "src/matrices.c:zsl_mtx_mult"]}
{"id": "C139", "title": "Norm, unit vector, distance and projection do not overflow or underflow needlessly", "statement": "zsl_vec_norm is finite and accurate whenever the exact norm is a normal number of the format, and zsl_vec_to_unit then returns a vector of length about one in the same direction.", "quantifier": "all floating point formats, all n, all finite vectors", "why_tests_cant": "overflow and underflow depend on the size of the data; tests use data near one", "anchors": ["src/vectors.c:zsl_vec_norm", "src/vectors.c:zsl_vec_to_unit", "src/vectors.c:zsl_vec_dist", "src/vectors.c:zsl_vec_project"]}
{"id": "C140", "title": "Mean and variance do not overflow needlessly", "statement": "The arithmetic mean of finite data is finite and accurate, and the variance of equal data is zero, also for data near the largest number.", "quantifier": "all floating point formats, all n, all finite data", "why_tests_cant": "overflow depends on the size of the data; tests use data near one", "anchors": ["src/vectors.c:zsl_vec_ar_mean", "src/statistics.c:zsl_sta_var", "src/statistics.c:zsl_sta_std_dev"]}
{"id": "C141", "title": "Quaternions of any finite size can be normalised and inverted", "statement": "zsl_quat_magn is finite and accurate whenever the exact magnitude is a normal number of the format, and zsl_quat_to_unit then returns a quaternion of magnitude about one.", "quantifier": "all floating point formats, all finite quaternions of magnitude above 2e-6", "why_tests_cant": "overflow depends on the size of the data; tests use unit quaternions", "anchors": ["src/orientation/quaternions.c:zsl_quat_magn", "src/orientation/quaternions.c:zsl_quat_to_unit", "src/orientation/quaternions.c:zsl_quat_inv"]}
{"id": "C142", "title": "Fusion filters in use at the same time do not influence each other", "statement": "When several instances of a fusion filter are used, each with its own configuration and attitude, the result codes, sensor vectors, configuration and attitude of every instance are those which its own calls of init and feed would give without the other instances, however the calls are interleaved.", "quantifier": "all numbers of instances, all configurations and readings, all interleavings of init, feed and writes by the owners", "why_tests_cant": "ranges over all schedules of the calls of all instances; tests use one instance per algorithm", "anchors": ["include/zsl/orientation/fusion/fusion.h:struct zsl_fus_drv", "src/orientation/fusion/mahony.c:zsl_fus_mahn_init", "src/orientation/fusion/mahony.c:zsl_fus_mahn_feed", "src/orientation/fusion/madgwick.c:zsl_fus_madg_feed", "src/orientation/fusion/complementary.c:zsl_fus_comp_feed", "src/orientation/fusion/saam.c:zsl_fus_saam_feed", "src/orientation/fusion/aqua.c:zsl_fus_aqua_feed", "src/orientation/fusion/kalman.c:zsl_fus_kalm_feed"]}
{"id": "C143", "title": "A fusion filter can be restarted", "statement": "After any calls, an owner who restores the configuration and the attitude and calls init again gets from the following calls the results which they have after power-up.", "quantifier": "all histories before the restart, all calls after it, all configurations", "why_tests_cant": "depends on the whole history since power-up", "anchors": ["src/orientation/fusion/mahony.c:zsl_fus_mahn_init", "src/orientation/fusion/madgwick.c:zsl_fus_madg_init", "src/orientation/fusion/complementary.c:zsl_fus_comp_init", "src/orientation/fusion/saam.c:zsl_fus_saam_init", "src/orientation/fusion/aqua.c:zsl_fus_aqua_init", "src/orientation/fusion/kalman.c:zsl_fus_kalm_init"]}
{"id": "C144", "title": "Threads do not disturb each other's cubic interpolation", "statement": "A call of zsl_interp_cubic_arr returns the value and code which it would return on its own, and stays inside its table, whatever calls of the function other threads make meanwhile, on the same or on other tables.", "quantifier": "all numbers of threads, all tables and arguments, all schedules of their steps", "why_tests_cant": "the outcome depends on the point at which a thread is interrupted; tests run one thread", "anchors": ["src/interp.c:zsl_interp_cubic_arr"]}
{"id": "C145", "title": "The output may be one of the inputs", "statement": "A vector, matrix or quaternion function whose output argument is the same object as one of its inputs stores what it would store in a separate output, and changes no other object.", "quantifier": "all vector, matrix and quaternion functions with an output and an input of the same type, all ways in which their pointer arguments can be equal, all sizes and contents", "why_tests_cant": "pointer patterns times sizes times contents is unbounded; the order of reads and writes decides, and it differs from function to function", "anchors": ["src/vectors.c:zsl_vec_project", "src/vectors.c:zsl_vec_cross", "src/vectors.c:zsl_vec_sort", "src/statistics.c:zsl_sta_demean", "src/matrices.c:zsl_mtx_binary_op", "src/matrices.c:zsl_mtx_mult", "src/matrices.c:zsl_mtx_trans", "src/matrices.c:zsl_mtx_adjoint_3x3", "src/matrices.c:zsl_mtx_inv", "src/matrices.c:zsl_mtx_cholesky", "src/matrices.c:zsl_mtx_gram_schmidt", "src/matrices.c:zsl_mtx_cols_norm", "src/vectors.c:zsl_vec_get_subset", "src/vectors.c:zsl_vec_sum", "src/vectors.c:zsl_vec_mean", "src/matrices.c:zsl_mtx_gauss_elim", "src/matrices.c:zsl_mtx_balance", "src/matrices.c:zsl_mtx_adjoint", "src/matrices.c:zsl_mtx_qrd", "src/matrices.c:zsl_mtx_eigenvectors", "src/matrices.c:zsl_mtx_svd", "src/matrices.c:zsl_mtx_pinv", "src/statistics.c:zsl_sta_mode", "src/statistics.c:zsl_sta_covar_mtx", "src/orientation/quaternions.c:zsl_quat_exp", "src/orientation/quaternions.c:zsl_quat_slerp"]}
{"id": "C146", "title": "A fusion filter of a device at rest settles on the measured attitude", "statement": "When a device does not turn and the same readings are fed again and again, the attitude of a fusion filter tends to the one the readings describe: for the complementary filter the attitude given by accelerometer and magnetometer, for AQUA and Mahony with an accelerometer only, the attitude whose vertical is the measured one. Each feed brings the orientation closer to it.", "quantifier": "all starting attitudes, readings, gains and sampling frequencies; histories of any number of feeds", "why_tests_cant": "a limit over unbounded histories from every attitude; a test runs a few feeds from one attitude", "anchors": ["src/orientation/fusion/complementary.c:zsl_fus_comp_feed", "src/orientation/fusion/aqua.c:zsl_fus_aqua_feed", "src/orientation/fusion/mahony.c:zsl_fus_mahn_feed"]}
{"id": "C147", "title": "Switching the bounds checks off changes nothing for calls that they accept", "statement": "A program whose calls all succeed in a build with bounds checks behaves the same in a build without them: every call that returns 0 with the checks returns 0 without them and stores the same results, touching no memory outside the arrays. Calls that the checks reject have no defined effect without them.", "quantifier": "all functions with guarded checks, all shapes, indices, contents and stale outputs of calls that the checked build accepts, including the checks of the functions called inside", "why_tests_cant": "a comparison of two builds over all accepted calls of unbounded size; functions rely silently on checks of the functions they call", "anchors": ["Kconfig:ZSL_BOUNDS_CHECKS", "src/vectors.c:zsl_vec_get_subset", "src/vectors.c:zsl_vec_add", "src/matrices.c:zsl_mtx_get", "src/matrices.c:zsl_mtx_mult", "src/matrices.c:zsl_mtx_reduce", "src/matrices.c:zsl_mtx_gauss_reduc", "src/matrices.c:zsl_mtx_svd", "src/statistics.c:zsl_sta_percentile", "src/statistics.c:zsl_sta_mult_linear_reg", "src/orientation/quaternions.c:zsl_quat_to_rot_mtx", "src/orientation/ahrs.c:zsl_att_from_accelmag", "src/orientation/fusion/mahony.c:zsl_fus_mahn_feed", "src/orientation/fusion/kalman.c:zsl_fus_kalm_feed", "src/orientation/fusion/calibration.c:zsl_fus_cal_madg", "src/orientation/fusion/calibration.c:zsl_fus_cal_magn", "src/colorimetry/conv.c:zsl_clr_conv_xyz_rgbf"]}
{"id": "C148", "title": "Orientation and fusion functions stay within their buffers whatever the readings contain", "statement": "Quaternion, attitude and compass functions and the feeds of the six fusion filters, called with vectors and matrices whose buffers hold what their sizes promise, never read or write outside a buffer and return with the sizes of all arguments unchanged, whatever numbers the buffers hold: NaN, infinities, zeros or denormals included. The Kalman filter returns 0 whenever the readings have size 3 and no variance is negative.", "quantifier": "all scalar values including NaN and infinities, all sizes and shapes, all earlier states of the filter, all uninitialised locals", "why_tests_cant": "ranges over all contents of the readings and of the state, including values no sensor should deliver", "anchors": ["src/orientation/quaternions.c:zsl_quat_from_ang_vel", "src/orientation/quaternions.c:zsl_quat_from_rot_mtx", "src/orientation/ahrs.c:zsl_att_from_accelmag", "src/orientation/compass.c:zsl_comp_magn_north", "src/orientation/fusion/mahony.c:zsl_fus_mahn_feed", "src/orientation/fusion/madgwick.c:zsl_fus_madg_feed", "src/orientation/fusion/complementary.c:zsl_fus_comp_feed", "src/orientation/fusion/saam.c:zsl_fus_saam_feed", "src/orientation/fusion/aqua.c:zsl_fus_aqua_feed", "src/orientation/fusion/kalman.c:zsl_fus_kalm_feed"]}
{"id": "C149", "title": "Statistics, interpolation, calibration, physics and colour functions stay within their buffers whatever the data contain", "statement": "The statistics functions that do not sort, the interpolation functions, the calibration functions, the series and parallel networks, the centre of mass and the conversions of spectra and colour temperatures, called with vectors, matrices and tables that hold what their sizes promise, never read or write outside a buffer and leave the sizes of their arguments unchanged, whatever the data are: NaN, infinities, singular systems, interpolation tables that are not in order. An index that zsl_interp_find_x reports with code 0 has a right neighbour in the table, and zsl_sta_mode reports at most as many modes as there are data.", "quantifier": "all scalar values including NaN and infinities, all sizes and shapes, all tables ordered or not, all uninitialised locals and outcomes of the allocation", "why_tests_cant": "ranges over all contents of the data, including tables that violate the documented order", "anchors": ["src/statistics.c:zsl_sta_mode", "src/statistics.c:zsl_sta_mult_linear_reg", "src/statistics.c:zsl_sta_quad_fit", "src/interp.c:zsl_interp_find_x", "src/interp.c:zsl_interp_lin_y_arr", "src/interp.c:zsl_interp_cubic_calc", "src/interp.c:zsl_interp_cubic_arr", "src/orientation/fusion/calibration.c:zsl_fus_cal_magn_fast", "src/orientation/fusion/calibration.c:zsl_fus_cal_madg", "src/physics/electricity.c:zsl_phy_elcty_res_series", "src/physics/mass.c:zsl_phy_mass_center", "src/colorimetry/conv.c:zsl_clr_conv_spd_xyz"]}
{"id": "C150", "title": "Members of the measurement header are independent and lie where the words expect them", "statement": "A member of struct zsl_mes_header, bit-fields included, holds what was stored in it; storing it changes no other member; the members make up the whole header; filter_bits, unit_bits, srclen_bits and flags_bits are the members at their documented positions, so a header written member by member can be compared or filtered word by word. Every enumerator fits the member it is meant for, different enumerators of one enumeration have different values, and combined units carry their measurement type in the high byte.", "quantifier": "all headers, all members, all values; all enumerators", "why_tests_cant": "ranges over all 2^96 headers and all values of each member", "anchors": ["include/zsl/measurement/measurement.h:zsl_mes_header", "include/zsl/measurement/base.h:zsl_mes_type", "include/zsl/measurement/unit.h:zsl_mes_unit_si", "include/zsl/measurement/unit.h:zsl_mes_unit_ctype"]}
{"id": "C151", "title": "The timing macros measure the elapsed cycles", "statement": "The number of cycles that ZSL_INSTR_STOP converts to nanoseconds is the number of cycles since ZSL_INSTR_START modulo 2^32, also when the 32-bit counter has passed its end in between.", "quantifier": "all pairs of counter values", "why_tests_cant": "a wrap-around of the cycle counter happens once in minutes of run time", "anchors": ["include/zsl/instrumentation.h:ZSL_INSTR_STOP"]}
{"id": "C152", "title": "Print functions print every element once, in order", "statement": "zsl_vec_print and zsl_mtx_print print the elements of the vector or matrix in order, each exactly once, a matrix one line per row, read nothing outside the buffer and return 0; zsl_quat_print and zsl_eul_print print the components in order.", "quantifier": "all sizes and shapes, all contents", "why_tests_cant": "ranges over all shapes and contents", "anchors": ["src/vectors.c:zsl_vec_print", "src/matrices.c:zsl_mtx_print", "src/orientation/quaternions.c:zsl_quat_print", "src/orientation/euler.c:zsl_eul_print"]}
{"id": "C153", "title": "A gradient filter steps against the gradient of its misfit", "statement": "The correction of a Madgwick feed is a step against the gradient of the squared difference between the directions predicted from the attitude (as zsl_quat_rot turns them) and the measured ones, so that for a device at rest a feed with a small gain brings the predicted vertical closer to the measured one.", "quantifier": "all attitudes, readings, gains and sampling frequencies; histories of any number of feeds", "why_tests_cant": "a statement about derivatives and about every attitude; the existing tests feed a few readings and only look at return codes", "anchors": ["src/orientation/fusion/madgwick.c:zsl_fus_madg_feed", "src/orientation/fusion/madgwick.c:zsl_fus_madgwick_imu", "src/orientation/fusion/madgwick.c:zsl_fus_madgwick"]}
{"id": "C154", "title": "The inverse error function and the normal quantile invert, and keep order", "statement": "For every x in (-1, 1) the error function of what zsl_prob_erf_inv returns is x up to a relative error of 0.00007. For every mean, every positive standard deviation and every probability p in (0, 1), zsl_prob_normal_cdf of what zsl_prob_normal_cdf_inv returns is within 0.000035 of p. A larger argument never gives a smaller result. (The last part fails by up to 0.00000015 where the two polynomials meet, and the result itself, unlike its error function, is far from the inverse when x is within 1e-12 of 1.)", "quantifier": "every x in (-1, 1); every mean, positive deviation and probability in (0, 1); every ordered pair of arguments", "why_tests_cant": "A test compares a handful of arguments with a table. The bound has to hold between them, over two polynomials in a logarithm and all the way to the ends of the interval, and the drop in order appears only across one point.", "anchors": ["src/probability.c: zsl_prob_erf_inv, zsl_prob_normal_cdf_inv, zsl_prob_normal_cdf"]}
{"id": "C155", "title": "Colour temperature round trip", "statement": "The chromaticity that zsl_clr_conv_ct_uv60 computes for a black body of temperature T (2 degree observer), given to zsl_clr_conv_uv60_cct with the Ohno 2014 method, gives a temperature within 0.66 percent of T; both calls return 0 and no component is flagged. (The round trip is not exact: what comes back moves in steps of one percent, and halfway between two rows of the table the error is at least 0.4 percent.)", "quantifier": "every real temperature from 1000 K to 19986.35 K, any previous content of the output structures", "why_tests_cant": "The forward function sums Planck's law over 95 wavelengths and the backward one searches a table of 304 rows; a test compares a few temperatures, the bound has to hold for every temperature between every two rows.", "anchors": ["src/colorimetry/conv.c: zsl_clr_conv_ct_uv60, zsl_clr_conv_uv60_cct, zsl_clr_conv_uv60_cct_ohno2014", "src/colorimetry/observers.c: zsl_clr_obs_get"]}
{"id": "C156", "title": "Luminous efficiency has the shape of an efficiency", "statement": "At every wavelength zsl_clr_lef_lerp is between 0 and 1; it rises up to its peak (505 nm dark-adapted, 555 nm light-adapted) and falls beyond. The light-adapted function agrees with the luminance function of the 2 degree observer, which rises up to 555 nm and falls beyond for both observers. (The upper bound fails for the dark-adapted function, which is tabulated in thousandths.)", "quantifier": "every wavelength, every ordered pair of wavelengths, both functions and observers", "why_tests_cant": "Order is a claim about every pair of wavelengths and bounds about every wavelength; a test looks at a few tabulated values.", "anchors": ["src/colorimetry/lumeff.c: zsl_clr_lef_lerp, zsl_clr_lef_get", "src/colorimetry/observers.c: zsl_clr_obs_get"]}
{"id": "C157", "title": "McCamy's colour temperature of a black body", "statement": "The chromaticity that zsl_clr_conv_ct_uv60 computes for a black body of temperature T (2 degree observer), given to zsl_clr_conv_uv60_cct with McCamy's method, gives T back within 1.4 percent between 1800 K and 9300 K and within 4.1 percent up to 12500 K, and between 14.8 percent too cold and 0.8 percent too hot up to 19900 K; both calls return 0 and the result says that no distance from the locus was computed. (The method is offered for every temperature without a warning, but hot bodies come back at least 8.2 percent too cold and those below 1180 K at least 50 percent too hot.)", "quantifier": "every real temperature in the stated ranges, any previous content of the output structures", "why_tests_cant": "The forward function sums Planck's law over 95 wavelengths and the formula is a cubic of a quotient; a test compares a few temperatures, the bound is about every temperature in the range.", "anchors": ["src/colorimetry/conv.c: zsl_clr_conv_ct_uv60, zsl_clr_conv_uv60_cct, zsl_clr_conv_uv60_cct_mccamy"]}
{"id": "C158", "title": "Cholesky factorisation in floating point is backward stable", "statement": "In floating point arithmetic with relative rounding error u, zsl_mtx_cholesky applied to a symmetric n by n matrix A that is positive definite by a margin (its quadratic form is at least lam times that of its diagonal, lam about 2 n (n+2) u) returns 0 and stores a finite lower triangular L with positive diagonal, and every element of L L^T differs from that of A by at most about (n+2) u times the geometric mean of the two diagonal elements. Whenever the stored factor is finite with positive diagonal, L L^T is A up to n+2 roundings of the products that make it up. (Without the margin it may return 0 and store NaN.)", "quantifier": "every size n, every symmetric matrix, every rounding with bounded relative error (without overflow and underflow), any previous content of the output", "why_tests_cant": "Rounding errors of every operation accumulate in a way that depends on the data and the size; a test sees one matrix and one processor, the bound is for all of them.", "anchors": ["src/matrices.c: zsl_mtx_cholesky"]}
{"id": "C159", "title": "Determinant, adjoint and 3x3 inverse in floating point", "statement": "In floating point arithmetic with relative rounding error u, zsl_mtx_deter of an m by m matrix returns 0 and stores a number that differs from the determinant by at most the error of m (m+3) / 2 roundings (five for m = 3) times the sum of the absolute values of the products in the determinant; so a determinant larger than that bound gets the right sign. The elements of zsl_mtx_adjoint and zsl_mtx_adjoint_3x3 obey the corresponding bound, and zsl_mtx_inv_3x3 stores the inverse up to an error that grows with the condition of the determinant. A matrix of integers gets its exact determinant if that sum of products fits the precision. (A singular matrix is recognised only by comparing the computed determinant with zero, and can be missed: then numbers of order 10^15 are stored with return value 0.)", "quantifier": "every size, every matrix, every rounding with bounded relative error (without overflow and underflow), any previous content of outputs and locals", "why_tests_cant": "The number of roundings grows with the size and their effect depends on the data; tests compare a few small matrices with a tolerance.", "anchors": ["src/matrices.c: zsl_mtx_deter, zsl_mtx_deter_3x3, zsl_mtx_adjoint, zsl_mtx_adjoint_3x3, zsl_mtx_inv_3x3"]}
{"id": "C160", "title": "Integer data is processed exactly", "statement": "With elements that are integers, and with results (sums of absolute products, where the function adds products) of at most 53 binary digits in double precision or 24 in single precision, the vector and matrix functions make no rounding error at all: sum, difference, scaling, dot product, sum of squares and cross product of vectors; sum, difference, scaling and product of matrices; the determinant of any size; the 3x3 adjoint; the 3x3 inverse of a matrix with determinant 1 or -1; the product of quaternions, chains of such products, conjugates and multiples.", "quantifier": "all sizes, all integer vectors and matrices within the stated bounds, every precision", "why_tests_cant": "Tests use small integers and a tolerance, so they would not notice a rounding error, and they cannot reach the bound for every size.", "anchors": ["src/vectors.c: zsl_vec_add, zsl_vec_sub, zsl_vec_scalar_add, zsl_vec_scalar_mult, zsl_vec_dot, zsl_vec_sum_of_sqrs, zsl_vec_cross", "src/matrices.c: zsl_mtx_add, zsl_mtx_sub, zsl_mtx_scalar_mult_d, zsl_mtx_mult, zsl_mtx_deter, zsl_mtx_adjoint_3x3, zsl_mtx_inv_3x3", "src/orientation/quaternions.c: zsl_quat_mult, zsl_quat_conj, zsl_quat_scale"]}
{"id": "C161", "title": "Rotating with quaternions in floating point", "statement": "In floating point arithmetic with relative rounding error u (at most 1/16), for quaternions longer than 2e-6: zsl_quat_inv gives the inverse up to twelve roundings; zsl_quat_mult and zsl_quat_diff give the product and a^-1 b up to twice 4 and twice 16 roundings of the length of the result; zsl_quat_rot gives u b u*, u the unit quaternion along a, up to four times 44 roundings of the length of b, so that rotating keeps the length of a vector up to as much (about 2e-14 relative in double precision). zsl_quat_to_rot_mtx of a unit quaternion differs from the rotation matrix of that quaternion by at most three times five roundings in every element.", "quantifier": "every rounding with bounded relative error (without overflow and underflow), every quaternion longer than 2e-6 and every pure quaternion, any previous content of the output", "why_tests_cant": "Tests compare a few rotations with a tolerance of 1e-6 or so; they do not bound the error for every attitude and every vector.", "anchors": ["src/orientation/quaternions.c: zsl_quat_mult, zsl_quat_inv, zsl_quat_diff, zsl_quat_rot, zsl_quat_to_unit, zsl_quat_to_rot_mtx"]}
{"id": "C162", "title": "Integrating a gyroscope in floating point", "statement": "Calling zsl_quat_from_ang_vel again and again in floating point arithmetic (relative rounding error u at most 1/64), over any number of readings of any size and any non-negative durations, starting from any attitude longer than 2e-6: every call succeeds, the length of the attitude stays one (its square up to twelve roundings, however many the readings), and its direction is off that of the exact integration by at most 18 times eight roundings per reading, so that the error grows at most linearly (below 2e-8 after a million readings in double precision).", "quantifier": "all lists of readings and durations, all starting attitudes longer than 2e-6, every rounding with bounded relative error (without overflow and underflow)", "why_tests_cant": "The error accumulates over arbitrarily long histories; a test runs one or a few steps.", "anchors": ["src/orientation/quaternions.c: zsl_quat_from_ang_vel, zsl_quat_to_unit, zsl_quat_mult, zsl_quat_scale"]}
{"id": "C163", "title": "Fusion filters stay normalised in floating point", "statement": "In floating point arithmetic (relative rounding error u at most 1/64, no overflow), every feed of the Mahony filter with non-negative gains, and every feed of the Madgwick filter with a gain of at most half the sampling frequency, from an attitude longer than 2e-6, with any finite readings (missing ones and zeros included), succeeds, produces no infinity and no NaN, and leaves an attitude whose squared length is one up to twelve roundings. So this holds after every history of feeds, however long: rounding errors in the length do not accumulate. The complementary filter with any weights from zero to one likewise: every feed gives numbers, and the attitude is of length one up to twelve roundings, or zero (when the two estimates it blends cancel), and then stays zero.", "quantifier": "all histories of readings, all gains in the stated range, all limits and previous feedbacks, all contents of uninitialised locals, every rounding with bounded relative error, every inclination whose sine and cosine the library computes as numbers, and (complementary filter) a library with numbers for the sine, cosine and atan2 of numbers", "why_tests_cant": "Tests feed a few readings; the claim is about arbitrarily long histories and all readings, including those where intermediate vectors vanish.", "anchors": ["src/orientation/fusion/mahony.c: zsl_fus_mahn_feed, zsl_fus_mahony, zsl_fus_mahony_imu", "src/orientation/fusion/madgwick.c: zsl_fus_madg_feed, zsl_fus_madgwick, zsl_fus_madgwick_imu", "src/orientation/fusion/complementary.c: zsl_fus_comp_feed, zsl_fus_comp"]}
{"id": "C164", "title": "Interpolating attitudes and composing many rotations in floating point", "statement": "In floating point arithmetic (no overflow), zsl_quat_lerp between two attitudes longer than 2e-6, at any parameter from zero to one, stores a quaternion whose squared length is one up to twelve roundings and which is off the direction of the point on the chord by at most three times nine roundings divided by the length of the chord there (provided that length is not below 2e-6 plus nine roundings); for attitudes with a non-negative scalar product by at most five times nine roundings. Multiplying any number n of quaternions one after another with zsl_quat_mult gives the exact product up to a relative error of (1 + 2g)^n - 1, with g four roundings: below 1e-9 for up to a million products in double precision.", "quantifier": "all attitudes longer than 2e-6, all parameters from zero to one, all lists of quaternions, every rounding with bounded relative error", "why_tests_cant": "Tests compare a few results with a tolerance; the growth of the error over arbitrarily long products and near the degenerate chord is not visible in them.", "anchors": ["src/orientation/quaternions.c: zsl_quat_lerp, zsl_quat_mult, zsl_quat_to_unit, zsl_quat_scale"]}
{"id": "C165", "title": "Quaternions from angles in floating point", "statement": "In floating point arithmetic, with a library whose sine and cosine are accurate up to k roundings: zsl_quat_from_euler stores, for any three angles, a quaternion off the exact product of the three rotations by at most one and a half times 3k+3 roundings plus two roundings of half the angles, so that its length is one up to as much; zsl_quat_from_axis_angle, for any axis longer than 2e-6 and any angle, stores cos(b/2) + sin(b/2) n, with n the unit vector of the axis, up to k+6 roundings and two roundings of half the angle. In double precision, with functions accurate to one rounding and angles up to a full turn, all errors are below 5e-15.", "quantifier": "all angles, all axes longer than 2e-6, every rounding with bounded relative error and every library with the stated accuracy", "why_tests_cant": "Tests compare a few angles with a tolerance; the bound is for all angles and every such library.", "anchors": ["src/orientation/quaternions.c: zsl_quat_from_euler, zsl_quat_from_axis_angle"]}
{"id": "C166", "title": "SAAM in floating point", "statement": "In floating point arithmetic zsl_fus_saam_feed returns 0 and an attitude made of numbers for every pair of accelerometer and magnetometer readings longer than 2e-6, whatever their directions. (Violated: for readings that are parallel the computed dot product of the normalised readings may exceed one, and all four components become NaN with return value 0.)", "quantifier": "all accelerometer and magnetometer readings longer than 2e-6, every rounding with relative error at most 1/16", "why_tests_cant": "Whether the argument of the square root turns negative depends on the last bit of the dot product; samples seldom hit it.", "anchors": ["src/orientation/fusion/saam.c: zsl_fus_saam_feed, zsl_fus_saam"]}
{"id": "C167", "title": "The angle between two accelerometer readings in floating point", "statement": "In floating point arithmetic zsl_att_accel_angle returns, for any two readings that are not zero, 0 and a number whose cosine is the cosine of the angle between the readings up to thirteen roundings and the error of the library's inverse cosine. (Violated: for parallel readings the computed cosine may exceed one; in double precision the angle between (1, 1, 1) and itself is NaN, with return value 0.)", "quantifier": "all nonzero readings, every rounding with bounded relative error, every library with an inverse cosine accurate up to k roundings", "why_tests_cant": "Whether the quotient exceeds one depends on the last bit of the product of the norms; a test of one reading with itself may or may not show it.", "anchors": ["src/orientation/ahrs.c: zsl_att_accel_angle"]}
{"id": "C168", "title": "In binary floating point, computed lengths bound the components", "statement": "In binary floating point arithmetic with any number of bits (round to nearest): the norm zsl_vec_norm returns is at least the absolute value of each element of the vector; every component of the quaternion zsl_quat_to_unit returns lies between -1 and 1, with no tolerance. Therefore zsl_quat_log stores numbers, never NaN, for every quaternion but zero, and zsl_quat_to_axis_angle stores numbers for every quaternion whose normalised scalar part is not exactly -1: neither ever takes an inverse cosine or a root outside its domain.", "quantifier": "all vectors of any length and all quaternions of representable numbers, every number of bits, every library that gives numbers within the domains", "why_tests_cant": "Being off by one unit in the last place on the wrong side of 1 gives NaN; samples cannot exclude that for all quaternions.", "anchors": ["src/vectors.c: zsl_vec_norm", "src/orientation/quaternions.c: zsl_quat_magn, zsl_quat_to_unit, zsl_quat_log, zsl_quat_to_axis_angle"]}
{"id": "C169", "title": "Ohno's two methods agree, and the first has no step", "statement": "For every chromaticity at an angle from 1.65 to 2.88 about (0.292, 0.24) for which both methods give a result, zsl_clr_conv_uv60_cct reports the same distance from the black body locus with the methods of 2011 and 2014, up to 0.000013. Where the method of 2011 changes over from one set of polynomials to the other (angle 2.54), its temperature makes a step of less than one kelvin on the locus, and off the locus of less than one more kelvin per relative deviation of the distance. The last correction of that method moves a temperature between 1000 K and 20000 K by at most 14 K above the locus, and below it by at most 490 K times the square of the distance in units of 0.03.", "quantifier": "all chromaticities in the stated range of angles, every distance", "why_tests_cant": "The polynomials have 42 published coefficients; one wrong digit shows only in some range of angles. Tests of a few chromaticities do not exclude it.", "anchors": ["src/colorimetry/conv.c: zsl_clr_conv_uv60_cct_ohno2011, zsl_clr_conv_uv60_cct_ohno2014"]}
{"id": "C170", "title": "Flat light is white, and the colour matching functions have the standard's shape", "statement": "Light with the same power at every wavelength converts to X, Y and Z that are equal up to 0.00013, for both observers (zsl_clr_conv_spd_xyz). The x function of each observer (zsl_clr_obs_get) has two humps and the z function one: between their turning points they rise and fall steadily.", "quantifier": "every power of the light, both observers, every step of the wavelength grid", "why_tests_cant": "The tables have 570 entries; a slip in one shows only in a property of all of them together or of each step.", "anchors": ["src/colorimetry/observers.c: zsl_clr_obs_get", "src/colorimetry/conv.c: zsl_clr_conv_spd_xyz"]}
{"id": "C171", "title": "Interpolation follows smooth functions", "statement": "If a table holds values of a function whose slope changes by at most K per unit, and no gap is wider than H, then the cubic interpolation (zsl_interp_cubic_calc, then zsl_interp_cubic_arr) is within K*H^2/2 of the function everywhere inside the table, with free ends or with the function's slopes given at the ends, and the linear one (zsl_interp_lin_y_arr) within K*H^2/8; zsl_interp_nn_arr is within L*H of a function with slopes of at most L. Polynomials of degree at most three are reproduced exactly by the cubic interpolation when the slopes at the ends are given. The stored second derivatives are the only ones for which the pieces join smoothly and meet the end conditions.", "quantifier": "all functions with the stated smoothness, all tables (any number of points, any spacing), all positions inside the table", "why_tests_cant": "It is a statement about every smooth function and every table; tests compare a few values of a few functions.", "anchors": ["src/interp.c: zsl_interp_cubic_calc, zsl_interp_cubic_arr, zsl_interp_lin_y_arr, zsl_interp_nn_arr"]}
{"id": "C172", "title": "Statistics of disturbed readings", "statement": "If no reading changes by more than e, then neither do the mean, the weighted mean, a percentile, the median and the quartiles (zsl_sta_mean, zsl_sta_weighted_mean, zsl_sta_percentile, zsl_sta_median, zsl_sta_quart), and the interquartile range changes by at most 2e; readings which are nowhere smaller have no smaller percentile. As long as more than half of the readings lie in an interval, so does the median, whatever the others are; a single reading can move the mean anywhere.", "quantifier": "all data sets of any size, all disturbances, every percentage between 0 and 100", "why_tests_cant": "It compares the results for every pair of data sets.", "anchors": ["src/statistics.c: zsl_sta_mean, zsl_sta_weighted_mean, zsl_sta_percentile, zsl_sta_median, zsl_sta_quart, zsl_sta_quart_range"]}
{"id": "C173", "title": "Statistics ignore the order of the readings and follow a change of units", "statement": "Reordering the readings (both lists alike, for covariance and regression) changes none of the mean, variance, standard deviation, covariance, regression line, correlation, percentiles and median. If every reading is replaced by a times itself plus c, the mean changes in the same way, the standard deviation by the factor |a|, and for a > 0 every percentile changes in the same way as the readings. A regression of data in other units gives the same line in those units; the correlation keeps its size, and changes sign exactly when one of the two scale factors is negative.", "quantifier": "every list of readings of every length (2 or more for variance and covariance; not all abscissae equal for the regression; readings the sort routine can tell apart for percentiles), every permutation, every change of units, every percentile between 0 and 100, every content of uninitialised locals", "why_tests_cant": "There are n! orders of n readings and a continuum of unit changes; tests compare a few fixed vectors with fixed answers.", "anchors": ["src/statistics.c: zsl_sta_mean, zsl_sta_var, zsl_sta_std_dev, zsl_sta_covar, zsl_sta_linear_reg, zsl_sta_percentile, zsl_sta_median"]}
