# Formal model of zscilib in Lean 4

This directory holds a Lean 4 model of the zscilib C sources (`/repo/src`, read as
text only) and machine-checked theorems about it.

* `properties.jsonl` – the properties, in English.
* `MANIFEST.json` – which theorems prove which property.
* `lean/Verif/Base` – outcome monad (with undefined behaviour), scalar interface, exact scalar instance.
* `lean/Verif/Model` – the model, function by function, each with a `file:lines` citation.
* `lean/Verif/Spec` – the mathematical objects the statements are about, independent of the model (matrices and vectors over ℝ,
  quaternions, physics and colour formulas, …).
* `lean/Verif/Lemmas` – helper lemmas (no property statements).
* `lean/Verif/Props` – the property theorems, each with a non-vacuity `example`.
* `seeded/LOG.jsonl` – mutation experiments (bugs put into a scratch copy of the model). Most entries come from a script, and have these
  limits. `theorems_failed` lists the proofs that no longer compile; a proof can break although its statement is still true of the edited
  program, and this was checked by hand only where a `note` says so. Modules that import a failing module are not built, so the list is
  incomplete. `property_theorems_lost` is a textual dependency scan. `claim` is derived from the failing theorems. Edits that survive are
  listed with the reason.

## 1. How C is modelled

### Outcomes and undefined behaviour
`Out α` is `ok a` or `ub`. Every array read (`rd`) and write (`wr`) is checked against the
real capacity of the buffer, and an access outside is `ub`. Signed `int` overflow,
size-zero VLAs whose cells are accessed, and out-of-range float→integer casts are `ub` as well.
A theorem `f … = ok …` therefore includes the claim that no such undefined
behaviour happens. Loops over `size_t` are `forN n body`. `while` loops and recursions
whose termination is not structural take fuel; running out of fuel is reported separately or the
theorems give sufficient fuel.

### Objects
`struct zsl_vec` is `Vec R` (`sz`, `data`), where `data` is the *whole* backing buffer, so `sz` can be
smaller than the capacity and frame conditions ("nothing behind `sz` changes") can be stated.
`struct zsl_mtx` is `Mtx R` in the same way, row-major. Functions return the error code and the new
values of the output objects. On error paths the outputs are what the C code leaves there.
Stack buffers the C leaves uninitialised are universally quantified contents.
Aliasing: functions returning the new output value model non-overlapping arguments. Where
aliasing is a claim (C03, C06, C18, C55, C57, C145), there is a second model (`Model/Alias.lean`, `Model/AliasMat.lean`, `Model/AliasDec.lean`, `Model/AliasRed.lean`, `QMem` in `Model/Quaternions.lean`) in which the
arguments are pointers into a memory of objects, and every access reads or writes the memory as it is at that moment. Partial overlap (two
objects sharing some cells of their data) is not modelled.

### Scalars
`zsl_real_t` is an abstract type `R` with the operations the code uses (`class CReal`): `+ - * /`, negation,
the comparisons (Boolean valued, so NaN is possible), literals and integer casts, `sqrt`, trigonometric functions, ….
The class has **no laws**. Theorems about data movement, memory safety, error codes and frames are proved
for every `R` and hence also for IEEE `float`/`double`.
Theorems about order are proved for scalars that contain a linear order (which non-NaN floats do).
Theorems about algebra are proved for the instance `XR`: a real number, `+∞`, `-∞` or NaN, with exact
real arithmetic on finite values and the IEEE rules for special values (`x/0`, `0/0`, comparisons with NaN,
`sqrt` of a negative, `log 0`, …). **Rounding is not modelled there**: those theorems are about exact arithmetic.
Theorems about floating point (C124 and later) use the instance `FX F`: a rounding function `F` (any monotone function with
`|rnd x - x| ≤ u |x|`, fixing its own values and ±1) is applied after every operation and to every literal; `libm` functions other
than `sqrt` are arbitrary. `Spec/Nearest.lean` shows that round-to-nearest with any number of bits is such a function (double: 52 fraction bits).
Theorems about overflow and underflow (C138 and later) use the instance `BX G`: results are rounded by a format `G` (`Base/BX.lean`) with relative error
`u`, absolute error `tiny`, infinite results from `over` on and zero results below `tiny`; `Spec/Ieee.lean` shows that IEEE formats with gradual underflow,
such as double and single, are formats in this sense.
Still excluded: signed zeros, excess precision and contraction to fused multiply-add.

### Configuration
`CONFIG_ZSL_BOUNDS_CHECKS=y` (Kconfig default; the functions without the guarded checks are `Model/NoChk*.lean`, see C147), `CONFIG_ZSL_PLATFORM_OPT=0` (levels 1 and 2 only replace four vector functions by copies with the same C text in `asm_arm_vectors.h`; there is no assembly), `size_t` is
64 bits, `int` is 32 bits.

## 2. Trusted base
* Lean's kernel and the three standard axioms `propext`, `Classical.choice`, `Quot.sound`. No other axiom,
  no `sorry`, no `native_decide`/`bv_decide`. `checks/axioms.txt` lists the axioms of every theorem in the manifest (written by
  `checks/axioms.py` from `#print axioms`).
* The transcription of the C text into the model (each definition cites the lines).
* For theorems over `XR`: floating point rounding, signed zero and overflow are not modelled. For theorems over `FX F`: overflow, underflow,
  signed zero, excess precision and contraction are not modelled. For theorems over `BX G`: signed zero, excess precision and contraction are not modelled.
* `libm` functions are the mathematical functions on `XR`, and arbitrary functions elsewhere.
* Allocation (`k_malloc`, stack depth) always succeeds unless said otherwise.

## 3. Plan per property
* **C01 Subset extraction copies exactly the requested window** – Model over any scalar; full functional spec by list windows, plus the wrap-around case with 2^64 arithmetic.
* **C02 Element-wise vector arithmetic is exact and total** – forN fill loops; theorem gives the whole resulting buffer as `map/zipWith ++ untouched tail`; inverse law over XR.
* **C03 Vector and matrix sums may be computed in place** – Memory model with possibly equal pointers (`Model/Alias.lean`); loop invariant: cells not yet written hold what they held at the call. Equality with the model of values for all pointers.
* **C04 Summing and averaging a list of vectors** – Code accumulates into the previous contents of w. Prove the exact result, the negation witness for an uninitialised w, and the property for zeroed w (`_partial`).
* **C05 Dot product, norm and distance obey the Euclidean laws** – Refine to Finset sums over ℝ, then Cauchy–Schwarz etc. from Mathlib.
* **C06 Projection leaves an orthogonal remainder** – Refine to vectors over ℝ, algebra; aliasing variant w = u.
* **C07 Normalising yields a unit vector** – Refine to ℝ, both branches.
* **C08 Cross product laws** – Direct computation over ℝ.
* **C09 Reversal is exact and self-inverse** – Two-index while loop with invariant; List.reverse; UB witness for sz = 0.
* **C10 Zeros-to-end is a stable partition** – Loop invariant; spec `filter ++ replicate 0`.
* **C11 Approximate comparison, containment and sign test mean what they say** – Loop with early exit; iff-characterisation.
* **C12 Sorting produces the sorted permutation** – Quicksort with fuel. Property false as stated (out-of-bounds read when the last element is the pivot maximum, merging of close values). Prove the witness and `_partial` for data whose elements are separated by the tolerance.
* **C13 Arithmetic mean of a vector lies between its extremes** – Refine to Finset sum.
* **C14 Element access is bounds-checked and independent** – Index arithmetic lemma i*c+j injective; any scalar.
* **C15 Row and column transfer is exact** – As C14 with loops.
* **C16 Initialisation, array import and copy** – Double loop fill.
* **C17 Component-wise unary and binary operations** – Unary: full. Binary: code falls through for MEAN..GEQ: negation witness and `_partial` for ADD/SUB/MULT/DIV.
* **C18 Matrix product is the mathematical product** – Triple loop refined to Matrix.mul; store model for aliasing.
* **C19 Transpose is exact, involutive and reverses products** – Refine to Matrix.transpose; any scalar.
* **C20 Row operations change exactly one row** – sum_rows_scaled_d checks the wrong bound: UB/negation witness; `_partial` for in-range rows; det invariance by Mathlib.
* **C21 Minor extraction and block augmentation** – Loop invariants; lower-right block. An output that is too small: the size difference wraps around and the stores
  outside are refused (`mtx_augm_diag_smaller`). A requested size that is never reached: induction on the size left, over a specification function that makes `j` calls (`mtx_reduce_iter_never`).
* **C22 Determinant is the determinant** – Recursion on n against Laplace expansion `det_succ_row_zero`.
* **C23 Adjoint matrix** – Code returns the untransposed cofactor matrix for n ≠ 3: negation witness, characterise exactly what is computed.
* **C24 3x3 inverse** – Direct over ℝ.
* **C25 Gaussian elimination is a sequence of recorded row operations** – Row operations as left multiplication by transvections.
* **C26 General inverse** – Via C25. The elimination ignores numbers below 1e-6: witness, and `_partial` for matrices whose elimination meets none (`Spec/Elim.lean`: `NoTiny`). With smaller numbers: a backward error bound, following the matrix whose exact elimination the run is (`Props/Inv3.lean`), and its consequences for C35, C84, C108 and C113 (`Props/Inv4.lean`).
* **C27 Cholesky decomposition** – Inductive invariant over rows.
* **C28 Householder reflections** – Reflection algebra over ℝ.
* **C29 QR decomposition** – Induction over the columns.
* **C30 QR iteration and balancing preserve eigenvalues** – Similarity invariants over iterations.
* **C31 Gram-Schmidt orthogonalises the columns** – Induction over columns.
* **C32 Minimum and maximum of a matrix and their first position** – Order embedding, induction over cells.
* **C33 Matrix predicates** – Negation witness for is_equal (compares only the first rows+cols cells), full for the others.
* **C34 Pseudo-inverse handles singular matrices** – Negation witness on the guard.
* **C35 Wedge product is perpendicular to its inputs** – Via determinant with two equal rows.
* **C36 Linear blend stays between its end points** – Algebra over ℝ.
* **C37 Table search finds the bracketing interval** – Fuel-free binary search with invariant lo<hi, any linear order.
* **C38 Piecewise linear interpolation** – Algebra plus C37.
* **C39 Inverse linear interpolation** – Zero-height chord: negation witness; `_partial` for y1≠y3.
* **C40 Nearest neighbour returns the nearer point** – Code compares with 1.5*x1: negation witness; exact characterisation.
* **C41 Cubic spline interpolates its knots and solves the spline equations** – Forward/backward recurrences; prove the tridiagonal equations by induction.
* **C42 Weighted and trimmed means are averages of the data** – Refine to Finset sums.
* **C43 De-meaned data has zero mean** – Algebra.
* **C44 Variance and covariance laws** – Algebra, Cauchy–Schwarz.
* **C45 Simple linear regression is the least-squares line** – Normal equations, then minimality by completing squares.
* **C46 Percentiles stay inside the data** – p=0/p=100 out of bounds: negation; `_partial`.
* **C47 Error measures** – Algebra.
* **C48 Weighted regression does not modify its inputs** – Negation witness (weights are inverted in place).
* **C49 Uniform distribution** – Algebra, interval integral.
* **C50 Factorials and binomial coefficients are exact while they fit an int** – Int model with overflow = ub.
* **C51 Binomial distribution** – Binomial theorem.
* **C52 Bayes rule returns a probability** – Algebra.
* **C53 Entropy** – Entropy: 0·log 0 = NaN: negation witness; `_partial` for positive probabilities.
* **C54 Normal distribution helpers** – Algebra over ℝ; erf is an uninterpreted odd function parameter.
* **C55 Quaternion product is Hamilton's product** – Refine to Mathlib quaternions.
* **C56 Quaternion normalisation** – Algebra.
* **C57 Quaternion inverse and difference** – Algebra.
* **C58 Quaternion rotation is a rigid motion** – Algebra.
* **C59 Rotation matrices of quaternions** – Algebra.
* **C60 Quaternion interpolation** – Algebra.
* **C61 Constructors of orientation quaternions return unit quaternions** – Algebra/trigonometry.
* **C62 Quaternion exponential, logarithm and power** – Trigonometry.
* **C63 Fusion filters keep the attitude quaternion normalised** – State machine over feed histories, invariant.
* **C64 Mahony integral feedback is bounded** – Invariant.
* **C65 Fusion configuration validation** – Frame theorems for any scalar.
* **C66 Calibration search returns the best candidate** – Negation witness (search resets its minimum).
* **C67 Sensor correction inverts the calibrated distortion** – Algebra.
* **C68 Chromaticity conversions are mutually inverse** – field_simp.
* **C69 RGB conversion stays in gamut and flags clipping** – Case analysis.
* **C70 Spectrum to tristimulus** – Loop invariant with table parameter.
* **C71 Spectrum normalisation** – Loop invariant.
* **C72 Planckian table lookup is memory safe** – Loop invariant on the index.
* **C73 Luminous efficiency lookup** – Table parameter.
* **C74 Collisions and centre of mass** – Algebra, sums.
* **C75 Kinematics functions agree with each other** – Algebra.
* **C76 Projectile motion is self-consistent** – Algebra.
* **C77 Electric component combination** – List sums, permutations.
* **C78 Temperature conversions are inverse** – Algebra.
* **C79 Guarded physics formulas reject exactly what they cannot compute** – One theorem per function; negation witnesses for unguarded denominators.
* **C80 Atomic weight table** – Whole-table kernel decision.
* **C81 Balancing terminates** – Fuel model. False: the locals `row` and `col` are used uninitialised, a hanging content is given. The exact condition on real contents is proved (`Props/Balance2.lean`). With zero locals it ends for every real matrix: each scaling step is a power of two that shrinks an off-diagonal sum by 5%, and these steps are proved well-founded (`Lemmas/Balance.lean`).
* **C82 Eigenvalues of a symmetric matrix add up to its trace** – Similarity invariants of balancing, Hessenberg form and QR steps.
* **C83 Measures of dispersion** – Sums over ℝ; sorted data from C12.
* **C84 Multiple linear regression is the least-squares fit** – Normal equations ⇒ minimality; inverse from C26.
* **C85 Normal cumulative distribution function** – Mathlib's `gaussianPDFReal`, with `erf` given by its integral.
* **C86 Euler angle round trip**, **C87 Axis-angle round trip** – Trigonometry in ℝ; exceptional cases characterised and refuted.
* **C88 Charging and discharging of RC and RL circuits**, **C89 Conservation laws hold between the helpers**, **C90 Refraction is reversible and total reflection starts at the critical angle**, **C91 Inverse square laws**, **C92 Photon helpers of different modules agree**, **C93 Rotation and decay helpers are consistent** – Two or more calls composed, algebra/analysis over ℝ.
* **C94 Accelerometer corrections of the fusion filters point the right way** – One feed from any attitude; refuted for Mahony and Madgwick.
* **C95 Attitude from accelerometer and magnetometer recovers the tilt** – Rotation built from Euler angles maps the reading to the vertical.
* **C96 Compass heading**, **C97 Degree conversion and gravity model** – Case analysis over ℝ.
* **C98 SAAM explains both measurements**, **C99 AQUA corrections explain the measurements** – Quaternion identities.
* **C100–C104 Colour temperature and reference data** – Planck sum over the observer table; whole-table kernel decisions for the data.
* **C105 Time weighted mean**, **C106 Weighted median**, **C107 Mode** – Loop invariants on sorted data (C12).
* **C108 Quadric fit**, **C109 Fast magnetometer calibration**, **C110 Iterative magnetometer calibration** – Normal equations; fitted ellipsoid is mapped to a sphere; symmetry invariant over all iterations.
* **C111–C114 Extended Kalman filter** – The whole call refined to the textbook equations over ℝ-matrices (`Spec/Kalman.lean`), then covariance (Joseph form), histories, fixed points.
* **C115–C117 Memory safety for every content** – For an arbitrary scalar type (`CReal` has no laws), so in particular for IEEE values: every run of the vector, matrix and decomposition models from well-formed arguments is `ok` (no out-of-bounds access) and keeps shapes. Compositional `sat` proofs, one per function; `zsl_mtx_balance` may loop forever, which the model does not distinguish from a bad access, so its safety is stated as independence from whatever follows the buffer. Negations: determinant of a 2x1 matrix, eigenvectors of a tiny 2x2 matrix. The conditions are exact for the row and column functions, adding a scaled row, copies, minors, orthonormalisation and Householder matrices (`Props/Safe4b`–`Safe4f`: `_safe_iff`); subsets are safe for every offset and length (`vec_get_subset_safe_any`).
* **C118 Eigenvalues of triangular matrices** – Balancing keeps the diagonal and the zeros; the Hessenberg and QR steps are the identity on triangular matrices (every reflector vanishes); the scan and the zero-to-end step are evaluated.
* **C119 Eigenvectors** – Gaussian reduction yields the reduced row echelon form when no tiny entries occur (`NoTiny`, Spec/Elim); the collected vectors are the kernel basis of `A - λ`; blocks of different values are independent; exact description of the list of values kept (`distinctEigen_spec`).
* **C120 Singular value decomposition** – run of `zsl_mtx_svd` given the runs of the eigenvalue and eigenvector functions on `AᵀA` and `AAᵀ` (`svd_run`); a structure `Spectrum` says what is assumed of them; orthogonality and `A = U E Vᵀ` from the spectral theory of symmetric matrices; instances from C118/C119.
* **C121 Pseudo-inverse** – loop invariant of the inversion of the singular values, then matrix algebra; infinities followed through the products with a lemma about matrix products over any scalar (`mtxMult_gen`).
* **C122 Shell commands** – commands as functions from words to a code and printed lines (Model/Shell), the conversion of words to numbers arbitrary.
* **C123 ARM build** – separate model of the four functions, same specification.
* **C124–C127 Rounding errors** – The same model functions over the rounding scalar `FX F`. A calculus of relative errors (`Near u k x y`: `x` is `y` times a factor between `(1-u)^k` and its inverse; Spec/Rounding.lean) is carried through the loops: a left-to-right sum multiplies each summand by at most `n` factors. Monotonicity of interpolation from monotonicity of the rounding.
* **C128 Statistics with rounding** – two-pass formulas: the deviations from the computed mean, then the calculus of C124 for the sum of products; the variance about another centre is the variance plus the squared distance.
* **C129 Linear regression with rounding** – error of the five sums, then of the two differences, under a condition that the variance of the abscissae is not small compared with their mean square (`WellSpread`); a concrete run in double precision for the cancellation.
* **C130 No drift** – an inductive relation `Fed` (one call of any feed function); every feed returns the result of the normalisation or its argument, for every scalar type; induction over histories.
* **C131, C132 Physics with rounding** – the same helper over `XR` and over `FX F`, related by `Agrees` / `AgreesUpTo` (Spec/Agree.lean); rules for products, quotients, roots and sums as type classes, so the bound of a formula is computed from its text; comparisons with zero are not changed by rounding.
* **C133 Convergence of the QR iteration** – the stored matrices form a sequence `A_k = Q_k R_k`, `A_(k+1) = R_k Q_k` (`qrd_iter_seq`). Symmetric matrices: the sums of the first j diagonal entries of `A_k²` increase by the squares of the entries of `R_k` right of the block, so `A_k²` tends to a diagonal matrix, and `A_k` is a fixed polynomial in it. Others: `A^k = Q̂_k R̂_k`; elimination without row exchanges on the inverse of the eigenvector matrix (found as the one with most leading zeros) gives `A^k = X F_k Λ^k W` with convergent `F_k`. No LU condition on the eigenvectors is needed. Lemmas/QRConv.lean and QRGen.lean are free of the model.
* **C134 Singular values** – `AᵀA` has no opposite eigenvalues, and the diagonal of a matrix similar to it is not negative, so the square roots exist; the second output is not touched after it is filled.
* **C135 Certificate of a success return** – an invariant of the Householder loop shows that the factor `Q` of a Hessenberg matrix is Hessenberg, so all QR steps keep the form; the scan of the subdiagonal can count to n only if every element it passes is small. So the working matrix is triangular up to elements below 1e-6 next to the diagonal.
* **C136 Distance of the eigenvalues** – Cramer's rule with an eigenvector of the working matrix, and the bound of a determinant by the product of its column sums.
* **C137 Balancing balances** – the loops choose the power of two that brings the column sum within a factor of four of the row sum; if scaling with it does not gain five per cent, the sums are within 7/3. Every scaling lowers the sum of the absolute values.
* **C138–C141 Overflow and underflow** – The same model functions over the scalar `BX G`. A finite sum has finite summands, so the error bound of a sum of products follows by induction whenever the result is finite; a bound on the sum of the absolute products keeps all partial sums in range. Sums of squares are finite or `+∞`, and stay infinite once they are.
* **C142 Independence of filter instances, C143 Restart** – `Model/Drivers.lean` adds the static variables of the fusion files and any number of instances. A history is any interleaving of the calls of the instances. Independence is a simulation: for each instance the interleaved run and its run alone go in step, with a relation between the static variables kept by every call. Refuted where the statics matter.
* **C144 Threads** – `Model/Threads.lean` cuts a call of `zsl_interp_cubic_arr`, the other function with static variables, into steps with one access each; a schedule is a list of threads. A call that is not interrupted equals the sequential model; schedules of uninterrupted calls by induction; refuted by two schedules with an interruption.
* **C145 The output may be one of the inputs** – `Model/Alias.lean`, `Model/AliasMat.lean`, `Model/AliasDec.lean` and `Model/AliasRed.lean`, theorems in `Props/Alias1` to `Props/Alias9`: vector, matrix, statistics and quaternion functions on pointers. For each function either equality with the model of values for all pointers (simulation of the loops, `forN_sim`), or equality for separate objects and the exact result in place with a counterexample.
* **C146 A fusion filter of a device at rest settles on the measured attitude** – Iterates of the feed with constant readings. Complementary: the tangent of half the angle to the measured quaternion shrinks by a constant factor; AQUA: 1 - cos of half the tilt shrinks by 1 - alpha; Mahony: the same computation shows convergence to the opposite vertical.
* **C147 Switching the bounds checks off changes nothing for calls that they accept** – `Model/NoChk.lean` repeats the functions without the guarded blocks. `SameIfAccepted` (`Spec/Accepted.lean`) says that a result with code 0 is also the result without checks. Proved by simulation: an invariant on shapes is carried through the loops, under which every inner check passes. Where an inner result is ignored the claim is refuted or restricted to the shapes the function is meant for. Statistics (`NoChkStat`), quaternions, attitude, compass, probability and centre of mass (`NoChkOrient`), the six filters (`NoChkFus`), calibration (`NoChkCal`) and the RGB conversions (`NoChkClr`) in the same way. The gain searches run feeds whose codes they ignore; the feeds that the checks refuse are shown to stay within the arrays, and the result is the first candidate in both builds.
* **C148 Orientation and fusion functions stay within their buffers whatever the readings contain** – As C115–C117, for an arbitrary scalar type: exponential, logarithm, power, angular velocity and momentum, rotation matrices, axis and angle, attitude, compass and the six filters (`Props/Safe7`–`Safe9`). The Kalman filter for every shape of the covariance, since it ignores the failures of the inner matrix functions. Null pointers that the code dereferences (SAAM, first call of AQUA) are excluded by hypothesis; the refutations are `saam_null_ub` and `aqua_first_null_ub`.
* **C149 Statistics, interpolation, calibration, physics and colour functions stay within their buffers whatever the data contain** – As C148, for an arbitrary scalar type (`Props/Safe10`–`Safe12`). The search of `zsl_interp_find_x` on tables that are out of order or contain NaN: the bisection may end anywhere, but the last point only if it compares equal, which the code treats apart; this uses one law of the comparisons (`CmpLaw`), met by numbers with NaN. Excluded: the functions that sort (C12 refutes their safety), except `zsl_fus_cal_magn`, which is proved under the hypothesis that its three sorts stay within their buffers; conversions of a frequency that does not fit its type; empty samples where a local array would have size zero.
* **C150 Members of the measurement header are independent and lie where the words expect them** – The header as 96 bits of memory; positions are computed from the declared widths in the order of declaration. Get after set, frame, extensionality, the words in terms of the members, for all headers and values. The enumerations are complete tables copied from the headers.
* **C151 The timing macros measure the elapsed cycles** – Unsigned arithmetic of 32 bits. Proved without wrap-around; every wrap-around loses a cycle.
* **C152 Print functions print every element once, in order** – Output as a list of tokens; by induction over the loops.
* **C153 A gradient filter steps against the gradient of its misfit** – One feed in closed form for turns about one axis (angle addition), histories by induction; derivatives of the shown directions with HasDerivAt.
* **C154 The inverse error function and the normal quantile invert, and keep order** – With u = -log(1 - x²) the logarithm of the slope of erf(erf_inv x) has a derivative that is a quotient of polynomials in u and e^-u; a checked interval evaluation (`Lemmas/PolyBound`, `Lemmas/ErfFit`, proved sound for every point of the intervals; the 89 intervals are evaluated by the kernel) bounds it on u ≤ 16.125; the rest of the tail by monotonicity and erf < 1. From slope to value by the mean value theorem.
* **C155 Colour temperature round trip** – Between two rows of the table the black body's chromaticity is compared with the chord of the two rows in 1/T. The values of Planck's law at the rows are bounded by a fixed-point exponential (`Lemmas/ExpFix`, proved to enclose the real one; evaluated by the kernel for all 302 pairs of rows in `Lemmas/LocusTab`), the deviation between the rows by convexity in 1/T (`Lemmas/Chord`), so the chromaticity lies within 13 percent of the row distance from the chord (`locus_chord`). The geometry of the table (`Lemmas/LocusGeo`) then leaves only the two neighbouring rows as nearest, and C105's analysis of the correction step gives the temperature.
* **C156 Luminous efficiency has the shape of an efficiency** – Order of the tabulated entries by evaluation of the complete tables, then monotonicity at every wavelength by induction over the wavelength with the interpolation formula of C73.
* **C157 McCamy's colour temperature of a black body** – The enclosure of the locus from C155 puts the chromaticity on each quarter of each segment into a box; integer arithmetic, evaluated by the kernel for all 302 segments, bounds the slope on the box and the cubic of the slope against the temperature. The ranges where the formula is far off are refuted in the same way.
* **C158 Cholesky factorisation in floating point is backward stable** – The loops evaluate a recurrence, for every scalar type (`Lemmas/CholGen`). With rounding (`FX F`) each element of the matrix is a perturbed product of two rows of the factor, which bounds the backward error. Success is by induction over the columns: the computed rows are tested against the positive definite form, which leaves room for the next pivot (`Lemmas/CholRound`, `chol_core`). A positive definite matrix of doubles with a NaN factor shows that the margin is needed.
* **C159 Determinant, adjoint and 3x3 inverse in floating point** – The recursion is shown to compute a function `fdet` of the elements (`Lemmas/DetRound`, following the proof of C22). A triple (computed, exact, size) is closed under rounded products and sums, with the roundings added up (`Err`), and the size of a determinant is the permanent of the absolute values, for which the expansion along a row is proved (`Lemmas/Permanent`). For integers every partial result is an integer below the bound. The missed singular matrix is a concrete one of double precision numbers (`mtx_inv_3x3_singular_missed`).
* **C160 Integer data is processed exactly** – `Props/Round10`, `Props/Round21` (quaternions): integers with at most `p + 1` digits are fixed by rounding to nearest, and every intermediate result is one of them.
* **C161 Rotating with quaternions in floating point** – `Props/Round11`: every component is followed with the number of roundings it has suffered and the sizes of the products it is made of; the sizes are bounded by lengths with the Cauchy–Schwarz inequality.
* **C162 Integrating a gyroscope in floating point** – `Props/Round12`: one step is the direction of `(1 + t/2 w) q` up to a constant number of roundings for every `w` and `t`, because that length is at least a third of the sizes added; the exact step is an isometry of unit quaternions, so induction over the readings adds the errors of the steps.
* **C163 Fusion filters stay normalised in floating point** – `Props/Round13` (Mahony), `Props/Round14` (Madgwick), `Props/Round20` (complementary): all intermediate results are shown to be numbers, then C162 and the normalisation give the length; induction over the feeds. The trigonometric functions of the inclination (and, for the complementary filter, of all numbers) are assumed to give numbers, nothing else is assumed about the library.
* **C164 Interpolating attitudes and composing many rotations in floating point** – `Props/Round15`: forward error of the two scalings and the sum, directions of close quaternions are close; the chain by induction over the list of factors.
* **C165 Quaternions from angles in floating point** – `Props/Round16`: `AccurateTrig F k` says that the library's sine and cosine are right up to `k` roundings (an assumption on the library, not on the code); forward error of the products, and the rotations are Lipschitz in the angle.
* **C166 SAAM in floating point** – `Props/Round17`: readings that are not parallel up to seventeen roundings keep the computed dot product at most 1, so the root is of a number that is not negative; the parallel readings (0, 3, 4) are evaluated bit by bit in double precision.
* **C167 The angle between two readings in floating point** – `Props/Round18`: forward error of the quotient given to the inverse cosine; the cosine is Lipschitz. `AccurateAcos F k` is an assumption on the library. The reading (1, 1, 1) with itself is evaluated bit by bit.
* **C168 In binary floating point, computed lengths bound the components** – `Props/Round19`: the root of the rounded square of a representable number is that number again (`nearest_sqrt_sq`, by the distance to the next number on both sides of √2); with monotone rounding the computed length is at least every component.
* **C169 Ohno's two methods agree, and the first has no step** – `Props/Color7`: the difference of the two polynomials is bounded on 248 intervals that cover the range (`Lemmas/PolyBound`, rational arithmetic in the kernel); the angle from the arc tangent and that from the arc cosine are the same up to the constant used for π. The last correction (`ohno2011_last_correction`) is bounded in the same way on 261 intervals of the logarithm of the temperature.
* **C170 Flat light is white, and the colour matching functions have the standard's shape** – `Props/Color8`: sums and neighbouring differences of the complete tables in rational arithmetic (kernel), carried to `zsl_clr_conv_spd_xyz` by `spd_xyz_correct`. Fails for three steps of the 2° observer (section 5).
* **C171 Interpolation follows smooth functions** – `Props/InterpAcc`: the equations of the second derivatives are diagonally dominant, so their solution is unique and bounded by 3K (argument at the largest component); a function with such a slope plus or minus K x²/2 is convex, which bounds divided differences and the distance from the chord.
* **C172 Statistics of disturbed readings** – `Props/StatRobust`: order statistics are compared by counting (`sorted_le_sorted`); the median by the definition of a percentile. Percentiles for data that `zsl_vec_sort` sorts (see C12, C46).
* **C173 Statistics ignore the order of the readings and follow a change of units** – `Props/StatUnits`, exact arithmetic: the closed forms of the statistics are invariant under a permutation of the sum, sortedOf of a permuted list is the same list, sortedOf of a monotone image is the image of sortedOf. Order in floating point is not covered (rounded sums do depend on the order; see the error bounds).

## 4. What is modelled and what is not

Modelled: every function with a body in `src/vectors.c`, `matrices.c`, `interp.c`, `statistics.c`, `probability.c`, `chemistry.c`,
`colorimetry/*.c` (with all tables), `orientation/*.c`, `orientation/fusion/*.c` (including calibration and the Kalman filter) and
`physics/*.c`, except:

* the conversion of numbers to text in the print functions (what is printed, and in which order, is modelled in `Model/Print.lean`);
* `zsl_fus_*_error`: placeholder functions with no effect;
* the registration of the shell commands with the Zephyr shell and the wording of their output (the handlers are modelled);
* `zsl.c` (a version string); the cycle counter and its conversion to nanoseconds, which belong to Zephyr.

Also modelled: the shell commands, the ARM variants (`include/zsl/asm`, which contain C only), the memory layout and the enumerations of the
measurement header (`Model/Measurement.lean`) and the timing macros (`Model/Instr.lean`).

Rounding, overflow and underflow are modelled by the scalar type, so in every function; theorems about rounding exist for C124 and later, theorems about overflow and
underflow for C138 and later.

Threads: C144 only (atomic accesses in program order). Not modelled in any function: weaker memory models, stack depth, signed zeros, excess precision and contraction of floating point operations.

## 5. Disagreements between code and property

Each is modelled as the code is, and its negation is proved with a witness; the theorem is named in brackets.

Vectors, matrices, interpolation
* `zsl_vec_sum` and `zsl_vec_mean` accumulate into the old contents of the output [`vec_sum_not_sum`].
* `zsl_vec_cross` in place is wrong [`vec_cross_in_place_wrong`].
* `zsl_vec_sort` merges values closer than 1e-5 and accesses cells outside its buffers for some data and for the empty vector
  [`vec_sort_overread`, `vec_sort_overrun`, `vec_sort_empty`]; values below 1e-5 become zero, so that percentiles of small positive data are zero
  [`vec_sort_tiny`, `sta_percentile_tiny`].
* `zsl_mtx_binary_op`: no `break` from MEAN on [`mtx_binary_op_fallthrough`].
* `zsl_mtx_sum_rows_scaled_d` checks the row against the number of columns [`mtx_sum_rows_scaled_overread`, `mtx_sum_rows_scaled_refused`].
* `zsl_mtx_adjoint` returns the transpose of the adjugate unless n = 3, and is undefined for n = 1 [`mtx_adjoint_wrong`, `mtx_adjoint_1x1`].
* `zsl_interp_find_x` reports a negative index for values beyond the end of a table of 2^31 points or more [`interp_find_x_huge`].
* `zsl_mtx_inv` treats pivots below 1e-6 as zero [`mtx_inv_small_pivot`]; so does `zsl_mtx_vec_wedge` [`mtx_vec_wedge_wrong`].
* `zsl_mtx_is_equal` compares rows+cols cells [`mtx_is_equal_wrong`, `mtx_is_equal_overread`].
* `zsl_mtx_pinv`: the guard against small singular values is always true [`pinv_invert_zero_wrong`].
* `zsl_mtx_balance` uses uninitialised locals and may not return [`mtx_balance_hangs_init`].
* zsl_mtx_eigenvectors stores more columns than the output has when eigenvalues lie closer together than 1e-6
  [`mtx_eigenvectors_overflow`].
* `zsl_mtx_svd` reads outside a buffer for every matrix with fewer rows than columns, for every content and every scalar format
  [`mtx_svd_wide`]; so does `zsl_mtx_pinv` [`mtx_pinv_wide`].
* `zsl_mtx_svd` assumes that the eigenvalues come in descending order. For `diag(0, 1)` the product `U E Vᵀ` is not the input and the first
  column of `U` is never written [`mtx_svd_order`].
* `zsl_mtx_pinv` tests `x < 1e-6 || x > -1e-6`, which holds of every number, where `|x| < 1e-6` was meant to be excluded; zero singular values are inverted,
  and every element of the result for a rank deficient matrix is infinite or NaN [`mtx_pinv_singular`].
* `zsl_interp_nn` compares with 1.5·x1 [`interp_nn_wrong`]; `zsl_interp_lin_x` returns NaN with code 0 for a flat chord [`interp_lin_x_flat`].
* `zsl_interp_cubic_arr` keeps the interval it found in static variables. A thread interrupted by another call takes over the interval of that call: it reports success
  with a wrong value, or reads past the end of its table [`cubic_interleaved_wrong`, `cubic_threads_interfere`, `cubic_interleaved_overread`].

Outputs that are inputs (C145)
* `zsl_vec_sort(v, v)` counts occurrences in the buffer it overwrites: (2, 2, 1) becomes (1, 1, 1) [`vec_sort_in_place_wrong`];
  `zsl_vec_project(u, v, v)` and `zsl_vec_cross(v, w, w)` give other vectors [`vec_project_over_v_wrong`, `vec_cross_over_w_wrong`].
* `zsl_mtx_trans(m, m)` mirrors the upper triangle [`mtx_trans_in_place`]; `zsl_mtx_adjoint_3x3(m, m)` and `zsl_mtx_inv_3x3(m, m)` read elements they have
  overwritten [`mtx_adjoint_3x3_in_place_wrong`, `mtx_inv_3x3_in_place_wrong`]; `zsl_mtx_inv(m, m)` for other sizes stores the identity, whatever the matrix
  [`mtx_inv_in_place`]; `zsl_mtx_cholesky(m, m)` clears its input first [`mtx_cholesky_in_place`, `mtx_cholesky_in_place_wrong`]. All return 0.
* `zsl_vec_get_subset(v, k, len, v)` copies between overlapping ranges with `memcpy` unless k = 0 or the ranges are apart: undefined behaviour [`vec_get_subset_in_place`].
  `zsl_vec_sum` clears its output first, so a sum into one of the vectors loses the vectors in front of it [`vec_sum_in_place`]; a mean into the first vector
  counts that vector twice [`vec_mean_in_place`].
* `zsl_mtx_gauss_elim` and `zsl_mtx_norm_elem` with the companion matrix equal to the result apply each row operation twice [`mtx_gauss_elim_same`, `mtx_norm_elem_same`].
  `zsl_mtx_adjoint(m, m)` uses elements it has overwritten [`mtx_adjoint_in_place`, `mtx_adjoint_in_place_wrong`].
* `zsl_sta_mode(v, v)` clears the data before it reads them and reports the single mode 0 [`sta_mode_in_place`]; `zsl_sta_covar_mtx(m, m)` reads columns it has
  partly overwritten [`sta_covar_mtx_in_place_wrong`]; `zsl_mtx_eigenvectors(m, m)` compares the new width with itself and never returns `-EEIGENSIZE`
  [`mtx_eigenvectors_in_place`]; `zsl_mtx_svd` with `e` equal to `m` cannot tell a matrix from its negative [`mtx_svd_over_e`, `mtx_svd_over_e_wrong`]; with `v` equal to `m` the factors multiply to `V` instead of `A` for every square `A` of full rank [`mtx_svd_over_v`, `mtx_svd_over_v_wrong`].
* `zsl_mtx_reduce_iter` with one matrix for both placeholders skips every other size and removes nothing [`mtx_reduce_iter_one_placeholder`]; with the input as the first
  placeholder it cuts the input down [`mtx_reduce_iter_destroys`]. `zsl_mtx_augm_diag(m, m)` stores the identity [`mtx_augm_diag_in_place`]; `zsl_mtx_qrd` with one matrix
  for both factors keeps only Q [`mtx_qrd_one_object`].

Statistics and probability
* weighted mean reads the weights before comparing sizes [`sta_weighted_mean_overread`]; trimmed mean with p = 0, one or no datum kept
  [`sta_trim_mean_zero`, `sta_trim_mean_wrong`, `sta_trim_mean_empty`]; percentile 0 and 100 read outside the data
  [`sta_percentile_zero`, `sta_percentile_hundred`]; relative error keeps the sign [`sta_rel_err_neg`]; correlation NaN for constant y
  [`sta_linear_reg_corr_const`]; weighted regression overwrites the weights [`sta_weighted_reg_clobbers`]; time weighted mean of one
  sample, and of samples at different times all below 1e-5, is NaN [`sta_time_weighted_mean_single`, `sta_time_weighted_mean_tiny`]; weighted median does not move the weights with the data [`sta_weighted_median_order`];
  mode of values below 1e-5 [`sta_mode_small`]; quadric fit accepts singular data [`sta_quad_fit_one_point`].
* entropy with a zero probability is NaN [`entropy_zero_outcome`]; binomial pdf with p = 1 beyond n is NaN [`binomial_pdf_nan`].

Quaternions, fusion, calibration
* to_rot_mtx does not normalise, from_rot_mtx loses signs of half turns [`quat_to_rot_mtx_nonunit`, `quat_from_rot_mtx_half_turn`];
  axis-angle of ±1 [`quat_axis_angle_identity`, `quat_axis_angle_neg_one`]. Euler angles near gimbal lock (|sin pitch| > 1 − 2e-6)
  lose the yaw; the rotation is off by at most 3e-3 [`quat_euler_yaw_lost`, `quat_euler_roundtrip_inexact`, `quat_euler_roundtrip_close`]. The header describes `zsl_quat_rot` as qa* qb qa, the code
  computes qa qb qa⁻¹.
* Because of that, the accelerometer corrections of Mahony and Madgwick move away from the measurement [`mahn_moves_away`, `madg_moves_away`].
* Madgwick and complementary filter can produce a zero attitude, and stay there [`madg_zero_attitude`, `madg_zero_stuck`, `comp_zero_attitude`].
* SAAM: level readings give the zero quaternion, NULL is dereferenced [`saam_level_zero`, `saam_null_ub`]; parallel readings give four NaNs in double
  precision [`saam_parallel_nan`].
* AQUA: NaN for good after an upside-down reading; first feed with NULL; refused first feed adapts the gain
  [`aqua_upside_down`, `aqua_first_null_ub`, `aqua_rejected_adapts`].
* The angle between the reading (1, 1, 1) and itself is NaN in double precision [`att_accel_angle_same_nan`].
* Compass heading of fields with negative y [`comp_magn_north_opposite`].
* Gain calibration always returns 0 [`cal_madg_zero`, `cal_mahn_zero`]; fast magnetometer calibration has the wrong radius [`cal_magn_fast_radius`];
  the iterative one is undefined without readings [`cal_magn_empty`]. It also does not return the identity for undistorted readings: for
  (3, 0, 0) and (-3, 0, 0) the soft iron matrix is diag(181, 1, 1), and in general its first entry is a polynomial of degree four in the size of
  the readings [`cal_magn_pair`, `cal_magn_not_identity`]. Causes: the gradients of all readings are added up, not averaged, so that for
  readings that are symmetric about the origin the error of the radius grows by the factor `n - 1` with every reading [`radius_runs_away`]; the damped matrix is then singular,
  and `zsl_mtx_inv` stores the identity, so that there is no damping at all [`calTau_singular`, `cal_magn_symmetric_partial`]; the slopes of
  the sphere fit have the sign of `b` wrong (calibration.c:155-157) [`sphere_slope_iff`]; those of the ellipsoid fit are kept in the order
  K11, K22, K33, K12, K13, K23 but used in the order K11, K12, K13, K22, K23, K33 (calibration.c:253-266) [`ellipsoid_slope`,
  `ellipsoid_slope_wrong`].
* Kalman filter: a refused first call marks the filter as started [`kalm_first_rejected`]; parallel first readings give NaN
  [`kalm_start_parallel`]; zero attitude is never left [`kalm_zero_stuck`]; agreeing readings move the attitude [`kalm_agreeing_readings`];
  covariance and attitude use different transition maps [`kalm_transition_mismatch`]; the covariance can lose its symmetry, because the inversion
  leaves out small numbers [`kalm_covariance_asymmetric`].
* `zsl_prob_erf_inv` is not increasing: where its two polynomials meet (1 - x² = e^-6.125) the result drops by about 1.4e-7 [`erf_inv_not_mono`]; at x = 1 - 1e-15 it returns
  more than 18 where the inverse is below 6 [`erf_inv_far_tail`], so `zsl_prob_normal_cdf_inv` is unusable for probabilities that close to 0 or 1 in double precision.
* The sample frequency is a static variable of each algorithm, shared by all its instances: an `init` of one changes the others [`mahn_instances_interfere`,
  `madg_instances_interfere`, `comp_instances_interfere`]; so is the flag of AQUA and the Kalman filter which says that the first feed has happened, and `init` does not
  reset it: only the first instance fed after power-up gets its first-feed treatment [`aqua_instances_interfere`, `kalm_instances_interfere`, `kalm_second_instance_blind`,
  `aqua_not_restarts`, `kalm_not_restarts`].

Colorimetry, physics
* dark spectra and 0 K are accepted with NaN or are undefined [`spd_xyz_dark`, `ct_xyz_zero`, `ct_rgb8_zero_ub`]; Ohno 2014 squares the
  distances twice [`ohno2014_not_triangular`]; McCamy's
  formula is far off for hot and cool bodies, unannounced [`mccamy_round_trip_hot`, `mccamy_round_trip_cool`]; no 10° illuminants [`illum_get_10deg`]; D65 white flagged [`d65_flagged`]; a slip in the
  z̄ table at 380 nm [`observer_dip`], one at 630 nm to 645 nm [`observer_step`] and one in the x̄ table at 765 nm [`observer_bump`]; the scotopic efficiency is tabulated in thousandths, the photopic one in units
  [`lef_scotopic_not_unit`]; a colour temperature converted to a chromaticity and back moves in steps of one percent [`cct_round_trip_steps`, `cct_round_trip_coarse`].
* time of flight can be negative, the range ignores its error, straight down is reported as straight up [`proj_time_negative`,
  `proj_range_ignores_error`, `proj_angle_vertical`]; refractive index is v/c [`phy_opt_refrac_index_wrong`]; incomplete guards of the gravitation,
  sound and Bohr helpers [`phy_grav_orb_period_negative`, `phy_sound_level_zero_reference`, `phy_atom_bohr_orb_vel_zero`, …].
* The shell command `lat2g` refuses the equator and the southern hemisphere (`lat <= 0.0`) [`sh_lat2g_south`]; it admits altitudes down to -500 m
  which the library function refuses [`sh_lat2g_below_sea`]. `ct2rgb` converts the temperature to `unsigned int` unchecked [`sh_ct2rgb_huge`].

Filters at rest (C146)
* Fed with the same accelerometer reading again and again, the Mahony filter converges to the attitude whose vertical is opposite to the measured one
  [`mahn_turns_over`]. The complementary filter may first turn away from a close orientation and take the long way round, because it does not identify q with -q
  [`comp_turns_away`]. AQUA with a threshold of 1 or more stops short of the measured vertical [`aqua_stops_short`].
  The Madgwick filter does not keep an attitude that agrees with the reading: the zero gradient is normalised to (1, 0, 0, 0) [`madg_not_kept`].

Step of the Madgwick filter (C153)
* The filter predicts the vertical with `zsl_quat_rot` (q v q⁻¹) but uses the Jacobian of the inverse rotation [`madg_jacobian_gravity`]: a device that lies level with
  an estimate tilted by less than 60 degrees about any horizontal axis is tilted further by every feed [`madg_tilts_further_any`], and never becomes level [`madg_never_level_any`]. For every attitude of a level device a small step goes away from level if cos(tilt) (1 + cos(heading)) > 1 and towards it if it is less than 1 [`madg_step_sign`]. Three of the twelve entries
  of the magnetic Jacobian are the derivatives of neither rotation (madgwick.c:240, 244, 245) [`madg_jacobian_field_iff`].

Timing (C151)
* `ZSL_INSTR_STOP` computes `0xFFFFFFFF - t + end` when the counter has passed its end, one less than the elapsed cycles [`instr_cycles_wrap_wrong`].

Builds without bounds checks (C147)
* The truncation of the window of `zsl_vec_get_subset` at the end of the vector is part of the guarded block: a call that the checked build serves with a shorter
  window reads past the end of the array without checks [`nochk_vec_get_subset_fails`].
* Some functions ignore the results of the functions they call, so the checked build accepts calls that leave an array without checks: `zsl_mtx_reduce` of a
  matrix that is taller than wide [`nochk_mtx_reduce_fails`], `zsl_mtx_adjoint` with an output that is too small [`nochk_mtx_adjoint_fails`],
  `zsl_mtx_gauss_reduc` with a companion that is too small [`nochk_mtx_gauss_reduc_fails`].
* `zsl_fus_kalm_feed` does not check the shape of the covariance: with a 3 × 3 covariance it returns 0 (the inner failures are ignored) and leaves the arrays in a
  build without checks [`nochk_kalm_feed_fails`].
* A call that the checks reject may touch another entry without them: column 2 of a matrix with two columns is column 0 of the next row [`nochk_mtx_get_rejected`].

Convergence
* The QR iteration has no shifts: for a symmetric matrix with opposite eigenvalues it need not converge. For (0, 1; 1, 0) `zsl_mtx_eigenvalues`
  returns 0 and stores (0, 0) for every iteration count; the eigenvalues are 1 and -1 [`mtx_qrd_iter_stuck`, `mtx_eigenvalues_stuck`].

Floating point
* `zsl_sta_linear_reg` uses the one-pass formula: far from zero it cancels completely; in double precision the points (2^27, 0), (2^27+1, 1) give an
  infinite slope [`sta_linear_reg_cancels`]. `zsl_phy_thermo_cels_kel` loses all digits near 273.15 K [`phy_thermo_cels_kel_cancels`]. `zsl_mtx_cholesky` in double
  precision returns 0 and stores NaN for some positive definite matrices of doubles [`mtx_cholesky_breakdown`].
* `zsl_mtx_inv_3x3` recognises singular matrices by comparing the computed determinant with zero: the singular matrix (1, 5, 0; 7, 35, 0; 0, 0, 1 + 15 ulp) gets an
  "inverse" with elements beyond 10^15 and return value 0 [`mtx_inv_3x3_singular_missed`].
* `zsl_vec_norm` squares without scaling: in double precision the norm of a vector of size 2^600 is infinite and `zsl_vec_to_unit` returns the zero vector with
  success; a vector of size 2^-600 has norm zero and its unit vector is (1, 0, …), whatever its direction [`vec_norm_overflow`, `vec_to_unit_overflow`,
  `vec_norm_underflow`, `vec_to_unit_underflow`]; projections onto such vectors are zero or NaN [`vec_project_overflow`, `vec_project_underflow`]; the same holds for
  normalising and inverting large quaternions [`quat_overflow`].
* `zsl_vec_ar_mean` overflows if two of the data have a sum that overflows; the variance is then infinite even for equal data [`vec_ar_mean_overflow`, `sta_var_overflow`].
* `zsl_mtx_augm_diag` accepts an output smaller than the matrix: it returns 0 and stores the lower-right block of the matrix, not an augmented matrix
  [`mtx_augm_diag_smaller`].
* `zsl_mtx_gram_schmidt` and `zsl_mtx_cols_norm` check no sizes: with an output of more rows than the input they read past the end of a local column, for every
  matrix [`mtx_gram_schmidt_overread`, `mtx_cols_norm_overread`]; the row and column functions below them are safe exactly for arrays that are long
  enough [`mtx_row_col_safe_iff`].
* `zsl_mtx_reduce` does not require a square matrix: with more columns than rows it leaves its local array [`mtx_reduce_safe_iff`], with more rows than columns it
  returns 0 and stores wrong elements [`mtx_reduce_tall_wrong`].
* `zsl_mtx_qrd` does not check its outputs: a smaller matrix for the triangular factor makes the call undefined [`mtx_qrd_small_r`], a wrong shape for the orthogonal
  factor is not reported [`mtx_qrd_wrong_q`].
* `zsl_vec_get_subset` clips a length that is too large, but refuses one so large that `offset + len` wraps around to an index inside the vector
  [`vec_get_subset_wraps`].
* `zsl_mtx_reduce_iter` never rejects a requested size that cannot be reached: it returns -EAGAIN until the work matrix is 1x1 and then declares an array of length
  zero, which is undefined [`mtx_reduce_iter_never`].
