{
 "claims": [
  {
   "property": "C01",
   "status": "proved",
   "theorems": [
    "IntvalPy.C01_add_encloses",
    "IntvalPy.C01_sub_encloses",
    "IntvalPy.C01_neg_range",
    "IntvalPy.C01_add_sub_ordinary",
    "IntvalPy.C01_float_encloses"
   ],
   "note": "All ordered fields, every directed rounding; and IEEE binary64 with overflow and infinite endpoints."
  },
  {
   "property": "C02",
   "status": "proved",
   "theorems": [
    "IntvalPy.C02_mul_encloses",
    "IntvalPy.C02_mul_ordinary",
    "IntvalPy.C02_float_encloses"
   ],
   "note": "All sign configurations, every directed rounding."
  },
  {
   "property": "C03",
   "status": "proved",
   "theorems": [
    "IntvalPy.C03_div_error_iff",
    "IntvalPy.C03_div_encloses",
    "IntvalPy.C03_float_encloses"
   ],
   "note": "Error iff zero in divisor; enclosure otherwise."
  },
  {
   "property": "C04",
   "status": "partial",
   "theorems": [
    "IntvalPy.C04_divNum_encloses_false",
    "IntvalPy.C04_divNum_encloses_partial",
    "IntvalPy.C04_slack",
    "IntvalPy.C04_float_encloses_false"
   ],
   "note": "False of the code (reciprocal rounded to nearest); negation proved, and enclosure proved when the reciprocal is exactly representable; in general every quotient is within the relative rounding error of the reciprocal of a point of the result."
  },
  {
   "property": "C05",
   "status": "partial",
   "theorems": [
    "IntvalPy.C05_rdiv_iff",
    "IntvalPy.C05_float_sums_enclose",
    "IntvalPy.C05_float_rmul_encloses",
    "IntvalPy.C05_float_rdiv_false",
    "IntvalPy.C05_float_rdiv_partial",
    "IntvalPy.C05_radd_rsub_enclose",
    "IntvalPy.C05_rmul_encloses",
    "IntvalPy.C05_rdiv_error_iff",
    "IntvalPy.C05_rdiv_encloses"
   ],
   "note": "Proved for every rounding without overflow, and in binary64 with overflow except one case that is false: a zero numerator and a divisor whose reciprocal overflows gives [nan, nan] (`C05_rdiv_iff`: exactly then, infinite ends included)."
  },
  {
   "property": "C06",
   "status": "proved",
   "theorems": [
    "IntvalPy.C06_pow_encloses",
    "IntvalPy.C06_pow_range",
    "IntvalPy.C06_pow_zero_not_sharp",
    "IntvalPy.C06_real_power_error",
    "IntvalPy.C06_float_refines",
    "IntvalPy.C06_float_raises"
   ],
   "note": "Natural exponents; X**0 over zero is shown not sharp."
  },
  {
   "property": "C07",
   "status": "proved",
   "theorems": [
    "IntvalPy.C07_mode_restored",
    "IntvalPy.C07_outcome_mode_free",
    "IntvalPy.C07_mode_restored_elementary"
   ],
   "note": "Every operation, all operand kinds, normal and exceptional exits."
  },
  {
   "property": "C08",
   "status": "partial",
   "theorems": [
    "IntvalPy.C08_int_encloses_false",
    "IntvalPy.C08_int_encloses_partial",
    "IntvalPy.C08_sums_nearest",
    "IntvalPy.C08_product_nearest",
    "IntvalPy.C08_overflow",
    "IntvalPy.C08_quotient_small",
    "IntvalPy.C08_quotient_nearest",
    "IntvalPy.C08_quotient_overflow",
    "IntvalPy.C08_quotient_false"
   ],
   "note": "False beyond 2^53 (witness); proved for integers up to 2^52 (sums) and 2^26 (products). For integers of any size the exact ends are rounded to the nearest double, off by at most one part in 2^53, and the result encloses exactly when neither end is rounded inwards; beyond the doubles OverflowError. Quotients: enclosed below 2^53, off by at most one rounding to nearest beyond."
  },
  {
   "property": "C09",
   "status": "partial",
   "theorems": [
    "IntvalPy.C09_numpy_div_false",
    "IntvalPy.C09_numpy_div_partial",
    "IntvalPy.C09_float_same"
   ],
   "note": "False of the code: numpy-dispatched division skips the zero test; equal when zero is not in the interval."
  },
  {
   "property": "C10",
   "status": "proved",
   "theorems": [
    "IntvalPy.C10_class_invariant",
    "IntvalPy.C10_inv_breaks_invariant"
   ],
   "note": "Induction over arbitrary operation sequences; inv (not part of the claim) is shown to break the invariant."
  },
  {
   "property": "C100",
   "status": "partial",
   "theorems": [
    "IntvalPy.C100_objects_partial",
    "IntvalPy.C100_objects_false",
    "IntvalPy.C100_scatter",
    "IntvalPy.C100_corners"
   ],
   "note": "One-dimensional arrays. False of the code for arrays mixing integer and float endpoints (views, C63); proved when the views are right."
  },
  {
   "property": "C101",
   "status": "partial",
   "theorems": [
    "IntvalPy.C101_exact_false",
    "IntvalPy.C101_weights_false",
    "IntvalPy.C101_exact_partial",
    "IntvalPy.C101_strict_partial"
   ],
   "note": "False of the code: for rows with coefficients of both signs and for weights above one the penalised maximum is larger and lies outside. Proved when each variable has coefficients of one sign and no weight exceeds one; strict for larger factors."
  },
  {
   "property": "C102",
   "status": "partial",
   "theorems": [
    "IntvalPy.C102_reuse_false",
    "IntvalPy.C102_reuse_partial",
    "IntvalPy.C102_first_call"
   ],
   "note": "False of the code: the factor is stored by the first call. Proved for objects created with a factor and for systems with the same largest magnitude."
  },
  {
   "property": "C103",
   "status": "partial",
   "theorems": [
    "IntvalPy.C103_ends_false",
    "IntvalPy.C103_ends_partial",
    "IntvalPy.C103_nearest",
    "IntvalPy.C103_unsigned",
    "IntvalPy.C103_unsigned_false",
    "IntvalPy.C103_number_first",
    "IntvalPy.C103_rows",
    "IntvalPy.C103_flat"
   ],
   "note": "False of the code: a float anywhere in the lists makes np.array or np.stack round all integers. Proved for floats with integers of at most 53 bits and for 64-bit integers; in general every end is the given number or its nearest double."
  },
  {
   "property": "C104",
   "status": "partial",
   "theorems": [
    "IntvalPy.C104_ball_false",
    "IntvalPy.C104_ball_partial",
    "IntvalPy.C104_ends",
    "IntvalPy.C104_ball_iff_partial"
   ],
   "note": "False of the code: the ends are rounded to nearest. Proved exact for integers and representable ends, with the rounding error in general; negative and NaN radii rejected."
  },
  {
   "property": "C105",
   "status": "partial",
   "theorems": [
    "IntvalPy.C105_ignored_false",
    "IntvalPy.C105_pairs_partial",
    "IntvalPy.C105_reads",
    "IntvalPy.C105_object_rows"
   ],
   "note": "False of the code: entries of the last axis after the second are ignored. Proved for a last axis of length two; all outcomes described."
  },
  {
   "property": "C106",
   "status": "partial",
   "theorems": [
    "IntvalPy.C106_exact_box",
    "IntvalPy.C106_algo_partial",
    "IntvalPy.C106_one_pass",
    "IntvalPy.C106_orthant_hull",
    "IntvalPy.C106_zero_start_false",
    "IntvalPy.C106_mid_row",
    "IntvalPy.C106_omega_value"
   ],
   "note": "False of the code: a start bound with an end equal to zero removes the unknown from the linear program (np.sign is 0) and the bound is wrong. Proved: an exact subproblem value is attained by a solution, and the result is the exact hull when the start boxes for b and -b contain no zero; for start boxes with zero inside, each returned end is attained or stems from a box narrower than the tolerance. Missing: start bounds with an end equal to zero, where it is false."
  },
  {
   "property": "C107",
   "status": "proved",
   "theorems": [
    "IntvalPy.C107_tol_compat",
    "IntvalPy.C107_uni_compat"
   ],
   "note": "Real numbers and polynomial bases, with the true stationary points from the root finder (RootsOK)."
  },
  {
   "property": "C108",
   "status": "partial",
   "theorems": [
    "IntvalPy.C108_uni_false",
    "IntvalPy.C108_uni_partial",
    "IntvalPy.C108_wils_partial",
    "IntvalPy.C108_inf_decisive",
    "IntvalPy.C108_l1_error",
    "IntvalPy.C108_wils_inf_decisive",
    "IntvalPy.C108_wils_l1_error"
   ],
   "note": "False of the code: where the values of the model meet the midpoint of the output the function is constant and the vector is not zero. Proved elsewhere, for both norms and both regressions: the slope for l1, a subgradient on the piece for inf. For inf only the decisive row needs this, and where that row meets the midpoint the least value is already reached, so nothing is lost; for l1 the error is exactly the sum of the slopes of the rows that meet the midpoint."
  },
  {
   "property": "C109",
   "status": "proved",
   "theorems": [
    "IntvalPy.C109_steps",
    "IntvalPy.C109_no_zero_division"
   ],
   "note": "Exact arithmetic with the Euclidean norm; positive tolg, alpha, h0, q1, q2."
  },
  {
   "property": "C11",
   "status": "proved",
   "theorems": [
    "IntvalPy.C11_add_range",
    "IntvalPy.C11_sub_range",
    "IntvalPy.C11_mul_range",
    "IntvalPy.C11_div_range"
   ],
   "note": ""
  },
  {
   "property": "C110",
   "status": "proved",
   "theorems": [
    "IntvalPy.C110_line",
    "IntvalPy.C110_one_variable"
   ],
   "note": "Exact arithmetic with the Euclidean norm; convex objective with subgradients."
  },
  {
   "property": "C111",
   "status": "proved",
   "theorems": [
    "IntvalPy.C111_converges",
    "IntvalPy.C111_default",
    "IntvalPy.C111_tol",
    "IntvalPy.C111_exit1",
    "IntvalPy.C111_accuracy",
    "IntvalPy.C111_tol_accuracy"
   ],
   "note": "Exact arithmetic, one variable; instances for the default parameters and for Tol.maximize with one unknown. C111_exit1 and C111_accuracy bound the returned value for every exit."
  },
  {
   "property": "C112",
   "status": "partial",
   "theorems": [
    "IntvalPy.C112_coordinates",
    "IntvalPy.C112_objective_partial",
    "IntvalPy.C112_objective_false"
   ],
   "note": "Coordinates and units proved. Change of the objective false with tolf > 0: the change of the value is compared with tolf absolutely when the value is at most 1, although documented as relative; proved with tolf <= 0."
  },
  {
   "property": "C113",
   "status": "partial",
   "theorems": [
    "IntvalPy.C113_comparisons_partial",
    "IntvalPy.C113_comparisons_false",
    "IntvalPy.C113_two_ways"
   ],
   "note": "False of the code: an interval array and an interval cannot be compared in either order, and numpy scalars and arrays on the left raise. All the other pairs proved, with the exact table of exceptions; numpy 1.25 or later assumed."
  },
  {
   "property": "C114",
   "status": "partial",
   "theorems": [
    "IntvalPy.C114_assignment_partial",
    "IntvalPy.C114_one_element",
    "IntvalPy.C114_assignment_false",
    "IntvalPy.C114_raises"
   ],
   "note": "False of the code: an array or list assigned to one element is stored as a whole in the cell, after which the endpoints cannot be read. Everything else proved."
  },
  {
   "property": "C115",
   "status": "partial",
   "theorems": [
    "IntvalPy.C115_iteration_partial",
    "IntvalPy.C115_iteration_false"
   ],
   "note": "False of the code: rows of a matrix come out of a loop as plain numpy arrays, reversed always raises. Proved for one axis."
  },
  {
   "property": "C116",
   "status": "partial",
   "theorems": [
    "IntvalPy.C116_bias_partial",
    "IntvalPy.C116_bias_false",
    "IntvalPy.C116_polynomials"
   ],
   "note": "False of the code for the basis laguerre, whose bias column is identically zero. Proved for the other four bases (with the factor 2 for hermite); uniqueness of the coefficients for one column."
  },
  {
   "property": "C117",
   "status": "proved",
   "theorems": [
    "IntvalPy.C117_fit",
    "IntvalPy.C117_compatible",
    "IntvalPy.C117_predict",
    "IntvalPy.C117_returns_iff",
    "IntvalPy.C117_coeffs"
   ],
   "note": "Exact arithmetic for fit; the finder of stationary points is assumed to return all of them (RootsOK) as in C54; the initial guess from least squares is a parameter; a single row with several weights is not modelled."
  },
  {
   "property": "C118",
   "status": "proved",
   "theorems": [
    "IntvalPy.C118_returns_iff",
    "IntvalPy.C118_raises",
    "IntvalPy.C118_fit",
    "IntvalPy.C118_compatible",
    "IntvalPy.C118_training",
    "IntvalPy.C118_predict"
   ],
   "note": "Exact arithmetic for fit; the initial guess from least squares is a parameter; a single observation with several weights is not modelled."
  },
  {
   "property": "C119",
   "status": "partial",
   "theorems": [
    "IntvalPy.C119_print_false",
    "IntvalPy.C119_print_partial",
    "IntvalPy.C119_error",
    "IntvalPy.C119_neg",
    "IntvalPy.C119_order",
    "IntvalPy.C119_exact",
    "IntvalPy.C119_raises"
   ],
   "note": "False of the code: [1234567, 1234567] prints as [1.23457e+06, 1.23457e+06]; disjoint intervals can print alike. Proved for all finite floats: the numbers shown are ordered like the endpoints, lie within five millionths of them, are mirrored by negation, and are exact for endpoints with at most six significant digits; printing raises exactly for integer endpoints beyond the float range. The text itself (layout of the digits) is not modelled."
  },
  {
   "property": "C12",
   "status": "partial",
   "theorems": [
    "IntvalPy.C12_eval_encloses_false",
    "IntvalPy.C12_eval_encloses_partial",
    "IntvalPy.C12_eval_isotone"
   ],
   "note": "Enclosure for every rounding, for expressions whose plain-number divisors have representable reciprocals (false otherwise, because of C04); isotonicity for every rounding."
  },
  {
   "property": "C120",
   "status": "partial",
   "theorems": [
    "IntvalPy.C120_exp_partial",
    "IntvalPy.C120_log_partial",
    "IntvalPy.C120_sqrt_partial",
    "IntvalPy.C120_trig_iff",
    "IntvalPy.C120_pow_iff",
    "IntvalPy.C120_pow_kaucher",
    "IntvalPy.C120_abs_iff",
    "IntvalPy.C120_mid",
    "IntvalPy.C120_unary_false",
    "IntvalPy.C120_intersection_partial",
    "IntvalPy.C120_intersection_false",
    "IntvalPy.C120_add",
    "IntvalPy.C120_sub",
    "IntvalPy.C120_add_iff",
    "IntvalPy.C120_mul_iff",
    "IntvalPy.C120_div_iff",
    "IntvalPy.C120_rmul_iff",
    "IntvalPy.C120_mul_kaucher",
    "IntvalPy.C120_div_kaucher",
    "IntvalPy.C120_nan_false",
    "IntvalPy.C120_nan_partial"
   ],
   "note": "Binary64 level. False for products and quotients of classical intervals (`C120_nan_false`: `[1, nan] * [2, 3]` is `[2, 3]`, `2 * [1, nan]` is `[2, 2]`), because `min` and `max` pass over a NaN that is not their first argument; `C120_mul_iff`, `C120_div_iff`, `C120_rmul_iff` say exactly when NaN appears: when the product (quotient) of the two lower ends is NaN. Proved for sums and differences, for products and quotients with an operand of the Kaucher class, and for intervals with both ends NaN. `intersection` loses a NaN that is the upper end of its first or the lower end of its second operand (`C120_intersection_false`), so its answer depends on the order. Functions of one interval (`C120_unary_false`): `exp` loses NaN when the other end overflows, `sin`, `cos`, natural powers and `abs` lose a NaN upper end, `log` only that of an improper interval; `mid`, `rad`, `wid` keep it."
  },
  {
   "property": "C121",
   "status": "partial",
   "theorems": [
    "IntvalPy.C121_false",
    "IntvalPy.C121_partial",
    "IntvalPy.C121_nonneg",
    "IntvalPy.nearPow_accurate"
   ],
   "note": "Binary64 level. False (`C121_false`: with the correctly rounded `pow`, `Interval(t, t) ** 2` for `t = 2**27 + 1` does not contain `t**2`), because the code relies on `pow` following the rounding mode, which neither C nor the usual libraries promise. Proved: the result widened by the relative error of `pow` (times the greatest power of the endpoints; for non-negative intervals in relative form) contains all powers, for every accuracy."
  },
  {
   "property": "C122",
   "status": "proved",
   "theorems": [
    "IntvalPy.C122_row",
    "IntvalPy.C122_entry",
    "IntvalPy.C122_pps_ends"
   ],
   "note": "For every tag matrix, consistent or not; the bound is attained (n = 2, five passes). The result of PPS does not depend on the bound of the inner loop in the model once it is 2 n + 1, so the other PPS theorems hold for the real loop."
  },
  {
   "property": "C123",
   "status": "partial",
   "theorems": [
    "IntvalPy.C123_one_equation_partial",
    "IntvalPy.C123_matrix_right_false",
    "IntvalPy.C123_refuses_iff"
   ],
   "note": "False of the code: the divisors of all columns are the sums of the diagonals, so that HBR(I, I) for n = 2 returns [1/4, 3/4] where the solution is 1. Proved for one equation and any number of columns; proved for every size when exactly the call is refused with AssertionError."
  },
  {
   "property": "C124",
   "status": "proved",
   "theorems": [
    "IntvalPy.C124_preconditioned_hull",
    "IntvalPy.C124_hull"
   ],
   "note": "Optimality theorem of Hansen, Bliek and Rohn for the code as written, exact arithmetic. Solutions that attain the ends are constructed from the inverse of the comparison matrix."
  },
  {
   "property": "C125",
   "status": "proved",
   "theorems": [
    "IntvalPy.C125_tol_certificate",
    "IntvalPy.C125_tol_ball",
    "IntvalPy.C125_zero_value_false",
    "IntvalPy.near_ball_le"
   ],
   "note": "binary64 without overflow; C125_tol_ball holds for every rounding with the computed midpoint and radius in place of b; C125_zero_value_false: a computed value of exactly zero proves nothing."
  },
  {
   "property": "C126",
   "status": "partial",
   "theorems": [
    "IntvalPy.C126_uni_certificate_partial",
    "IntvalPy.C126_uni_ball",
    "IntvalPy.C126_uni_certificate_false"
   ],
   "note": "False: C126_uni_certificate_false ([1,1]x = [-4,-(1+7/2^52)] at the upper end of the right-hand side). Proved when midpoint and radius of b are doubles, and for every rounding with the computed midpoint and radius in place of b."
  },
  {
   "property": "C127",
   "status": "proved",
   "theorems": [
    "IntvalPy.C127_globopt_ends",
    "IntvalPy.halfOK_exact",
    "IntvalPy.halfOK_b64"
   ],
   "note": "Any rounding with midpoints inside (MidOK) and bisection by a factor q (HalfOK), both shown for exact arithmetic (q = 1/2) and binary64 without overflow (q = 1/2 + 2^-10, widths down to 2^-40 of the largest endpoint)."
  },
  {
   "property": "C128",
   "status": "proved",
   "theorems": [
    "IntvalPy.C128_gauss_seidel_stops",
    "IntvalPy.C128_gauss_seidel_size",
    "IntvalPy.C128_gauss_seidel_point",
    "IntvalPy.C128_gauss_seidel_h_matrix"
   ],
   "note": "Exact arithmetic. A successful call is meant where the result is bounded; the equality of the results covers the calls that raise."
  },
  {
   "property": "C129",
   "status": "proved",
   "theorems": [
    "IntvalPy.C129_krawczyk_linear",
    "IntvalPy.C129_krawczyk_quadratic",
    "IntvalPy.C129_hansen_sengupta_half",
    "IntvalPy.C129_hansen_sengupta_quadratic"
   ],
   "note": "Exact arithmetic, scalar form (the vector forms raise, C40)."
  },
  {
   "property": "C13",
   "status": "proved",
   "theorems": [
    "IntvalPy.C13_add_comm",
    "IntvalPy.C13_additive_group",
    "IntvalPy.C13_add_cancel"
   ],
   "note": ""
  },
  {
   "property": "C130",
   "status": "proved",
   "theorems": [
    "IntvalPy.C130_gauss_seidel_corners",
    "IntvalPy.C130_gauss_seidel_optimal"
   ],
   "note": "Exact arithmetic. The solution set is that of the preconditioned system; for the unit preconditioner it is that of the system itself."
  },
  {
   "property": "C131",
   "status": "proved",
   "theorems": [
    "IntvalPy.C131_tol_margin",
    "IntvalPy.C131_uni_margin",
    "IntvalPy.C131_uss_margin",
    "IntvalPy.C131_tol_max",
    "IntvalPy.C131_uni_max"
   ],
   "note": "Exact arithmetic."
  },
  {
   "property": "C132",
   "status": "proved",
   "theorems": [
    "IntvalPy.C132_tol_monotone",
    "IntvalPy.C132_uni_monotone",
    "IntvalPy.C132_uss_monotone",
    "IntvalPy.C132_order"
   ],
   "note": "Exact arithmetic."
  },
  {
   "property": "C133",
   "status": "partial",
   "theorems": [
    "IntvalPy.C133_interval_power_partial",
    "IntvalPy.C133_zero_base",
    "IntvalPy.C133_interval_power_false",
    "IntvalPy.C133_raises"
   ],
   "note": "Binary64 level, with the assumptions on exp and log of SpecElem. False when the base touches zero: `[0, 1] ** [0, 1]` has two NaN ends (`0 * log(0)`). Proved for positive bases; for a base [0, t] decided by the sign of the lower end of the exponent (NaN, enclosure, or a lost power); the guard is proved exactly."
  },
  {
   "property": "C134",
   "status": "partial",
   "theorems": [
    "IntvalPy.C134_numbers",
    "IntvalPy.C134_methods",
    "IntvalPy.C134_nan",
    "IntvalPy.C134_sets",
    "IntvalPy.C134_strict_partial",
    "IntvalPy.C134_strict_false"
   ],
   "note": "Binary64 level. False of `<` when the operands share an infinite end: `[-inf, 1] < [-inf, 2]` is `False`. Everything else is proved."
  },
  {
   "property": "C135",
   "status": "partial",
   "theorems": [
    "IntvalPy.C135_quotient_iff",
    "IntvalPy.C135_quotient_partial",
    "IntvalPy.C135_false"
   ],
   "note": "Binary64 level. False when both lower ends are -inf: `[-inf, 1] / [-inf, -1]` is `[nan, nan]`. `C135_quotient_iff` says exactly when the quotient encloses and when it raises."
  },
  {
   "property": "C136",
   "status": "proved",
   "theorems": [
    "IntvalPy.C136_power_encloses",
    "IntvalPy.ieeePow_spec"
   ],
   "note": "Binary64 level. Assumption PowIEEE on the power of one number: rounded in the active mode at finite numbers (see C121 for the case without), IEEE values at the infinities; shown satisfiable. An exception of the power is passed on (C06_float_raises)."
  },
  {
   "property": "C137",
   "status": "proved",
   "theorems": [
    "IntvalPy.C137_rounded",
    "IntvalPy.C137_vector",
    "IntvalPy.C137_metric",
    "IntvalPy.C137_integers",
    "IntvalPy.C137_nonfinite",
    "IntvalPy.C137_triangle_false"
   ],
   "note": "Round to nearest, no integer beyond 64 bits beside a float. The triangle inequality holds for the exact distances (C24) but not for computed ones (witness)."
  },
  {
   "property": "C138",
   "status": "proved",
   "theorems": [
    "IntvalPy.C138_minimize",
    "IntvalPy.C138_empty",
    "IntvalPy.C138_bounds",
    "IntvalPy.C138_converges",
    "IntvalPy.C138_objects"
   ],
   "note": "Any deterministic answer of the LP solver and any element type of the endpoint arrays (`st`, `viewCast`). C138_bounds bounds all residuals at the returned point; C138_converges is the one-unknown case with the default parameters."
  },
  {
   "property": "C139",
   "status": "partial",
   "theorems": [
    "IntvalPy.C139_accuracy_false",
    "IntvalPy.C139_any_accuracy",
    "IntvalPy.C139_jump",
    "IntvalPy.C139_accuracy_partial",
    "IntvalPy.C139_objects"
   ],
   "note": "False of the code in two ways: `A_opt = np.zeros_like(infA)` is an integer array for integer endpoints and truncates every coefficient the solver returns inside the box, whatever its accuracy (C139_any_accuracy: 1 instead of 2), and the wrong test of C46 jumps at its switching point (C139_jump). The partial theorem gives the bound away from the switching point, with one extra unit per coefficient for integer endpoints."
  },
  {
   "property": "C14",
   "status": "proved",
   "theorems": [
    "IntvalPy.C14_mul_is_kaucher_product",
    "IntvalPy.C14_mul_comm",
    "IntvalPy.C14_mul_inv"
   ],
   "note": ""
  },
  {
   "property": "C140",
   "status": "proved",
   "theorems": [
    "IntvalPy.C140_elementwise",
    "IntvalPy.C140_trig_encloses",
    "IntvalPy.C140_exp_encloses",
    "IntvalPy.C140_log_sqrt_encloses",
    "IntvalPy.C140_sign"
   ],
   "note": "elementwise behaviour for every function of one interval and every nested list; enclosures at every place instantiate C28, C29 and C58 in their ranges."
  },
  {
   "property": "C141",
   "status": "partial",
   "theorems": [
    "IntvalPy.C141_false",
    "IntvalPy.C141_rohn",
    "IntvalPy.C141_rohn_partial",
    "IntvalPy.C141_margin_partial"
   ],
   "note": "False of the code: for x = [-1, 1], 2 x = [2, 6] the only tolerable solution is 1 and the maximum of Tol is 0, but the maximisation with its default parameters stops at a value between -1e-12 and 0, so the system is refused as empty (C141_false, run in exact arithmetic). C141_rohn: what a result means for each value of consistency; C141_rohn_partial: a box is returned exactly if one of the points visited by the maximisation is tolerable, in particular if the starting point is; C141_margin_partial: with one unknown a system whose functional reaches G/100000 + 1e-9 (G bounds the coefficients) within 500 of the start is not refused."
  },
  {
   "property": "C142",
   "status": "proved",
   "theorems": [
    "IntvalPy.C142_encloses",
    "IntvalPy.C142_ends",
    "IntvalPy.C142_b64",
    "IntvalPy.C142_doubles"
   ],
   "note": "C142_encloses and C142_ends for any rounding that keeps small integers, C142_b64 for binary64; C142_doubles: the factor 2 is needed. Simplification: the value of func is an exact interval."
  },
  {
   "property": "C143",
   "status": "partial",
   "theorems": [
    "IntvalPy.C143_proper",
    "IntvalPy.C143_tolerable",
    "IntvalPy.C143_step",
    "IntvalPy.C143_improper",
    "IntvalPy.C143_step_improper",
    "IntvalPy.C143_united_partial",
    "IntvalPy.C143_united_false"
   ],
   "note": "Ordinary matrices proved (any damping: C143_step; full steps: C143_proper, C143_tolerable). Dual matrices: proved when no entry contains zero; false otherwise, because of the sign in case 16 of calcSubgrad: a 2x2 system on which the default call alternates between two vectors for all 501 passes and returns a box containing points that solve nothing."
  },
  {
   "property": "C144",
   "status": "partial",
   "theorems": [
    "IntvalPy.C144_false",
    "IntvalPy.C144_same_signs_partial"
   ],
   "note": "False of the code: on a 2x2 system with a formal solution the default call alternates between two vectors for all 501 passes and returns one of them with residual 9. Proved: one step is enough when the start (the formal solution of the midpoint system) has the signs of the solution; for point matrices see C47_point_matrix, for stops with zero residual C47_zero_residual."
  },
  {
   "property": "C145",
   "status": "proved",
   "theorems": [
    "IntvalPy.C145_true_iff",
    "IntvalPy.C145_signs",
    "IntvalPy.C145_zero",
    "IntvalPy.C145_zero_rat",
    "IntvalPy.C145_sharp"
   ],
   "note": "Modelled from the text: the module imports intvalpy.utils, which does not exist, so it cannot be loaded as shipped. The theorem of Poincare and Miranda is not in Mathlib and is proved in ProofsMiranda.lean."
  },
  {
   "property": "C146",
   "status": "proved",
   "theorems": [
    "IntvalPy.C146_tol",
    "IntvalPy.C146_uni",
    "IntvalPy.C146_value"
   ],
   "note": "Modelled from the text: the module imports names that do not exist and cannot be loaded as shipped. Exact arithmetic; the model function is a parameter."
  },
  {
   "property": "C147",
   "status": "partial",
   "theorems": [
    "IntvalPy.C147_tol_false",
    "IntvalPy.C147_uni_false",
    "IntvalPy.C147_tol_partial",
    "IntvalPy.C147_uni_partial",
    "IntvalPy.C147_maximize"
   ],
   "note": "False of the code already for the model a * x at negative x: the lower end of the derivative is used for the lower end of the product. Proved: the vector is a subgradient wherever the ends of the model have the ends of the interval derivatives as slopes (for Uni: and no value of the model is the midpoint of the right-hand side), e.g. linear models at nonnegative parameters; what maximize returns is proved without conditions."
  },
  {
   "property": "C148",
   "status": "proved",
   "theorems": [
    "IntvalPy.C148_hansen_sengupta",
    "IntvalPy.C148_krawczyk",
    "IntvalPy.C148_krawczyk_once",
    "IntvalPy.C148_zero",
    "IntvalPy.C148_zero_rat",
    "IntvalPy.C148_two_passes"
   ],
   "note": "Scalar form (the vector forms raise, C40), any rounding with midpoints inside. The sign change is proved over every ordered field, the zero over the reals; C148_two_passes shows that the condition on the slopes is needed for several passes of Krawczyk."
  },
  {
   "property": "C149",
   "status": "partial",
   "theorems": [
    "IntvalPy.C149_assoc_false",
    "IntvalPy.C149_assoc_partial",
    "IntvalPy.C149_assoc_same_class",
    "IntvalPy.C149_one_zero",
    "IntvalPy.C149_subdistributive",
    "IntvalPy.C149_distributive",
    "IntvalPy.C149_dual",
    "IntvalPy.C149_inclusion"
   ],
   "note": "False of the code for associativity when a classical factor meets one of Kaucher class with zero inside both (the pairs of C15): C149_assoc_false. Everything is proved outside these pairs, in particular for three operands of one class; the neutral element and distributivity for ends of one sign hold without exception."
  },
  {
   "property": "C15",
   "status": "partial",
   "theorems": [
    "IntvalPy.C15_mul_comm_false",
    "IntvalPy.C15_mul_wrong_value",
    "IntvalPy.C15_mul_comm_partial"
   ],
   "note": "False of the code: classical * Kaucher-class proper interval spanning zero. Proved outside exactly those pairs."
  },
  {
   "property": "C150",
   "status": "proved",
   "theorems": [
    "IntvalPy.C150_gauss_seidel",
    "IntvalPy.C150_encloses_all",
    "IntvalPy.C150_border"
   ],
   "note": "Rational (e.g. binary64) endpoints, real point systems; existence by the Poincare-Miranda theorem applied to the equations clamped to the start box, regularity because a line of solutions would leave the box. C150_border: a singular interval matrix whose result is the start box."
  },
  {
   "property": "C151",
   "status": "proved",
   "theorems": [
    "IntvalPy.C151_full_rank",
    "IntvalPy.C151_square",
    "IntvalPy.C151_maxiter_stop"
   ],
   "note": "Exact arithmetic (as C42). C151_maxiter_stop: a box is returned for a singular interval when the limit stops the run. Not true of double arithmetic, see C160."
  },
  {
   "property": "C152",
   "status": "partial",
   "theorems": [
    "IntvalPy.C152_matmul",
    "IntvalPy.C152_matmul_point",
    "IntvalPy.C152_partial",
    "IntvalPy.C152_false"
   ],
   "note": "Products: proved. Gauss_Seidel: false for a positive tolerance, because the narrower problem may stop after fewer passes (C152_false); proved for tolerances <= 0, when all passes are made."
  },
  {
   "property": "C153",
   "status": "proved",
   "theorems": [
    "IntvalPy.C153_sum",
    "IntvalPy.C153_multiple",
    "IntvalPy.C153_product",
    "IntvalPy.C153_quotient",
    "IntvalPy.C153_rounded"
   ],
   "note": "Exact arithmetic for the equalities; with rounding the enclosure and the lower bounds on widths."
  },
  {
   "property": "C154",
   "status": "partial",
   "theorems": [
    "IntvalPy.C154_small_partial",
    "IntvalPy.C154_all_positive_partial",
    "IntvalPy.C154_false"
   ],
   "note": "False of the code for four unknowns: the assertion asks for one positive entry of u where all are needed, and HBR answers for a matrix that contains a singular one. Proved for n <= 3 (a matrix that passes the wrong test is then refused by the last division), and for every n, rounding and inversion routine, also inexact, when all entries of u are positive."
  },
  {
   "property": "C155",
   "status": "partial",
   "theorems": [
    "IntvalPy.C155_rhs",
    "IntvalPy.C155_two_partial",
    "IntvalPy.C155_triangular_partial",
    "IntvalPy.C155_fair_partial",
    "IntvalPy.C155_false"
   ],
   "note": "Independence of b: proved. Regularity is false of the code for three unknowns: Gauss returns a point for a singular point matrix and a right-hand side for which the system has no solution (the elimination multiplies rows elementwise). Proved for n <= 2, for upper triangular matrices and for every run in which the subtracted products contain the right ones, any rounding."
  },
  {
   "property": "C156",
   "status": "partial",
   "theorems": [
    "IntvalPy.C156_commutative",
    "IntvalPy.C156_signs",
    "IntvalPy.C156_partial",
    "IntvalPy.C156_false",
    "IntvalPy.b64_odd"
   ],
   "note": "Commutativity (any rounding) and sign laws (odd rounding; binary64 is odd) proved. Associativity and subdistributivity are false for doubles (C156_false); all ways to put the brackets enclose all values, and the rounded X*Y + X*Z contains the exact X*(Y+Z)."
  },
  {
   "property": "C157",
   "status": "partial",
   "theorems": [
    "IntvalPy.C157_false",
    "IntvalPy.C157_right_views_partial",
    "IntvalPy.C157_side_any_views",
    "IntvalPy.C157_point_any_views"
   ],
   "note": "False of the code: the start is computed from the truncated views b.a, b.b (C63); an explicit 2x2 system where the default call finds the formal solution with floats and runs in a circle with integers first. Proved when the views are right; for any views the side of the equations (C143) and point matrices with full steps are unaffected."
  },
  {
   "property": "C158",
   "status": "partial",
   "theorems": [
    "IntvalPy.C158_false",
    "IntvalPy.C158_enclosure",
    "IntvalPy.C158_objects_enclosure",
    "IntvalPy.C158_algo_le",
    "IntvalPy.C158_right_views_partial",
    "IntvalPy.C158_never_sharp"
   ],
   "note": "The first half is false of the code: line 214 classifies the rows from the truncated column views (C63), and one pass on an explicit 2x2 system gives [-100, 100] with the integer 1 and [10, 40] with 1.0. Proved: enclosure for every classification whatever (also for products that wrap around in int64), and independence of the number type when the views are right and the endpoints at most 2^31."
  },
  {
   "property": "C159",
   "status": "partial",
   "theorems": [
    "IntvalPy.C159_dual_opp",
    "IntvalPy.C159_pro_partial",
    "IntvalPy.C159_pro_nan",
    "IntvalPy.C159_khi_partial",
    "IntvalPy.C159_khi_one_iff",
    "IntvalPy.C159_khi_false",
    "IntvalPy.C159_khi_overflow_false",
    "IntvalPy.C159_false"
   ],
   "note": "Binary64 level. `dual` and `opp`: proved for all ends, with the exact condition of the involution laws (`C159_dual_opp`). False for `pro` (`C159_false`: `Interval(1, nan, sortQ=False).pro` is `[1, 1]`; `C159_pro_nan` is the exact condition) and for `khi` with integers above 2^53 (`C159_khi_false`: value `1.0000000000000002`; `C159_khi_overflow_false`: `OverflowError`) and for `[0, nan]` (`ZeroDivisionError`). Proved: `pro` without NaN; `khi` for floats of any kind and integers below 2^53, with the exact conditions for an exception and for NaN; `khi` is 1 (-1) exactly for degenerate (symmetric) intervals in spite of rounding (`C159_khi_one_iff`)."
  },
  {
   "property": "C16",
   "status": "partial",
   "theorems": [
    "IntvalPy.C16_inv_endpoints",
    "IntvalPy.C16_inv_class_false",
    "IntvalPy.C16_inv_class_partial"
   ],
   "note": "Endpoint and error part proved; class part false for improper intervals spanning zero."
  },
  {
   "property": "C160",
   "status": "partial",
   "theorems": [
    "IntvalPy.C160_exact",
    "IntvalPy.C160_certificate_partial",
    "IntvalPy.C160_slack_partial",
    "IntvalPy.C160_singular_false",
    "IntvalPy.C160_regular_false",
    "IntvalPy.C160_false"
   ],
   "note": "Every numpy operation rounded to nearest binary64, interval products outward. False of the code: `[0, 2] x = 0` stops with `error < tol` after four passes because of the rounding of `4e-12 - 3e-12` and returns `[-4e-12, 4e-12]` (`C160_singular_false`), and `1 x = [2^70, 2^70 + 2^18]` returns a box that contains one point of the set (`C160_regular_false`). Proved: without rounding the model is that of C42 (`C160_exact`); radii satisfying `G d + g < d` exactly bound the distance of every solution from the computed centre, whatever was computed (`C160_certificate_partial`); a stop with room for the rounding errors of one pass is safe (`C160_slack_partial`)."
  },
  {
   "property": "C161",
   "status": "partial",
   "theorems": [
    "IntvalPy.C161_partial",
    "IntvalPy.C161_krawczyk_step_partial",
    "IntvalPy.C161_hansen_step_partial",
    "IntvalPy.C161_refuses",
    "IntvalPy.C161_unbounded_false",
    "IntvalPy.C161_overflow_false",
    "IntvalPy.C161_false"
   ],
   "note": "False of the code: on `[a, inf]` the midpoint is infinite, `c - f(c)` is `inf - inf`, and both functions return NaN for `x - r` with any `r >= a`, any number of passes and any tolerance (`C161_unbounded_false`); the same on `[1e308, 1.7e308]`, where the sum of the ends overflows (`C161_overflow_false`). Proved: the loop itself (intersection, test for NaN, stop) keeps every zero that the single steps keep, for all ends (`C161_partial`), and an interval whose computed image does not contain zero is refused (`C161_refuses`). A single step keeps the zero, with infinite ends and overflow in any operation, when the centre and LAMBDA are finite and no `0 * -inf` (for HansenSengupta also no `-inf / -inf`) is formed from lower ends (`C161_krawczyk_step_partial`, `C161_hansen_step_partial`). Without overflow this is C39."
  },
  {
   "property": "C162",
   "status": "partial",
   "theorems": [
    "IntvalPy.C162_returns_partial",
    "IntvalPy.C162_bounded_partial",
    "IntvalPy.C162_zero_false",
    "IntvalPy.C162_plane_false",
    "IntvalPy.C162_false"
   ],
   "note": "False of the code as to the exception: for the identity matrix, right-hand side (1, 2) and the whole plane as x0, `0 * -inf` is NaN, the intersection with NaN is NaN, and the exception is raised although (1, 2) is a solution (`C162_plane_false`); for every system with a coefficient above the diagonal whose lower end is zero and a start component with lower end -inf in its column no box is returned (`C162_zero_false`). Proved: a returned box contains every solution of x0, for all ends, infinite ones and overflow included (`C162_returns_partial`); the full statement, exception included, when no lower end of the matrix is -inf and start components have the lower end -inf only where no coefficient of the column outside the diagonal has the lower end zero; upper ends may be infinite (`C162_bounded_partial`). Integer ends are assumed at most 2^26 in size, and the ends of the right-hand side floats, as products with the preconditioner are."
  },
  {
   "property": "C17",
   "status": "proved",
   "theorems": [
    "IntvalPy.C17_dual_pro_opp"
   ],
   "note": ""
  },
  {
   "property": "C18",
   "status": "proved",
   "theorems": [
    "IntvalPy.C18_comparisons"
   ],
   "note": ""
  },
  {
   "property": "C19",
   "status": "partial",
   "theorems": [
    "IntvalPy.C19_in_scalar",
    "IntvalPy.C19_in_array_false",
    "IntvalPy.C19_in_array_partial",
    "IntvalPy.C19_in_array_scalar",
    "IntvalPy.C19_in_array_array",
    "IntvalPy.C19_in_array_short"
   ],
   "note": "Scalar part proved; array part false (any-semantics, and UnboundLocalError on empty arrays)."
  },
  {
   "property": "C20",
   "status": "proved",
   "theorems": [
    "IntvalPy.C20_characteristics",
    "IntvalPy.C20_wid_number_false",
    "IntvalPy.C20_float_mag",
    "IntvalPy.C20_float_mig"
   ],
   "note": "The module-level wid(number) returns the number; recorded as C20_wid_number_false."
  },
  {
   "property": "C21",
   "status": "proved",
   "theorems": [
    "IntvalPy.C21_constructor",
    "IntvalPy.C21_vectors",
    "IntvalPy.C21_midrad_not_outward"
   ],
   "note": ""
  },
  {
   "property": "C22",
   "status": "partial",
   "theorems": [
    "IntvalPy.C22_interval_number_false",
    "IntvalPy.C22_interval_partial"
   ],
   "note": "False of the code: Interval(number) raises TypeError."
  },
  {
   "property": "C23",
   "status": "partial",
   "theorems": [
    "IntvalPy.C23_intersection_partial",
    "IntvalPy.C23_intersection_arrays",
    "IntvalPy.C23_convert_false",
    "IntvalPy.C23_float_common",
    "IntvalPy.C23_float_empty",
    "IntvalPy.C23_float_number"
   ],
   "note": "Everything but the documented conversion of non-intervals, which raises AttributeError. Also at the binary64 level, with infinite ends."
  },
  {
   "property": "C24",
   "status": "partial",
   "theorems": [
    "IntvalPy.C24_dist_metric",
    "IntvalPy.C24_dist_hausdorff",
    "IntvalPy.C24_distVec_metric",
    "IntvalPy.C24_objects_partial",
    "IntvalPy.C24_objects_false"
   ],
   "note": "False of the code for vectors mixing integer and float endpoints: dist reads x.a, x.b (C63) and gives 0 for different vectors. Proved for scalars, and for vectors whose views are right (exact condition C63_views_iff)."
  },
  {
   "property": "C25",
   "status": "proved",
   "theorems": [
    "IntvalPy.Heap.C25_value_semantics",
    "IntvalPy.Heap.C25_no_aliasing",
    "IntvalPy.Heap.C25_setitem_exact"
   ],
   "note": "Refinement of a value semantics by a heap model with buffers and views, for all operation sequences."
  },
  {
   "property": "C26",
   "status": "proved",
   "theorems": [
    "IntvalPy.C26_matmul_encloses",
    "IntvalPy.C26_matmul_point_encloses",
    "IntvalPy.C26_matvec_range"
   ],
   "note": "Inner dimension at least one (numpy yields the object False for an empty sum)."
  },
  {
   "property": "C27",
   "status": "partial",
   "theorems": [
    "IntvalPy.C27_vertex",
    "IntvalPy.C27_vertex_matrix",
    "IntvalPy.C27_objects_partial",
    "IntvalPy.C27_objects_false"
   ],
   "note": "False of the code for boxes mixing integer and float endpoints (vertex reads the views, C63). Proved for vectors and matrices of stored endpoints, and for objects whose views are right."
  },
  {
   "property": "C28",
   "status": "partial",
   "theorems": [
    "IntvalPy.C28_exp_encloses_partial",
    "IntvalPy.C28_exp_encloses_moderate",
    "IntvalPy.C28_exp_overflow_false",
    "IntvalPy.C28_exp_unbounded_false",
    "IntvalPy.C28_log_encloses",
    "IntvalPy.C28_sqrt_encloses",
    "IntvalPy.C28_exp_iff",
    "IntvalPy.C28_sqrt_iff"
   ],
   "note": "log and sqrt proved for all intervals bounded above (libm assumptions ExpOK, LogOK). exp is false exactly when a libm call overflows ([inf, inf] is returned) or the argument is unbounded above, sqrt exactly when the argument is unbounded above; proved otherwise."
  },
  {
   "property": "C29",
   "status": "partial",
   "theorems": [
    "IntvalPy.C29_exact_range",
    "IntvalPy.C29_sin_encloses_partial",
    "IntvalPy.C29_cos_encloses_partial",
    "IntvalPy.C29_improper_partial",
    "IntvalPy.C29_large_argument_false"
   ],
   "note": "Exact arithmetic: exactly the range. Doubles: proved with error bound 2^-50 for arguments up to 2^20; false for large arguments (witness near 3.14e15) because PI is a double."
  },
  {
   "property": "C30",
   "status": "proved",
   "theorems": [
    "IntvalPy.C30_tol_iff_tolerable",
    "IntvalPy.C30_degenerate"
   ],
   "note": "Exact arithmetic; m, n >= 1."
  },
  {
   "property": "C31",
   "status": "proved",
   "theorems": [
    "IntvalPy.C31_uni_iff_united",
    "IntvalPy.C31_uss_iff_united"
   ],
   "note": "Exact arithmetic; m, n >= 1."
  },
  {
   "property": "C32",
   "status": "partial",
   "theorems": [
    "IntvalPy.C32_tol_concave",
    "IntvalPy.C32_tol_false",
    "IntvalPy.C32_tol_supergradient_partial",
    "IntvalPy.C32_views_right"
   ],
   "note": "Concavity proved. The supergradient part is false for matrices whose first endpoint is an int (truncated views; witness: the library test matrix); proved whenever the views are right."
  },
  {
   "property": "C33",
   "status": "proved",
   "theorems": [
    "IntvalPy.C33_objective_is_minus_value"
   ],
   "note": "Exact arithmetic; for the three functionals, whatever the views return."
  },
  {
   "property": "C34",
   "status": "partial",
   "theorems": [
    "IntvalPy.C34_constraint_false",
    "IntvalPy.C34_constraint_partial",
    "IntvalPy.C34_objective_on_feasible",
    "IntvalPy.C34_penalty_subgradient"
   ],
   "note": "False for constraints without usable rows (exceptions) and for unsatisfiable rows without variables (dropped). Proved otherwise."
  },
  {
   "property": "C35",
   "status": "proved",
   "theorems": [
    "IntvalPy.C35_ralgb5",
    "IntvalPy.C35_codes"
   ],
   "note": "The norm and the division by it are arbitrary functions."
  },
  {
   "property": "C36",
   "status": "proved",
   "theorems": [
    "IntvalPy.C36_maximize",
    "IntvalPy.C36_maximize_constrained",
    "IntvalPy.C36_certificate"
   ],
   "note": "Exact arithmetic."
  },
  {
   "property": "C37",
   "status": "partial",
   "theorems": [
    "IntvalPy.C37_gauss_false",
    "IntvalPy.C37_gauss_triangular_partial",
    "IntvalPy.C37_gauss_fair_partial",
    "IntvalPy.C37_gauss_columns_partial",
    "IntvalPy.C37_gauss_lower_partial",
    "IntvalPy.C37_gauss_dominant_partial",
    "IntvalPy.C37_gauss_test_systems_partial",
    "IntvalPy.C37_gauss_partial",
    "IntvalPy.C37_gauss_ordinary"
   ],
   "note": "False of the code for three or more unknowns: the elimination multiplies rows elementwise. Proved for n <= 2, for upper triangular matrices of any size, and for every run in which the subtracted products contain the right ones; this covers columns constant below the diagonal and lower triangular matrices without exchanges, with a strictly dominant diagonal (returns and encloses), in particular the Shary and Neumaier test systems of any size."
  },
  {
   "property": "C38",
   "status": "proved",
   "theorems": [
    "IntvalPy.C38_gauss_seidel",
    "IntvalPy.C38_near_start",
    "IntvalPy.C38_no_pass"
   ],
   "note": "All n, all passes, any outward rounding of the interval operations."
  },
  {
   "property": "C39",
   "status": "proved",
   "theorems": [
    "IntvalPy.C39_krawczyk",
    "IntvalPy.C39_krawczyk_no_false_alarm",
    "IntvalPy.C39_nan"
   ],
   "note": "One-dimensional. Any rounding with midpoints inside (MidOK, shown for exact arithmetic and binary64 rounding without overflow)."
  },
  {
   "property": "C40",
   "status": "partial",
   "theorems": [
    "IntvalPy.C40_hansen_sengupta_partial",
    "IntvalPy.C40_vector_raises",
    "IntvalPy.C40_vector_false",
    "IntvalPy.C40_zero_slope",
    "IntvalPy.C40_vector_codes"
   ],
   "note": "Scalar form proved. The vector forms always raise AttributeError (no method to_float), so the property is false."
  },
  {
   "property": "C41",
   "status": "proved",
   "theorems": [
    "IntvalPy.C41_globopt"
   ],
   "note": "Any rounding with midpoints inside, any n, tolerance and iteration limit."
  },
  {
   "property": "C42",
   "status": "proved",
   "theorems": [
    "IntvalPy.C42_rohn_uni",
    "IntvalPy.C42_maxiter_stop",
    "IntvalPy.C42_loop_stops",
    "IntvalPy.C42_ordinary"
   ],
   "note": "Point arithmetic exact; also: a stop by maxiter is not safe (witness), and when the tolerance stop is reached. Not true of double arithmetic, see C160."
  },
  {
   "property": "C43",
   "status": "partial",
   "theorems": [
    "IntvalPy.C43_rohn_tol",
    "IntvalPy.C43_rohn_tol_empty",
    "IntvalPy.C43_rohn_tol_returns",
    "IntvalPy.C43_objects_partial",
    "IntvalPy.C43_objects_false"
   ],
   "note": "Assumes an exact LP solver (LpOK, LpComplete), both shown satisfiable. False of the code for matrices mixing integer and float endpoints, e.g. Shary_system (the linear program is built from the views, C63); proved when the views are right."
  },
  {
   "property": "C44",
   "status": "partial",
   "theorems": [
    "IntvalPy.C44_hbr_partial",
    "IntvalPy.C44_strongly_regular",
    "IntvalPy.C44_hbr_two_partial",
    "IntvalPy.C44_hbr_three_partial",
    "IntvalPy.C44_hbr_point",
    "IntvalPy.C44_hbr_returns",
    "IntvalPy.C44_hbr_false",
    "IntvalPy.C44_inexact_inverse_false",
    "IntvalPy.C44_scalar_correction_false"
   ],
   "note": "Exact inverses. False of the code: the H-matrix test uses any instead of all; also not rigorous with approximate inverses (two witnesses with residual 1e-15: one for dlow, one for v @ w being a single number instead of a matrix). Proved for inverse nonnegative comparison matrices, any n and rounding; no such matrix is rejected. Proved without condition for n <= 3 (false for n = 4). Exact for point matrices. For every strongly regular matrix (some preconditioner makes all its matrices diagonally dominant with the same weights) a box is returned and encloses."
  },
  {
   "property": "C45",
   "status": "partial",
   "theorems": [
    "IntvalPy.C45_neumaier_false",
    "IntvalPy.C45_neumaier_weights_false",
    "IntvalPy.C45_neumaier_partial",
    "IntvalPy.C45_neumaier_cube_partial",
    "IntvalPy.C45_mean_partial",
    "IntvalPy.C45_point_iff_partial",
    "IntvalPy.C45_full_iff_partial",
    "IntvalPy.C45_weights_zero_partial"
   ],
   "note": "False of the code: radii per row used per component, and with weights. Proved: the cube with the smallest half-width, hence every cube, is inside; a sufficient condition for boxes of different widths, which is also necessary for point matrices (then, without zero entries, only cubes are right); weights with centre zero."
  },
  {
   "property": "C46",
   "status": "partial",
   "theorems": [
    "IntvalPy.C46_cheb_false",
    "IntvalPy.C46_cheb_partial",
    "IntvalPy.C46_exact_iff",
    "IntvalPy.C46_deficit"
   ],
   "note": "False: sign error in the comparison of the two candidate rows. Proved: never above the true value, and equal to it exactly when some row attaining the worst residual is treated rightly by the test; otherwise too small by at most twice the weighted radius of a row product."
  },
  {
   "property": "C47",
   "status": "partial",
   "theorems": [
    "IntvalPy.C47_block_false",
    "IntvalPy.C47_block_partial",
    "IntvalPy.C47_block_proper",
    "IntvalPy.C47_residual",
    "IntvalPy.C47_zero_residual",
    "IntvalPy.C47_same_branch",
    "IntvalPy.C47_point_matrix",
    "IntvalPy.C47_not_square"
   ],
   "note": "False of the code in one of the sixteen cases: two improper intervals around zero, where a sign is wrong. The set of failing pairs is characterised exactly; proper entries are all right. Zero residual iff formal solution, stop with zero residual, finite convergence and point matrices are proved with an exact solver (SolveOK, shown satisfiable)."
  },
  {
   "property": "C48",
   "status": "partial",
   "theorems": [
    "IntvalPy.C48_plane",
    "IntvalPy.C48_plane_cover",
    "IntvalPy.C48_space_false",
    "IntvalPy.C48_space_partial",
    "IntvalPy.C48_consistency",
    "IntvalPy.C48_objects_partial",
    "IntvalPy.C48_objects_false"
   ],
   "note": "Plane proved for endpoints of one kind; false for matrices mixing integer and float endpoints (views, C63). False in space: right-hand sides are shifted by 1e-15 before the orthant systems are solved; in space the result is an inner description, proved."
  },
  {
   "property": "C49",
   "status": "partial",
   "theorems": [
    "IntvalPy.C49_clear_partial",
    "IntvalPy.C49_clear_false",
    "IntvalPy.C49_rounding",
    "IntvalPy.C49_repeat_partial",
    "IntvalPy.C49_repeat_false",
    "IntvalPy.C49_unique",
    "IntvalPy.C49_lineqs_false",
    "IntvalPy.C49_ties"
   ],
   "note": "False of the code: rows with coefficients up to 1e-12 are dropped, rows with equal a-b are taken for repetitions, and lineqs ignores the inconsistency flag. Proved for rows with at most twelve decimals."
  },
  {
   "property": "C50",
   "status": "partial",
   "theorems": [
    "IntvalPy.C50_edges",
    "IntvalPy.C50_endpoints",
    "IntvalPy.C50_inconsistent",
    "IntvalPy.C50_total",
    "IntvalPy.C50_empty_iff",
    "IntvalPy.C50_vertices",
    "IntvalPy.C50_lineqs_false"
   ],
   "note": "BoundaryIntervals proved (edges, endpoints, emptiness) for nonzero rows; lineqs vertices solve the system for rows with at most twelve decimals. lineqs answers empty for a system of zero rows that every point solves (false)."
  },
  {
   "property": "C51",
   "status": "partial",
   "theorems": [
    "IntvalPy.C51_history_false",
    "IntvalPy.C51_history_partial"
   ],
   "note": "False: a module-level list left by lineqs overrides the window. Proved for histories of clean calls."
  },
  {
   "property": "C52",
   "status": "partial",
   "theorems": [
    "IntvalPy.C52_pss_partial",
    "IntvalPy.C52_algo_le",
    "IntvalPy.C52_two_unknowns",
    "IntvalPy.C52_x0_false",
    "IntvalPy.C52_prune",
    "IntvalPy.C52_overdetermined_partial",
    "IntvalPy.C52_overdetermined_false",
    "IntvalPy.C52_objects_partial",
    "IntvalPy.C52_start_objects_partial",
    "IntvalPy.C52_objects_false",
    "IntvalPy.C52_wide_box",
    "IntvalPy.C52_start_fails",
    "IntvalPy.C52_rounding_false"
   ],
   "note": "False of the code: a correct x0 is used unchanged for the negated system and gives wrong upper bounds; with more rows than columns the search starts in +-1e14 when Rohn raises, and these numbers are returned as bounds of unbounded sets; with a start box of integer endpoints and three unknowns the views Q.a, Q.b are truncated and the lower bound is too large. In binary64 the point quotients of kdiv, rounded to nearest, exclude solutions even with right start boxes for both systems and exact linear programs (C52_rounding_false). Proved for every iteration count and tolerance, any sizes, when the start boxes are right for both systems, the LP solver is exact (LpOK, LpComplete, shown satisfiable) and point quotients are exact; unconditional in the start for two unknowns on which Gauss succeeds."
  },
  {
   "property": "C53",
   "status": "partial",
   "theorems": [
    "IntvalPy.C53_kdiv_partial",
    "IntvalPy.C53_rounded_ends",
    "IntvalPy.C53_slack",
    "IntvalPy.C53_zero_false",
    "IntvalPy.C53_rounding_false"
   ],
   "note": "False of the code: a divisor [0,0] raises ZeroDivisionError and the point quotients are rounded to nearest. Proved with exact quotients for every other divisor containing zero, and for every rounding: the same intervals with their finite ends rounded to nearest."
  },
  {
   "property": "C54",
   "status": "proved",
   "theorems": [
    "IntvalPy.C54_column",
    "IntvalPy.C54_value",
    "IntvalPy.C54_predict"
   ],
   "note": "Real arithmetic for the polynomials; the root finder of numpy is a parameter assumed to list every stationary point (extra points do no harm). Improper inputs raise ValueError. Prediction: any rounding of the product."
  },
  {
   "property": "C55",
   "status": "partial",
   "theorems": [
    "IntvalPy.C55_weights_false",
    "IntvalPy.C55_default_partial",
    "IntvalPy.C55_unchanged_iff",
    "IntvalPy.C55_default_ones"
   ],
   "note": "False of the code: smoothing is done in the array of the caller. Proved for alpha = 0, beta = 1, and shown that for positive first weight and two rows nothing else leaves the weights alone."
  },
  {
   "property": "C56",
   "status": "partial",
   "theorems": [
    "IntvalPy.C56_systems_false",
    "IntvalPy.C56_systems_partial"
   ],
   "note": "Entries and rejections proved; false for alpha = 0, which the documentation excludes and the code accepts."
  },
  {
   "property": "C57",
   "status": "proved",
   "theorems": [
    "IntvalPy.C57_zeros_full_eye",
    "IntvalPy.C57_diag_extract",
    "IntvalPy.C57_diag_construct",
    "IntvalPy.C57_compmat"
   ],
   "note": ""
  },
  {
   "property": "C58",
   "status": "proved",
   "theorems": [
    "IntvalPy.C58_sign"
   ],
   "note": ""
  },
  {
   "property": "C59",
   "status": "partial",
   "theorems": [
    "IntvalPy.C59_subset_partial",
    "IntvalPy.C59_supercontain_false",
    "IntvalPy.C59_objects_partial",
    "IntvalPy.C59_objects_false"
   ],
   "note": "supercontain is a scalar, not componentwise; the helpers read the views (C63), so that mixed integer and float endpoints give wrong answers; the rest proved."
  },
  {
   "property": "C60",
   "status": "partial",
   "theorems": [
    "IntvalPy.C60_false",
    "IntvalPy.C60_unbound",
    "IntvalPy.C60_point_never",
    "IntvalPy.C60_search_partial",
    "IntvalPy.C60_partial"
   ],
   "note": "False of the code: a point matrix always ends in UnboundLocalError (proved for all of them), and so does a negative limit. Proved for other matrices: every exception is the assertion on the determinant or comes from HBR, Gauss or the solver on a subsystem."
  },
  {
   "property": "C61",
   "status": "partial",
   "theorems": [
    "IntvalPy.C61_unbounded_mul_false",
    "IntvalPy.C61_unbounded_partial",
    "IntvalPy.C61_product_iff",
    "IntvalPy.C61_number_iff"
   ],
   "note": "False for products: [-inf,1]*[0,1] is [nan,nan]; proved for sums and differences. Products enclose exactly when the two lower ends are not 0 and -inf (`C61_product_iff`; with a number `C61_number_iff`)."
  },
  {
   "property": "C62",
   "status": "partial",
   "theorems": [
    "IntvalPy.C62_kaucher_mul_encloses_false",
    "IntvalPy.C62_kaucher_mul_encloses_partial",
    "IntvalPy.C62_error",
    "IntvalPy.C62_b64_slack"
   ],
   "note": "False in IEEE double rounding for operands of opposite signs; proved for operands of the same sign and any rounding. For all signs and also improper operands the ends lie inside by at most 2^-52 |X| |Y| + 2^-1074."
  },
  {
   "property": "C63",
   "status": "partial",
   "theorems": [
    "IntvalPy.C63_views_false",
    "IntvalPy.C63_shary_views",
    "IntvalPy.C63_int_first",
    "IntvalPy.C63_int_first_ints",
    "IntvalPy.C63_views_partial",
    "IntvalPy.C63_view_iff",
    "IntvalPy.C63_views_iff"
   ],
   "note": "False of the code: np.vectorize casts to the type of the first element (Shary_system witness). Proved for float-first and all-integer arrays; exact condition for endpoints up to 2^53."
  },
  {
   "property": "C64",
   "status": "partial",
   "theorems": [
    "IntvalPy.C64_numpy_function_false",
    "IntvalPy.C64_numpy_function_partial",
    "IntvalPy.C64_operator"
   ],
   "note": "False of the code: the second operand is ignored. Proved for equal operands and a number first."
  },
  {
   "property": "C65",
   "status": "partial",
   "theorems": [
    "IntvalPy.C65_delete_false",
    "IntvalPy.C65_delete_partial",
    "IntvalPy.C65_when"
   ],
   "note": "False for slices and longer lists; integers and one-element lists proved; no other key works (exact table of exceptions)."
  },
  {
   "property": "C66",
   "status": "partial",
   "theorems": [
    "IntvalPy.C66_shape_false",
    "IntvalPy.C66_shape_partial",
    "IntvalPy.C66_data_shape",
    "IntvalPy.C66_stale_iff"
   ],
   "note": "False for operands that enlarge the array; proved otherwise, the attribute is wrong exactly when the data changed their shape."
  },
  {
   "property": "C67",
   "status": "partial",
   "theorems": [
    "IntvalPy.C67_uni_right_or_greatest",
    "IntvalPy.C67_tol_gradient",
    "IntvalPy.C67_uni_false",
    "IntvalPy.C67_uss_false",
    "IntvalPy.C67_uni_gradient_partial",
    "IntvalPy.C67_uss_gradient_partial"
   ],
   "note": "Proved for Tol. False for Uni where the two sides of the chosen row meet and for Uss at kinks; proved for both elsewhere; where the vector of Uni is wrong, Uni already has its greatest value."
  },
  {
   "property": "C68",
   "status": "partial",
   "theorems": [
    "IntvalPy.C68_mu_false",
    "IntvalPy.C68_two_sided_infinite",
    "IntvalPy.C68_mu_partial",
    "IntvalPy.C68_exact"
   ],
   "note": "False: every constraint bounded on both sides gets an infinite factor and a nan penalty at feasible points. Proved for sign-constant columns. The outcome is determined in every case: infinite exactly when a group of nonzero coefficients of one variable sums to zero, ValueError exactly for a zero matrix."
  },
  {
   "property": "C69",
   "status": "partial",
   "theorems": [
    "IntvalPy.C69_cheb_gradient_false",
    "IntvalPy.C69_cheb_gradient_partial",
    "IntvalPy.C69_direction"
   ],
   "note": "False: the weight is missing from the gradient. Proved for point matrices and unit weights; for any positive weights the gradient is a positive multiple of a subgradient."
  },
  {
   "property": "C70",
   "status": "proved",
   "theorems": [
    "IntvalPy.C70_khi"
   ],
   "note": ""
  },
  {
   "property": "C71",
   "status": "partial",
   "theorems": [
    "IntvalPy.C71_real_power_encloses_partial",
    "IntvalPy.C71_negative_power_false",
    "IntvalPy.C71_zero_base"
   ],
   "note": "False for negative exponents when X touches zero: [0,1]**-1 is bounded by DBL_MAX. Proved for positive exponents, and for negative ones away from zero, unless the overflow answer [inf, inf] is returned. For every base [0, t] a negative exponent loses a power and the exponent 0.0 gives NaN ends."
  },
  {
   "property": "C72",
   "status": "partial",
   "theorems": [
    "IntvalPy.C72_array_division_false",
    "IntvalPy.C72_array_division_partial",
    "IntvalPy.C72_zero_inside"
   ],
   "note": "False of the code: no zero test, [1,1]/[-1,2] returns [-1,1/2]. Proved for divisors without zero; a divisor with zero inside never gives an enclosure."
  },
  {
   "property": "C73",
   "status": "partial",
   "theorems": [
    "IntvalPy.C73_window_false",
    "IntvalPy.C73_cone_false",
    "IntvalPy.C73_window_partial"
   ],
   "note": "False: the window can be a single point or miss the set (IndexError). Proved: the window keeps every foot of a perpendicular, so the drawing does not fail when one of them is a solution."
  },
  {
   "property": "C74",
   "status": "partial",
   "theorems": [
    "IntvalPy.C74_empty_list_false",
    "IntvalPy.C74_no_pass_partial",
    "IntvalPy.C74_one_unknown",
    "IntvalPy.C74_orthant_algo",
    "IntvalPy.C74_orthant_partial",
    "IntvalPy.C74_orthant_spread_partial"
   ],
   "note": "False: the working list runs empty for the identity matrix (IndexError), and one unknown always raises. Proved when no pass is needed; on correct start boxes without zeros returning is characterised exactly (algo raises IndexError iff every solution has the upper start bound as its component), so PSS returns there whenever no component is the same for all solutions."
  },
  {
   "property": "C75",
   "status": "proved",
   "theorems": [
    "IntvalPy.C75_objective",
    "IntvalPy.C75_fit"
   ],
   "note": "Exact arithmetic; norm and normalisation inside ralgb5 are opaque, weight arrays as long as the rows."
  },
  {
   "property": "C76",
   "status": "partial",
   "theorems": [
    "IntvalPy.C76_tol_subgradient",
    "IntvalPy.C76_objects_partial",
    "IntvalPy.C76_objects_false"
   ],
   "note": "Exact arithmetic, all sizes, both norms; weights may be zero. False of the code for training matrices mixing integer and float endpoints (views, C63); proved when the views are right."
  },
  {
   "property": "C77",
   "status": "partial",
   "theorems": [
    "IntvalPy.C77_integer_weights_false",
    "IntvalPy.C77_integer_weights_partial",
    "IntvalPy.C77_positive"
   ],
   "note": "False of the code: results are stored in the integer array, so alpha = 1/2 turns weights 1 into 0. Proved for alpha = 0 and integer beta; positivity of smoothed float weights proved."
  },
  {
   "property": "C78",
   "status": "partial",
   "theorems": [
    "IntvalPy.C78_gradient_false",
    "IntvalPy.C78_gradient_partial",
    "IntvalPy.C78_linear",
    "IntvalPy.C78_linear_real"
   ],
   "note": "False of the code for order 2: the gradient is that of the natural extension, not of the range. Proved where one point attains all the ends used, in particular for order 1."
  },
  {
   "property": "C79",
   "status": "partial",
   "theorems": [
    "IntvalPy.C79_false",
    "IntvalPy.C79_partial",
    "IntvalPy.C79_bounds_partial",
    "IntvalPy.C79_lower_partial",
    "IntvalPy.C79_vertex"
   ],
   "note": "False of the code: a zero derivative spoils the tags (diagonal 2x2 witness). Proved for n <= 2, any rounding, where the extreme values are attained with nonzero derivatives; for any n if HBR and the interval inverse enclose on subsystems. Point operations exact."
  },
  {
   "property": "C80",
   "status": "partial",
   "theorems": [
    "IntvalPy.C80_attained",
    "IntvalPy.C80_sharp",
    "IntvalPy.C80_partial",
    "IntvalPy.C80_false",
    "IntvalPy.C80_split_place",
    "IntvalPy.C80_empty"
   ],
   "note": "Exact arithmetic. Sharpness up to tol proved for all n; the enclosure half for n <= 2 with nonzero derivatives; false with zero derivatives."
  },
  {
   "property": "C81",
   "status": "partial",
   "theorems": [
    "IntvalPy.C81_all_vertices_false",
    "IntvalPy.C81_all_vertices_partial",
    "IntvalPy.C81_window_partial",
    "IntvalPy.C81_window_miss"
   ],
   "note": "False of the code: points closer than 1e-8 are merged (1 x 1e-9 rectangle loses two vertices). Proved in exact arithmetic for every nonempty bounded set with vertices further apart and rows unchanged by the preprocessing, degenerate sets included; for unbounded sets with a window that meets the set."
  },
  {
   "property": "C82",
   "status": "partial",
   "theorems": [
    "IntvalPy.C82_false",
    "IntvalPy.C82_bounded_partial",
    "IntvalPy.C82_window_partial",
    "IntvalPy.C82_auto_partial"
   ],
   "note": "False of the code for the same reason as C81, and for mixed integer and float endpoints (C48_objects_false). Proved in exact arithmetic for endpoints with at most twelve decimals, no row of coefficients touching zero, separated vertices: bounded sets, given windows, and the automatic window whenever the first pass returns."
  },
  {
   "property": "C83",
   "status": "partial",
   "theorems": [
    "IntvalPy.C83_false",
    "IntvalPy.C83_faces_partial",
    "IntvalPy.C83_vertices_partial",
    "IntvalPy.C83_near_partial"
   ],
   "note": "False of the code: small coefficients in the variables of the faces are set to zero (box with rows of order 1e-4), rows with equal differences a - b are dropped. Proved in exact arithmetic for rows unchanged by the preprocessing in space and in every face and vertices more than 1e-8 apart in the variables of the face; with eps and within 1e-8 for the near version."
  },
  {
   "property": "C84",
   "status": "partial",
   "theorems": [
    "IntvalPy.C84_false",
    "IntvalPy.C84_window_partial",
    "IntvalPy.C84_auto_partial",
    "IntvalPy.C84_plane_raises"
   ],
   "note": "False of the code: slabs and half-spaces raise IndexError, and the automatic window may miss the set. Proved under the conditions of C83: the given window always; the automatic one shows exactly the part in its cube; the IndexError occurs for every set that contains a boundary plane."
  },
  {
   "property": "C85",
   "status": "partial",
   "theorems": [
    "IntvalPy.C85_false",
    "IntvalPy.C85_bounded_partial",
    "IntvalPy.C85_cleared"
   ],
   "note": "False of the code: a preceding lineqs3D changes the window of an unbounded set. Proved for sets bounded in every orthant under the conditions of C86; that the history is cleared is proved for all calls that return."
  },
  {
   "property": "C86",
   "status": "partial",
   "theorems": [
    "IntvalPy.C86_false",
    "IntvalPy.C86_bounded_partial",
    "IntvalPy.C86_orthants"
   ],
   "note": "False of the code for mixed integer and float endpoints (C48_objects_false), and because the row x >= 0 of the orthant is dropped when another row has the same differences a - b. Proved in exact arithmetic for right-hand sides with at most twelve decimals and, in every orthant, the conditions of C83."
  },
  {
   "property": "C87",
   "status": "partial",
   "theorems": [
    "IntvalPy.C87_outward",
    "IntvalPy.C87_outward_false",
    "IntvalPy.C87_false",
    "IntvalPy.C87_power_partial"
   ],
   "note": "False of the code exactly for even exponents and negative intervals: [-1, -2] ** 2 is the proper interval [1, 4]. Proved without rounding for all other improper intervals and exponents. With rounding the result contains the exact one in the sense of Kaucher inclusion, except for even powers of intervals around zero whose negative end decides (exact condition, binary64 witness)."
  },
  {
   "property": "C88",
   "status": "partial",
   "theorems": [
    "IntvalPy.C88_false",
    "IntvalPy.C88_ive_partial",
    "IntvalPy.C88_upper_bound",
    "IntvalPy.C88_more_passes",
    "IntvalPy.C88_not_finite",
    "IntvalPy.C88_views_right",
    "IntvalPy.C88_zero_rhs",
    "IntvalPy.C88_no_draw"
   ],
   "note": "False of the code: the draws use the endpoint views, which are truncated when the first endpoint is an integer (C63), so that the matrix need not lie in A. Proved for right views; cond and sqrt are parameters, the optimiser is the model of ralgb5 in exact arithmetic."
  },
  {
   "property": "C89",
   "status": "partial",
   "theorems": [
    "IntvalPy.C89_false",
    "IntvalPy.C89_dist_partial",
    "IntvalPy.C89_raises"
   ],
   "note": "False of the code: negative orders give distance 0 to different vectors that share a component. Proved over the reals for all positive integer orders; the exceptions for the other orders."
  },
  {
   "property": "C90",
   "status": "proved",
   "theorems": [
    "IntvalPy.C90_sums_products",
    "IntvalPy.C90_quotients",
    "IntvalPy.C90_kaucher_positive",
    "IntvalPy.C90_mode_free",
    "IntvalPy.C90_refine_intersect",
    "IntvalPy.C90_refine_compare"
   ],
   "note": "Refinement of the ordered-field model by the binary64 model, on the stated range of magnitudes. Signed zeros are not modelled."
  },
  {
   "property": "C91",
   "status": "partial",
   "theorems": [
    "IntvalPy.C91_mixed_false",
    "IntvalPy.C91_mixed_partial",
    "IntvalPy.C91_raises",
    "IntvalPy.C91_division_by_array",
    "IntvalPy.C91_division_by_scalar"
   ],
   "note": "False of the code: an array divided by an interval with zero inside gives bounded quotients, and an interval divided by a numpy array with a zero raises nothing; number divisors are inverted to nearest (C04). Proved for one-dimensional arrays in all other cases, with the exact conditions for exceptions."
  },
  {
   "property": "C92",
   "status": "partial",
   "theorems": [
    "IntvalPy.C92_kind_false",
    "IntvalPy.C92_kind_partial",
    "IntvalPy.C92_array_power"
   ],
   "note": "False of the code: an interval combined with a numpy array gives a plain numpy array of objects. The kind of the result is determined for all combinations."
  },
  {
   "property": "C93",
   "status": "partial",
   "theorems": [
    "IntvalPy.C93_htest_false",
    "IntvalPy.C93_htest_partial",
    "IntvalPy.C93_rejects_iff",
    "IntvalPy.C93_negative_diagonal"
   ],
   "note": "False of the code both ways: one positive row is enough (any for all, and A @ v instead of the comparison matrix), and H-matrices with negative diagonal are rejected. Proved: the exact condition of the test, and that H-matrices with positive diagonal pass, in exact arithmetic."
  },
  {
   "property": "C94",
   "status": "partial",
   "theorems": [
    "IntvalPy.C94_midpoint_false",
    "IntvalPy.C94_midpoint_partial",
    "IntvalPy.C94_nearest_iff",
    "IntvalPy.C94_infinite",
    "IntvalPy.C94_midpoint_int"
   ],
   "note": "False of the code: the sum of large endpoints overflows and the midpoint is infinite; integer endpoints beyond 2^53 give a midpoint below the interval. Proved for binary64 endpoints up to half the largest double, in every rounding mode; in the default mode for all finite doubles exactly when the sum of the endpoints does not overflow. Infinite endpoints described."
  },
  {
   "property": "C95",
   "status": "partial",
   "theorems": [
    "IntvalPy.C95_ball_false",
    "IntvalPy.C95_ball_partial",
    "IntvalPy.C95_width"
   ],
   "note": "False of the code by the rounding of mid and rad. Proved up to the slack 2^-51 (|a| + |b|) + 2^-1073; width and radius are the exact ones rounded once."
  },
  {
   "property": "C96",
   "status": "partial",
   "theorems": [
    "IntvalPy.C96_helpers_false",
    "IntvalPy.C96_helpers_partial",
    "IntvalPy.C96_floats",
    "IntvalPy.C96_ends",
    "IntvalPy.C96_iff"
   ],
   "note": "False of the code: np.vectorize casts to the type of the first value, so that khi([3, X]) and wid of an array starting with integer endpoints are truncated. Proved for mid, rad, mag, for khi on intervals and when the first value is a float; the exact condition on the values is proved for every first value."
  },
  {
   "property": "C97",
   "status": "partial",
   "theorems": [
    "IntvalPy.C97_numbers_false",
    "IntvalPy.C97_numbers_partial",
    "IntvalPy.C97_isnan"
   ],
   "note": "False of the code: wid(c) is c, and khi(0) is 1 where the interval raises. Proved for the other helpers; isnan described."
  },
  {
   "property": "C98",
   "status": "partial",
   "theorems": [
    "IntvalPy.C98_shape_false",
    "IntvalPy.C98_shape_partial",
    "IntvalPy.C98_first_path",
    "IntvalPy.C98_rows",
    "IntvalPy.C98_interval_array"
   ],
   "note": "False of the code: only the first items are descended into, an inner ndarray drops the outer axes, intervals raise TypeError. Proved for nested lists of numbers without empty lists; what is returned for ragged ones is described."
  },
  {
   "property": "C99",
   "status": "proved",
   "theorems": [
    "IntvalPy.C99_asinterval"
   ],
   "note": "np.asarray on nested lists is modelled (shape and row-major elements); objects other than numbers, intervals, lists and arrays are not."
  }
 ]
}