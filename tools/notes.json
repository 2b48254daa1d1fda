{
 "C23": {
  "note": "The full statement (q.to(unit, dtype) keeps the unit) is false of the code: refuted by the other C23 theorems; the partial theorem covers the calls for which it holds."
 },
 "C35": {
  "note": "False of elliprj when p equals x, y or z (NaN, refuted with a witness); the partial theorem proves all other arguments. elliprc/rf/rd/rg are proved in full."
 },
 "C39": {
  "note": "False of w0wzCDM (sign of the exponent): the partial theorem gives exactly when E(0)=1."
 },
 "C40": {
  "note": "Proved for all families but w0wz, for which the statement is false; the partial theorem says which equation of state the code's density does obey."
 },
 "C44": {
  "note": "First half false of the code (default age ignores z): the partial theorem gives exactly when it holds."
 },
 "C61": {
  "note": "The returned value is not the inverse to machine precision (refuted); the partial theorem proves the one-sided bound of the iteration."
 },
 "C65": {
  "note": "False of the code (dict.__ne__); the partial theorem says when != is the negation of ==."
 },
 "C66": {
  "note": "False of the code when the name exists and is ignored; partial: all other calls."
 },
 "C68": {
  "note": "False of the code for in-place operations; partial: the operations for which it holds."
 },
 "C71": {
  "note": "False of the code for atol != 0; partial: atol = 0."
 },
 "C75": {
  "note": "False of the code (Omega omits O0); partial: the weighted sum actually returned."
 },
 "C80": {
  "note": "False when p equals x, y or z (see C35); partial: all other p."
 },
 "C87": {
  "note": "K, E, D complete and incomplete in full; Pi excludes the characteristics at which elliprj divides by zero (the code returns NaN there)."
 },
 "C95": {
  "note": "Refuted in general (depends on which root comes last); partial: sufficient conditions on the last root."
 },
 "C96": {
  "note": "Refuted in general (depends on which root comes last); partial: sufficient conditions on the last root."
 },
 "C106": {
  "note": "Comoving distance in full; lookback time refuted in general; partial: sufficient conditions on the first root."
 },
 "C107": {
  "note": "Refuted (results cached by tensor identity); partial: histories without in-place modification."
 },
 "C110": {
  "note": "Gradient of gammainc in a refuted near x=0. Partial: partial derivatives where Tgamma(3) is exact; the error is exactly x |Tgamma(3) - T(3)| / Gamma(a) (C110_grad_error), hence at most proportional to the step for fixed a, x with exact gamma functions and series (C110_gammainc_grad_rate_partial). Missing: explicit constants at the code's step 2^-15."
 },
 "C111": {
  "note": "m=1, 2: error bounds where the series has converged; m=3: limit as the step tends to 0, with an error at most proportional to the step. Missing: explicit constants for m=3, and anything about m>3 other than that it is perturbed."
 },
 "C112": {
  "note": "Partial: real arguments, exact Tgamma; the complex and m=1 cases are refuted."
 },
 "C114": {
  "note": "Refuted for the default alignment and for some shapes; partial: align_corners=True inside the extents, cell centres by default, shapes up to two dimensions."
 },
 "C115": {
  "note": "Everything but eval_hunit in full; eval_hunit is right for H0 a bare unit, refuted for H0 a quantity."
 },
 "C116": {
  "note": "Uniform accuracy refuted in single and double precision; partial: the error bound above the threshold, which degrades like 2^-p/y^2. Every operation is modelled as correctly rounded."
 },
 "C117": {
  "note": "Refuted at zero curvature and zero distance; partial: correct gradients for non-zero curvature (volume: above the threshold)."
 },
 "C118": {
  "note": "Refuted near double roots (C118_double_root); partial: both roots accurate when c < 0, and Vieta's relations (backward accuracy) always."
 },
 "C120": {
  "note": "Refuted (C120_false, C120_float_lost, C120_int_lost); partial: floating point tensors are used exactly, everything if the default dtype is double. Format of the computation characterised in full (C120_format)."
 },
 "C121": {
  "note": "Refuted in three details (C121_not_injective, C121_mantissa_ten, C121_prec_ignored); partial: the text stands for the unit to 6.2e-16 (C121_denotes_partial)."
 },
 "C122": {
  "note": "Refuted for dimensionless units (C122_dimensionless); all others convert (C122_converts_partial)."
 },
 "C123": {
  "note": "Refuted for denominators beyond 10^6 (C123_false) and for right-to-left reading of powers (C123_tower); partial: left-to-right reading of every expression with smaller denominators."
 },
 "C124": {
  "note": "Refuted (C124_false, C124_csinc_python, C124_where_attribute); partial: agreement exactly on the real domains (C124_agree_partial, C124_agree_iff), full for complex tensors (C124_complex)."
 },
 "C125": {
  "note": "Refuted (C125_false: sys.modules[n] is overwritten; C125_dummy_not_importable); partial: nothing else changes (C125_others_partial). Identity and availability proved in full."
 },
 "C136": {
  "note": "Refuted as documented (C136_batch_raises, C136_batch_pairs). What the code computes is proved for all shapes (C136_splineNd, C136_raises); the documented behaviour only for values without batch dimensions or with a dimension of size one inserted (C136_documented_partial)."
 },
 "C147": {
  "note": "Refuted for the class itself (C147_raises). C147_merge_partial: a subclass providing `values`; unbatched, elementwise op, exact arithmetic, NaN where the grids share an end."
 },
 "C149": {
  "note": "The constant is not given in the statement; it is explicit in codeAbsorption3_le."
 },
 "C151": {
  "note": "False without dark energy (C151_no_dark_energy): p equals an argument of elliprj. C151_lookback_partial: with dark energy (E2(-1) != 0), or at redshift 0."
 },
 "C152": {
  "note": "First and second kind and D: all complex m off the cut. Third kind (complete and incomplete): Re m and Re n < 1/sin^2(phi), n != 1, m."
 },
 "C154": {
  "note": "The claim as stated is false of the code (C154_exact_fails, C154_inverse_fails, C154_to_inverse_fails; C154_div_int_iff says exactly when). Proved: exactness and all laws of the exact model for Fractions; the number of roundings in general; commutativity, u.to(u) == 1 and correctly rounded conversion factors for all types."
 },
 "C155": {
  "note": "The claim is false of the code (C155_most_specific_fails, C155_abstract_fails). Proved: the exact rule over all histories of class definitions, most-special dispatch if backends are introduced from the general to the special, inertness of plain subclasses, and how the backend is read from the class."
 },
 "C156": {
  "note": "The claim as stated is false of the code (C156_last_fails, C156_monotone_fails, both in double precision and for every way of breaking ties). Proved: exactness at all knots but the last, monotonicity within an interval, a rounding error bound in one dimension; exactness at all grid points, a non-zero divisor, boundedness and a rounding error bound (C156_nd_error_partial) in N dimensions."
 },
 "C157": {
  "note": "The claim as stated is false of the code (C157_symmetry_fails, C157_roundtrip_fails, C157_add_fails: double precision, every platform, every rule for ties). Proved: when errors are raised (C157_to_raises, C157_compare_raises, C157_add_raises), bounds in numbers of roundings for conversion, round trip, comparison and sum, monotonicity and preservation of signs and zeros (C157_order), trichotomy for a fixed order of the operands, exactness in equal units. Overflow and underflow are not modelled; tensors are already broadcast."
 },
 "C158": {
  "note": "The claim as stated is false of the code (C158_knots_fail: single precision, every rule for ties, with and without fused operations, exact coefficients correctly rounded; the same for the weights and for SplineNd in one dimension, in any order of summation, C158_weights_fail). Proved: backward error (C158_backward), a bound on the error (C158_error, C158_knots_partial), exactness for small integers (C158_exact, C158_origin). The algorithm of torch.linalg.solve is not modelled: its coefficients are an argument, of any accuracy."
 },
 "C159": {
  "note": "The claim as stated is false of the code (C159_inside_fails, double precision, every rule for ties). Proved for the coordinate drawn first, that of the last dimension: the table of cumulative probabilities (C159_table), no division by zero and the enclosure in a cell (C159_cell_partial), the lower bound (C159_lower), exactness at the tabulated probabilities (C159_quantile), monotonicity within a cell. The conditional distributions of the other coordinates are not treated in floating point; cumsum is assumed to run from the left."
 },
 "C160": {
  "note": "Proved for every rounding to nearest of 53 bits. C160_other, C160_raises: what is returned or raised by type and tolerance; C160_dims: never True across dimensions; C160_of_eq, C160_symm (the rounding must treat both signs alike; platOdd shows such a one exists); C160_close: the decision for relative differences further than 2^-50 from rel_tol; C160_zero, C160_zero_ne: both tolerances 0; C160_not_transitive: a concrete triple at the default tolerance. CPython's math.isclose is transcribed."
 },
 "C161": {
  "note": "The claim as stated is false of the code (C161_raises, C161_type_error, C161_reduce_add, C161_to, for arbitrary kernels and dimension specs; C161_mixed for a quantity with a ragged tensor). Proved of what remains: the constructor and value (C161_construct_partial), and that the same model lets ragged tensors and quantities on their own through (C161_ragged_only, C161_quantity_only). C161_where, C161_gradient: the two functions with code of their own."
 }
}