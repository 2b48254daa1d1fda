{
 "claims": [
  {
   "property": "C01",
   "status": "proved",
   "theorems": [
    "Verif.Units.C01_normal_form",
    "Verif.Units.C01_constructor_exponent"
   ],
   "note": ""
  },
  {
   "property": "C02",
   "status": "proved",
   "theorems": [
    "Verif.Units.C02_mul_exponents",
    "Verif.Units.C02_mul_comm",
    "Verif.Units.C02_mul_inv",
    "Verif.Units.C02_grid_closed",
    "Verif.Units.C02_mul_assoc",
    "Verif.Units.C02_div_mul_cancel",
    "Verif.Units.C02_one_mul",
    "Verif.Units.C02_real_scaling",
    "Verif.Units.C02_mul_assoc_fails"
   ],
   "note": ""
  },
  {
   "property": "C03",
   "status": "proved",
   "theorems": [
    "Verif.Units.C03_pow_small",
    "Verif.Units.C03_pow_int",
    "Verif.Units.C03_mul_pow",
    "Verif.Units.C03_pow_rat"
   ],
   "note": ""
  },
  {
   "property": "C04",
   "status": "proved",
   "theorems": [
    "Verif.Units.C04_to_typeError_iff",
    "Verif.Units.C04_to_ok",
    "Verif.Units.C04_to_compose"
   ],
   "note": ""
  },
  {
   "property": "C05",
   "status": "proved",
   "theorems": [
    "Verif.Units.C05_eq_iff",
    "Verif.Units.C05_order_irrelevant",
    "Verif.Units.C05_eq_equivalence",
    "Verif.Units.C05_eq_hash",
    "Verif.Units.C05_unit_ne_dimension"
   ],
   "note": ""
  },
  {
   "property": "C06",
   "status": "proved",
   "theorems": [
    "Verif.Names.C06_prefix_table",
    "Verif.Names.C06_prefixed_sound",
    "Verif.Names.C06_prefixed_complete",
    "Verif.Names.C06_kilogram"
   ],
   "note": ""
  },
  {
   "property": "C07",
   "status": "proved",
   "theorems": [
    "Verif.Names.C07_idempotent",
    "Verif.Names.C07_plain_string",
    "Verif.Names.C07_tuple"
   ],
   "note": ""
  },
  {
   "property": "C08",
   "status": "proved",
   "theorems": [
    "Verif.Scope.C08_namespace_after_end",
    "Verif.Scope.C08_finalizer_after_exit",
    "Verif.Scope.C08_all_names"
   ],
   "note": ""
  },
  {
   "property": "C09",
   "status": "proved",
   "theorems": [
    "Verif.Scope.C09_registered_value",
    "Verif.Scope.C09_first_last"
   ],
   "note": ""
  },
  {
   "property": "C10",
   "status": "proved",
   "theorems": [
    "Verif.Consts.C10_history_independent"
   ],
   "note": ""
  },
  {
   "property": "C11",
   "status": "proved",
   "theorems": [
    "Verif.Consts.C11_hbar",
    "Verif.Consts.C11_mu0",
    "Verif.Consts.C11_eps0",
    "Verif.Consts.C11_alpha",
    "Verif.Consts.C11_magnetons",
    "Verif.Consts.C11_rydberg_bohr",
    "Verif.Consts.C11_thomson",
    "Verif.Consts.C11_stefan_boltzmann",
    "Verif.Consts.C11_wien"
   ],
   "note": ""
  },
  {
   "property": "C12",
   "status": "proved",
   "theorems": [
    "Verif.Pytree.C12_flatten_unflatten",
    "Verif.Pytree.C12_unflatten_flatten",
    "Verif.Pytree.C12_flatten_injective"
   ],
   "note": ""
  },
  {
   "property": "C13",
   "status": "proved",
   "theorems": [
    "Verif.Pytree.C13_valueError_iff",
    "Verif.Pytree.C13_numLeaves"
   ],
   "note": ""
  },
  {
   "property": "C14",
   "status": "proved",
   "theorems": [
    "Verif.Pytree.C14_treeMap",
    "Verif.Pytree.C14_treeMap_spec",
    "Verif.Pytree.C14_treeMap_id",
    "Verif.Pytree.C14_treeMap_comp"
   ],
   "note": ""
  },
  {
   "property": "C15",
   "status": "proved",
   "theorems": [
    "Verif.Pytree.C15_broadcast_iff",
    "Verif.Pytree.C15_broadcast_length",
    "Verif.Pytree.C15_broadcast_none",
    "Verif.Pytree.C15_broadcast_self"
   ],
   "note": ""
  },
  {
   "property": "C16",
   "status": "proved",
   "theorems": [
    "Verif.Pytree.C16_namedtuple_typeError",
    "Verif.Pytree.C16_namedtuple_subclass"
   ],
   "note": ""
  },
  {
   "property": "C17",
   "status": "proved",
   "theorems": [
    "Verif.Quant.C17_add_unitError",
    "Verif.Quant.C17_add_fails",
    "Verif.Quant.C17_same_unitError",
    "Verif.Quant.C17_same_ok",
    "Verif.Quant.C17_cat_unitError"
   ],
   "note": ""
  },
  {
   "property": "C18",
   "status": "proved",
   "theorems": [
    "Verif.Quant.C18_add",
    "Verif.Quant.C18_sub",
    "Verif.Quant.C18_rsub"
   ],
   "note": ""
  },
  {
   "property": "C19",
   "status": "proved",
   "theorems": [
    "Verif.Quant.C19_unit_invariance",
    "Verif.Quant.C19_cat",
    "Verif.Quant.C19_mul",
    "Verif.Quant.C19_div",
    "Verif.Quant.C19_unary_pow",
    "Verif.Quant.C19_inverse",
    "Verif.Quant.C19_pow",
    "Verif.Quant.C19_pow_exponent",
    "Verif.Quant.C19_addcmul",
    "Verif.Quant.C19_addcdiv",
    "Verif.Quant.C19_addmm",
    "Verif.Quant.C19_multi"
   ],
   "note": ""
  },
  {
   "property": "C20",
   "status": "proved",
   "theorems": [
    "Verif.Quant.C20_compare",
    "Verif.Quant.C20_relations",
    "Verif.Quant.C20_homogeneous",
    "Verif.Quant.C20_extrema"
   ],
   "note": ""
  },
  {
   "property": "C21",
   "status": "proved",
   "theorems": [
    "Verif.Quant.C21_number",
    "Verif.Quant.C21_other",
    "Verif.Quant.C21_trans",
    "Verif.Quant.C21_trig",
    "Verif.Quant.C21_arctrig"
   ],
   "note": ""
  },
  {
   "property": "C22",
   "status": "proved",
   "theorems": [
    "Verif.Quant.C22_to",
    "Verif.Quant.C22_to_compose"
   ],
   "note": ""
  },
  {
   "property": "C23",
   "status": "partial",
   "theorems": [
    "Verif.Quant.C23_dtype_loses_unit",
    "Verif.Quant.C23_to_partial"
   ],
   "note": "The full statement (q.to(unit, dtype) keeps the unit) is false of the code: refuted by the other C23 theorems; the partial theorem covers the calls for which it holds."
  },
  {
   "property": "C24",
   "status": "proved",
   "theorems": [
    "Verif.Roots.C24_vieta",
    "Verif.Roots.C24_vieta_inverts",
    "Verif.Roots.C24_vieta_perm"
   ],
   "note": ""
  },
  {
   "property": "C25",
   "status": "proved",
   "theorems": [
    "Verif.Roots.C25_companion_det",
    "Verif.Roots.C25_eigenvalue_iff"
   ],
   "note": ""
  },
  {
   "property": "C26",
   "status": "proved",
   "theorems": [
    "Verif.Roots.C26_quadratic"
   ],
   "note": ""
  },
  {
   "property": "C27",
   "status": "proved",
   "theorems": [
    "Verif.Roots.C27_cubic",
    "Verif.Roots.C27_degenerate_wrong",
    "Verif.Roots.C27_real_regular"
   ],
   "note": ""
  },
  {
   "property": "C28",
   "status": "proved",
   "theorems": [
    "Verif.Roots.C28_quartic",
    "Verif.Roots.C28_real_regular"
   ],
   "note": ""
  },
  {
   "property": "C29",
   "status": "proved",
   "theorems": [
    "Verif.Roots.C29_sort4"
   ],
   "note": ""
  },
  {
   "property": "C30",
   "status": "proved",
   "theorems": [
    "Verif.Roots.C30_roots",
    "Verif.Roots.C30_force_irrelevant",
    "Verif.Roots.C30_errors",
    "Verif.Roots.C30_nonfinite"
   ],
   "note": ""
  },
  {
   "property": "C31",
   "status": "proved",
   "theorems": [
    "Verif.Roots.C31_root_paths",
    "Verif.Roots.C31_jacobian",
    "Verif.Roots.C31_implicit_derivative",
    "Verif.Roots.C31_first_order",
    "Verif.Roots.C31_vjp"
   ],
   "note": ""
  },
  {
   "property": "C32",
   "status": "proved",
   "theorems": [
    "Verif.Carlson.C32_elliprf",
    "Verif.Carlson.C32_elliprf_inf"
   ],
   "note": ""
  },
  {
   "property": "C33",
   "status": "proved",
   "theorems": [
    "Verif.Carlson.C33_homogeneous_rc",
    "Verif.Carlson.C33_homogeneous_rf",
    "Verif.Carlson.C33_symmetric_rf",
    "Verif.Carlson.C33_symmetric_rd",
    "Verif.Carlson.C33_homogeneous_rd",
    "Verif.Carlson.C33_homogeneous_rg",
    "Verif.Carlson.C33_symmetric_rj",
    "Verif.Carlson.C33_homogeneous_rj"
   ],
   "note": ""
  },
  {
   "property": "C34",
   "status": "proved",
   "theorems": [
    "Verif.Carlson.C34_reduced_rf",
    "Verif.Carlson.C34_reduced_rd",
    "Verif.Carlson.C34_reduced_rj",
    "Verif.Carlson.C34_reduced_rc",
    "Verif.Carlson.C34_poly_rf",
    "Verif.Carlson.C34_poly_rc",
    "Verif.Carlson.C34_poly_rj",
    "Verif.Carlson.C34_poly_rd"
   ],
   "note": ""
  },
  {
   "property": "C35",
   "status": "partial",
   "theorems": [
    "Verif.Carlson.C35_elliprc",
    "Verif.Carlson.C35_elliprf",
    "Verif.Carlson.C35_elliprd",
    "Verif.Carlson.C35_elliprg",
    "Verif.Carlson.C35_elliprj_partial",
    "Verif.Carlson.C35_elliprj_nan",
    "Verif.Ellred.C35_elliprc_complex",
    "Verif.Ellred.C35_elliprf_complex"
   ],
   "note": "False of elliprj when p equals x, y or z (NaN, refuted with a witness); the partial theorem proves all other arguments. elliprc/rf/rd/rg are proved in full."
  },
  {
   "property": "C36",
   "status": "proved",
   "theorems": [
    "Verif.Autograd.C36_symmetric",
    "Verif.Autograd.C36_derivative"
   ],
   "note": ""
  },
  {
   "property": "C37",
   "status": "proved",
   "theorems": [
    "Verif.Ellred.C37_reduction",
    "Verif.Ellred.C37_cubic",
    "Verif.Ellred.C37_quartic"
   ],
   "note": ""
  },
  {
   "property": "C38",
   "status": "proved",
   "theorems": [
    "Verif.Cosmo.C38_normalised"
   ],
   "note": ""
  },
  {
   "property": "C39",
   "status": "partial",
   "theorems": [
    "Verif.Cosmo.C39_w0wz_iff",
    "Verif.Cosmo.C39_false",
    "Verif.Cosmo.C39_normalised_partial"
   ],
   "note": "False of w0wzCDM (sign of the exponent): the partial theorem gives exactly when E(0)=1."
  },
  {
   "property": "C40",
   "status": "partial",
   "theorems": [
    "Verif.Cosmo.C40_continuity",
    "Verif.Cosmo.C40_unique",
    "Verif.Cosmo.C40_w0wz_wrong",
    "Verif.Cosmo.C40_w0wz_partial"
   ],
   "note": "Proved for all families but w0wz, for which the statement is false; the partial theorem says which equation of state the code's density does obey."
  },
  {
   "property": "C41",
   "status": "proved",
   "theorems": [
    "Verif.Cosmo.C41_fractions"
   ],
   "note": ""
  },
  {
   "property": "C42",
   "status": "proved",
   "theorems": [
    "Verif.Cosmo.C42_flat",
    "Verif.Cosmo.C42_flat_lambda_set",
    "Verif.Cosmo.C42_other_flat",
    "Verif.Cosmo.C42_other_flat_unnormalised",
    "Verif.Cosmo.C42_curved_without_ode"
   ],
   "note": ""
  },
  {
   "property": "C43",
   "status": "proved",
   "theorems": [
    "Verif.Cosmo.C43_roundtrip",
    "Verif.Cosmo.C43_roundtrip_get",
    "Verif.Cosmo.C43_construct"
   ],
   "note": ""
  },
  {
   "property": "C44",
   "status": "partial",
   "theorems": [
    "Verif.Cosmo.C44_lookback_from_age",
    "Verif.Cosmo.C44_age_from_lookback",
    "Verif.Cosmo.C44_age_partial",
    "Verif.Cosmo.C44_false",
    "Verif.Cosmo.C44_neither"
   ],
   "note": "First half false of the code (default age ignores z): the partial theorem gives exactly when it holds."
  },
  {
   "property": "C45",
   "status": "proved",
   "theorems": [
    "Verif.Cosmo.C45_from_single",
    "Verif.Cosmo.C45_from_pair",
    "Verif.Cosmo.C45_neither",
    "Verif.Cosmo.C45_integral"
   ],
   "note": ""
  },
  {
   "property": "C46",
   "status": "proved",
   "theorems": [
    "Verif.Cosmo.C46_duality",
    "Verif.Cosmo.C46_distmod",
    "Verif.Cosmo.C46_distmod_tenfold"
   ],
   "note": ""
  },
  {
   "property": "C47",
   "status": "proved",
   "theorems": [
    "Verif.Cosmo.C47_transform",
    "Verif.Cosmo.C47_flat",
    "Verif.Cosmo.C47_odd",
    "Verif.Cosmo.C47_continuous",
    "Verif.Cosmo.C47_volume",
    "Verif.Cosmo.C47_volume_redshift"
   ],
   "note": ""
  },
  {
   "property": "C48",
   "status": "proved",
   "theorems": [
    "Verif.Cosmo.C48_factorisation",
    "Verif.Cosmo.C48_solver"
   ],
   "note": ""
  },
  {
   "property": "C49",
   "status": "proved",
   "theorems": [
    "Verif.Ragged.C49_sizes_length",
    "Verif.Ragged.C49_sizes_sum",
    "Verif.Ragged.C49_nested_sizes",
    "Verif.Ragged.C49_nested_total",
    "Verif.Ragged.C49_mixed_depth_wrong"
   ],
   "note": ""
  },
  {
   "property": "C50",
   "status": "proved",
   "theorems": [
    "Verif.Ragged.C50_broadcast",
    "Verif.Ragged.C50_broadcast_scalar",
    "Verif.Ragged.C50_broadcast_twice",
    "Verif.Ragged.C50_broadcast_rejects"
   ],
   "note": ""
  },
  {
   "property": "C51",
   "status": "proved",
   "theorems": [
    "Verif.Interp.C51_bracket",
    "Verif.Interp.C51_unique"
   ],
   "note": ""
  },
  {
   "property": "C52",
   "status": "proved",
   "theorems": [
    "Verif.Interp.C52_knots",
    "Verif.Interp.C52_affine",
    "Verif.Interp.C52_between",
    "Verif.Interp.C52_monotone",
    "Verif.Interp.C52_derivative",
    "Verif.Interp.C52_continuous"
   ],
   "note": ""
  },
  {
   "property": "C53",
   "status": "proved",
   "theorems": [
    "Verif.Interp.C53_weights",
    "Verif.Interp.C53_multilinear",
    "Verif.Interp.C53_exact",
    "Verif.Interp.C53_bounds"
   ],
   "note": ""
  },
  {
   "property": "C54",
   "status": "proved",
   "theorems": [
    "Verif.Interp.C54_agrees_iff",
    "Verif.Interp.C54_false",
    "Verif.Interp.C54_in_range"
   ],
   "note": ""
  },
  {
   "property": "C55",
   "status": "proved",
   "theorems": [
    "Verif.Interp.C55_merge",
    "Verif.Interp.C55_unsorted"
   ],
   "note": ""
  },
  {
   "property": "C56",
   "status": "proved",
   "theorems": [
    "Verif.Interp.C56_solvable",
    "Verif.Interp.C56_pick",
    "Verif.Interp.C56_spline",
    "Verif.Interp.C56_contDiff",
    "Verif.Interp.C56_exists"
   ],
   "note": ""
  },
  {
   "property": "C57",
   "status": "proved",
   "theorems": [
    "Verif.Interp.C57_square_iff",
    "Verif.Interp.C57_row_length"
   ],
   "note": ""
  },
  {
   "property": "C58",
   "status": "proved",
   "theorems": [
    "Verif.Autograd.C58_aligned",
    "Verif.Autograd.C58_many",
    "Verif.Autograd.C58_none",
    "Verif.Autograd.C58_hang",
    "Verif.Autograd.C58_alternative"
   ],
   "note": ""
  },
  {
   "property": "C59",
   "status": "proved",
   "theorems": [
    "Verif.Autograd.C59_inverse"
   ],
   "note": ""
  },
  {
   "property": "C60",
   "status": "proved",
   "theorems": [
    "Verif.Special.C60_hypsum_spec",
    "Verif.Special.C60_hypsum_returns",
    "Verif.Special.C60_hypsum_error",
    "Verif.Special.C60_hypsum_unsound"
   ],
   "note": ""
  },
  {
   "property": "C61",
   "status": "partial",
   "theorems": [
    "Verif.Special.C61_exponential",
    "Verif.Special.C61_depth",
    "Verif.Special.C61_edges",
    "Verif.Special.C61_complement_tails",
    "Verif.Special.C61_complement_large",
    "Verif.Special.C61_no_overshoot_partial",
    "Verif.Special.C61_start_side",
    "Verif.Special.C61_inaccurate"
   ],
   "note": "The returned value is not the inverse to machine precision (refuted); the partial theorem proves the one-sided bound of the iteration."
  },
  {
   "property": "C62",
   "status": "proved",
   "theorems": [
    "Verif.Roots.C62_elementary_symmetric",
    "Verif.Roots.C62_perm",
    "Verif.Roots.C62_zero_raises"
   ],
   "note": ""
  },
  {
   "property": "C63",
   "status": "proved",
   "theorems": [
    "Verif.Interp.C63_cprobs",
    "Verif.Interp.C63_marginal",
    "Verif.Interp.C63_conditional",
    "Verif.Interp.C63_icdf",
    "Verif.Interp.C63_inverse",
    "Verif.Interp.C63_one_dim_false"
   ],
   "note": ""
  },
  {
   "property": "C64",
   "status": "proved",
   "theorems": [
    "Verif.Cosmo.C64_routing",
    "Verif.Cosmo.C64_history_independent",
    "Verif.Cosmo.C64_order_matters"
   ],
   "note": ""
  },
  {
   "property": "C65",
   "status": "partial",
   "theorems": [
    "Verif.Units.C65_ne_not_negation",
    "Verif.Units.C65_ne_partial"
   ],
   "note": "False of the code (dict.__ne__); the partial theorem says when != is the negation of ==."
  },
  {
   "property": "C66",
   "status": "partial",
   "theorems": [
    "Verif.Scope.C66_register_not_fluent",
    "Verif.Scope.C66_register_fluent_partial"
   ],
   "note": "False of the code when the name exists and is ignored; partial: all other calls."
  },
  {
   "property": "C67",
   "status": "proved",
   "theorems": [
    "Verif.Names.C67_si_names"
   ],
   "note": ""
  },
  {
   "property": "C68",
   "status": "partial",
   "theorems": [
    "Verif.Quant.C68_inplace_ignores_units",
    "Verif.Quant.C68_default_linear_partial"
   ],
   "note": "False of the code for in-place operations; partial: the operations for which it holds."
  },
  {
   "property": "C69",
   "status": "proved",
   "theorems": [
    "Verif.Quant.C69_integer_loses_unit"
   ],
   "note": ""
  },
  {
   "property": "C70",
   "status": "proved",
   "theorems": [
    "Verif.Quant.C70_histc_default_raises"
   ],
   "note": ""
  },
  {
   "property": "C71",
   "status": "partial",
   "theorems": [
    "Verif.Quant.C71_isclose_depends_on_unit",
    "Verif.Quant.C71_isclose_partial"
   ],
   "note": "False of the code for atol != 0; partial: atol = 0."
  },
  {
   "property": "C72",
   "status": "proved",
   "theorems": [
    "Verif.Cosmo.C72_order_irrelevant",
    "Verif.Cosmo.C72_required",
    "Verif.Cosmo.C72_unknown",
    "Verif.Cosmo.C72_succeeds"
   ],
   "note": ""
  },
  {
   "property": "C73",
   "status": "proved",
   "theorems": [
    "Verif.Cosmo.C73_keys",
    "Verif.Cosmo.C73_derived_listed",
    "Verif.Cosmo.C73_roundtrip"
   ],
   "note": ""
  },
  {
   "property": "C74",
   "status": "proved",
   "theorems": [
    "Verif.Cosmo.C74_flat_age",
    "Verif.Cosmo.C74_flat_lookback"
   ],
   "note": ""
  },
  {
   "property": "C75",
   "status": "partial",
   "theorems": [
    "Verif.Cosmo.C75_component_laws",
    "Verif.Cosmo.C75_e2_zero",
    "Verif.Cosmo.C75_omega_wrong",
    "Verif.Cosmo.C75_fractions_false",
    "Verif.Cosmo.C75_weighted_sum_partial"
   ],
   "note": "False of the code (Omega omits O0); partial: the weighted sum actually returned."
  },
  {
   "property": "C76",
   "status": "proved",
   "theorems": [
    "Verif.Interp.C76_affine",
    "Verif.Interp.C76_weights",
    "Verif.Interp.C76_columns",
    "Verif.Interp.C76_weights_sum",
    "Verif.Interp.C76_weights_knot"
   ],
   "note": ""
  },
  {
   "property": "C77",
   "status": "proved",
   "theorems": [
    "Verif.Interp.C77_exact",
    "Verif.Interp.C77_multilinear"
   ],
   "note": ""
  },
  {
   "property": "C78",
   "status": "proved",
   "theorems": [
    "Verif.Autograd.C78_classes",
    "Verif.Autograd.C78_override",
    "Verif.Autograd.C78_explicit"
   ],
   "note": ""
  },
  {
   "property": "C79",
   "status": "proved",
   "theorems": [
    "Verif.Carlson.C79_elliprd",
    "Verif.Carlson.C79_elliprd_inf"
   ],
   "note": ""
  },
  {
   "property": "C80",
   "status": "partial",
   "theorems": [
    "Verif.Carlson.C80_elliprj_partial"
   ],
   "note": "False when p equals x, y or z (see C35); partial: all other p."
  },
  {
   "property": "C81",
   "status": "proved",
   "theorems": [
    "Verif.Carlson.C81_elliprc",
    "Verif.Carlson.C81_elliprc_pv",
    "Verif.Carlson.C81_closed_form"
   ],
   "note": ""
  },
  {
   "property": "C82",
   "status": "proved",
   "theorems": [
    "Verif.Carlson.C82_elliprg",
    "Verif.Carlson.C82_elliprg_zero",
    "Verif.Carlson.C82_relative",
    "Verif.Carlson.C82_zeros"
   ],
   "note": ""
  },
  {
   "property": "C83",
   "status": "proved",
   "theorems": [
    "Verif.Carlson.Grad.C83_elliprf",
    "Verif.Carlson.Grad.C83_elliprg",
    "Verif.Ellred.C83_elliprf_complex"
   ],
   "note": ""
  },
  {
   "property": "C84",
   "status": "proved",
   "theorems": [
    "Verif.Carlson.Grad.C84_elliprc_x",
    "Verif.Carlson.Grad.C84_elliprc_x_general",
    "Verif.Carlson.Grad.C84_elliprc_y",
    "Verif.Carlson.Grad.C84_elliprc_y_general",
    "Verif.Carlson.Grad.C84_elliprc_x_close",
    "Verif.Carlson.Grad.C84_elliprc_x_close_bound",
    "Verif.Ellred.C84_elliprc_complex"
   ],
   "note": ""
  },
  {
   "property": "C85",
   "status": "proved",
   "theorems": [
    "Verif.Carlson.Grad.C85_elliprd_x",
    "Verif.Carlson.Grad.C85_elliprd_x_general",
    "Verif.Carlson.Grad.C85_elliprd_y",
    "Verif.Carlson.Grad.C85_elliprd_z",
    "Verif.Carlson.Grad.C85_elliprd_z_general",
    "Verif.Ellred.C85_elliprd_complex"
   ],
   "note": ""
  },
  {
   "property": "C86",
   "status": "proved",
   "theorems": [
    "Verif.Carlson.Grad.C86_elliprj_x",
    "Verif.Carlson.Grad.C86_elliprj_x_general",
    "Verif.Carlson.Grad.C86_elliprj_y",
    "Verif.Carlson.Grad.C86_elliprj_z",
    "Verif.Carlson.Grad.C86_elliprj_p",
    "Verif.Carlson.Grad.C86_elliprj_p_general",
    "Verif.Ellred.C86_elliprj_complex"
   ],
   "note": ""
  },
  {
   "property": "C87",
   "status": "partial",
   "theorems": [
    "Verif.Carlson.C87_ellipkinc",
    "Verif.Carlson.C87_ellipdinc",
    "Verif.Carlson.C87_ellipeinc",
    "Verif.Carlson.C87_ellipeinc_one",
    "Verif.Carlson.C87_ellippiinc_partial",
    "Verif.Carlson.C87_ellipk",
    "Verif.Carlson.C87_ellipd",
    "Verif.Carlson.C87_ellipe",
    "Verif.Carlson.C87_ellipe_one",
    "Verif.Carlson.C87_ellippi_partial"
   ],
   "note": "K, E, D complete and incomplete in full; Pi excludes the characteristics at which elliprj divides by zero (the code returns NaN there)."
  },
  {
   "property": "C88",
   "status": "proved",
   "theorems": [
    "Verif.Carlson.C88_even_periodic",
    "Verif.Carlson.C88_negative"
   ],
   "note": ""
  },
  {
   "property": "C89",
   "status": "proved",
   "theorems": [
    "Verif.Carlson.C89_k",
    "Verif.Carlson.C89_e",
    "Verif.Carlson.C89_d",
    "Verif.Carlson.C89_pi_m",
    "Verif.Carlson.C89_pi_n",
    "Verif.Carlson.C89_excluded"
   ],
   "note": ""
  },
  {
   "property": "C90",
   "status": "proved",
   "theorems": [
    "Verif.Carlson.C90_kinc_m",
    "Verif.Carlson.C90_einc_m",
    "Verif.Carlson.C90_dinc_m",
    "Verif.Carlson.C90_piinc_m",
    "Verif.Carlson.C90_piinc_n",
    "Verif.Carlson.C90_phi_zero",
    "Verif.Carlson.C90_phi"
   ],
   "note": ""
  },
  {
   "property": "C91",
   "status": "proved",
   "theorems": [
    "Verif.Ellred.C91_comoving"
   ],
   "note": ""
  },
  {
   "property": "C92",
   "status": "proved",
   "theorems": [
    "Verif.Ellred.C92_lookback"
   ],
   "note": ""
  },
  {
   "property": "C93",
   "status": "proved",
   "theorems": [
    "Verif.Ellred.C93_absorption"
   ],
   "note": ""
  },
  {
   "property": "C94",
   "status": "proved",
   "theorems": [
    "Verif.Ellred.C94_comoving"
   ],
   "note": ""
  },
  {
   "property": "C95",
   "status": "partial",
   "theorems": [
    "Verif.Ellred.C95_lookback_partial",
    "Verif.Ellred.C95_wrong"
   ],
   "note": "Refuted in general (depends on which root comes last); partial: sufficient conditions on the last root."
  },
  {
   "property": "C96",
   "status": "partial",
   "theorems": [
    "Verif.Ellred.C96_absorption_partial",
    "Verif.Ellred.C96_wrong"
   ],
   "note": "Refuted in general (depends on which root comes last); partial: sufficient conditions on the last root."
  },
  {
   "property": "C97",
   "status": "proved",
   "theorems": [
    "Verif.Special.C97_gamma_poles",
    "Verif.Special.C97_gamma_value"
   ],
   "note": ""
  },
  {
   "property": "C98",
   "status": "proved",
   "theorems": [
    "Verif.Special.C98_loggamma_value",
    "Verif.Special.C98_loggamma_poles",
    "Verif.Special.C98_exp_loggamma"
   ],
   "note": ""
  },
  {
   "property": "C99",
   "status": "proved",
   "theorems": [
    "Verif.Special.C99_igam_fac",
    "Verif.Special.C99_igam_fac_edge"
   ],
   "note": ""
  },
  {
   "property": "C100",
   "status": "proved",
   "theorems": [
    "Verif.Special.C100_gammainc_series",
    "Verif.Special.C100_gammainc_edge",
    "Verif.Special.C100_gammainc_truncated",
    "Verif.Special.C100_gammainc_small_a"
   ],
   "note": ""
  },
  {
   "property": "C101",
   "status": "proved",
   "theorems": [
    "Verif.Special.C101_gammaincc_series",
    "Verif.Special.C101_gammaincc_edge"
   ],
   "note": ""
  },
  {
   "property": "C102",
   "status": "proved",
   "theorems": [
    "Verif.Special.C102_gammaincc_cf",
    "Verif.Special.C102_stop_sound",
    "Verif.Special.C102_gammainc_upper"
   ],
   "note": ""
  },
  {
   "property": "C103",
   "status": "proved",
   "theorems": [
    "Verif.Special.C103_complementary",
    "Verif.Special.C103_complementary_approx"
   ],
   "note": ""
  },
  {
   "property": "C104",
   "status": "proved",
   "theorems": [
    "Verif.Ellred.C104_comoving",
    "Verif.Ellred.C104_lookback",
    "Verif.Ellred.C104_absorption"
   ],
   "note": ""
  },
  {
   "property": "C105",
   "status": "proved",
   "theorems": [
    "Verif.Ellred.C105_cubic",
    "Verif.Ellred.C105_quartic"
   ],
   "note": ""
  },
  {
   "property": "C106",
   "status": "partial",
   "theorems": [
    "Verif.Ellred.C106_comoving",
    "Verif.Ellred.C106_lookback_partial",
    "Verif.Ellred.C106_lookback_wrong",
    "Verif.Ellred.C106_absorption_partial"
   ],
   "note": "Comoving distance in full; lookback time refuted in general; partial: sufficient conditions on the first root."
  },
  {
   "property": "C107",
   "status": "partial",
   "theorems": [
    "Verif.Ellred.Cache.C107_cached_partial",
    "Verif.Ellred.Cache.C107_stale",
    "Verif.Ellred.Cache.C107_overwritten",
    "Verif.Ellred.Cache.C107_wrong"
   ],
   "note": "Refuted (results cached by tensor identity); partial: histories without in-place modification."
  },
  {
   "property": "C108",
   "status": "proved",
   "theorems": [
    "Verif.Special.C108_digamma_poles",
    "Verif.Special.C108_digamma_value"
   ],
   "note": ""
  },
  {
   "property": "C109",
   "status": "proved",
   "theorems": [
    "Verif.Special.C109_gamma_grad",
    "Verif.Special.C109_loggamma_grad",
    "Verif.Special.C109_digamma_grad_raises"
   ],
   "note": ""
  },
  {
   "property": "C110",
   "status": "partial",
   "theorems": [
    "Verif.Special.C110_gammainc_grad_partial",
    "Verif.Special.C110_gammaincinv_grad_partial",
    "Verif.Special.C110_gammainccinv_grad_partial",
    "Verif.Special.C110_gammainc_grad_wrong",
    "Verif.Special.C110_gammainc_grad_wrong_returns",
    "Verif.Special.C110_grad_error",
    "Verif.Special.C110_gammainc_grad_rate_partial"
   ],
   "note": "Gradient of gammainc in a refuted near x=0. Partial: partial derivatives where Tgamma(3) is exact; the error is exactly x |Tgamma(3) - T(3)| / Gamma(a) (C110_grad_error), hence at most proportional to the step for fixed a, x with exact gamma functions and series (C110_gammainc_grad_rate_partial). Missing: explicit constants at the code's step 2^-15."
  },
  {
   "property": "C111",
   "status": "partial",
   "theorems": [
    "Verif.Special.C111_Tgamma_perturbed",
    "Verif.Special.C111_Tgamma_three_partial",
    "Verif.Special.C111_Tgamma_zero",
    "Verif.Special.C111_Tgamma_one_partial",
    "Verif.Special.C111_Tgamma_one_returns",
    "Verif.Special.C111_Tgamma_two_partial",
    "Verif.Special.C111_Tgamma_two_returns",
    "Verif.Special.C111_Tgamma_three_rate_partial"
   ],
   "note": "m=1, 2: error bounds where the series has converged; m=3: limit as the step tends to 0, with an error at most proportional to the step. Missing: explicit constants for m=3, and anything about m>3 other than that it is perturbed."
  },
  {
   "property": "C112",
   "status": "partial",
   "theorems": [
    "Verif.Special.C112_Tgamma_grad_partial",
    "Verif.Special.C112_Tgamma_one_grad_raises",
    "Verif.Special.C112_Tgamma_complex_grad_wrong"
   ],
   "note": "Partial: real arguments, exact Tgamma; the complex and m=1 cases are refuted."
  },
  {
   "property": "C113",
   "status": "proved",
   "theorems": [
    "Verif.Cosmo.Odeint.C113_comoving",
    "Verif.Cosmo.Odeint.C113_lookback",
    "Verif.Cosmo.Odeint.C113_absorption",
    "Verif.Cosmo.Odeint.C113_raises",
    "Verif.Cosmo.Odeint.C113_zero_raises",
    "Verif.Cosmo.Odeint.C113_one_limit",
    "Verif.Cosmo.Odeint.C113_agrees",
    "Verif.Cosmo.Odeint.C113_override"
   ],
   "note": ""
  },
  {
   "property": "C114",
   "status": "partial",
   "theorems": [
    "Verif.Interp.Grid2d.C114_aligned_partial",
    "Verif.Interp.Grid2d.C114_default_partial",
    "Verif.Interp.Grid2d.C114_default_corner",
    "Verif.Interp.Grid2d.C114_shape_partial",
    "Verif.Interp.Grid2d.C114_scalar_raises",
    "Verif.Interp.Grid2d.C114_table_batch_raises",
    "Verif.Interp.Grid2d.C114_three_dims_raises",
    "Verif.Interp.Grid2d.C114_three_dims_shape"
   ],
   "note": "Refuted for the default alignment and for some shapes; partial: align_corners=True inside the extents, cell centres by default, shapes up to two dimensions."
  },
  {
   "property": "C115",
   "status": "partial",
   "theorems": [
    "Verif.Cosmo.Dimful.C115_hubble_time",
    "Verif.Cosmo.Dimful.C115_hubble_distance",
    "Verif.Cosmo.Dimful.C115_hubble_volume",
    "Verif.Cosmo.Dimful.C115_critical_density0",
    "Verif.Cosmo.Dimful.C115_H",
    "Verif.Cosmo.Dimful.C115_critical_density",
    "Verif.Cosmo.Dimful.C115_methods",
    "Verif.Cosmo.Dimful.C115_in_10pc",
    "Verif.Cosmo.Dimful.C115_in_10pc_raises",
    "Verif.Cosmo.Dimful.C115_eval_hunit_partial",
    "Verif.Cosmo.Dimful.C115_eval_hunit_quantity",
    "Verif.Cosmo.Dimful.C115_eval_hunit_example"
   ],
   "note": "Everything but eval_hunit in full; eval_hunit is right for H0 a bare unit, refuted for H0 a quantity."
  },
  {
   "property": "C116",
   "status": "partial",
   "theorems": [
    "Verif.Cosmo.Flt.C116_single_zero",
    "Verif.Cosmo.Flt.C116_double_loss",
    "Verif.Cosmo.Flt.C116_accuracy_partial"
   ],
   "note": "Uniform accuracy refuted in single and double precision; partial: the error bound above the threshold, which degrades like 2^-p/y^2. Every operation is modelled as correctly rounded."
  },
  {
   "property": "C117",
   "status": "partial",
   "theorems": [
    "Verif.Cosmo.Grad.C117_transverse_flat",
    "Verif.Cosmo.Grad.C117_transverse_distance",
    "Verif.Cosmo.Grad.C117_transverse_partial",
    "Verif.Cosmo.Grad.C117_volume_not_finite",
    "Verif.Cosmo.Grad.C117_volume_partial",
    "Verif.Cosmo.Grad.C117_volume_below"
   ],
   "note": "Refuted at zero curvature and zero distance; partial: correct gradients for non-zero curvature (volume: above the threshold)."
  },
  {
   "property": "C118",
   "status": "partial",
   "theorems": [
    "Verif.Roots.Flt.C118_vieta",
    "Verif.Roots.Flt.C118_opposite_partial",
    "Verif.Roots.Flt.C118_double_root"
   ],
   "note": "Refuted near double roots (C118_double_root); partial: both roots accurate when c < 0, and Vieta's relations (backward accuracy) always."
  },
  {
   "property": "C119",
   "status": "proved",
   "theorems": [
    "Verif.Carlson.Flt.C119_elliprc",
    "Verif.Carlson.Flt.C119_elliprc_pv",
    "Verif.Carlson.Flt.C119_elliprf",
    "Verif.Carlson.Flt.C119_ellipk"
   ],
   "note": ""
  },
  {
   "property": "C120",
   "status": "partial",
   "theorems": [
    "Verif.Dtype.C120_format",
    "Verif.Dtype.C120_double_partial",
    "Verif.Dtype.C120_default_double_partial",
    "Verif.Dtype.C120_single_partial",
    "Verif.Dtype.C120_float_error",
    "Verif.Dtype.C120_false",
    "Verif.Dtype.C120_float_lost",
    "Verif.Dtype.C120_int_lost",
    "Verif.Dtype.C120_none"
   ],
   "note": "Refuted (C120_false, C120_float_lost, C120_int_lost); partial: floating point tensors are used exactly, everything if the default dtype is double. Format of the computation characterised in full (C120_format)."
  },
  {
   "property": "C121",
   "status": "partial",
   "theorems": [
    "Verif.Units.Latex.C121_to_base",
    "Verif.Units.Latex.C121_key_error",
    "Verif.Units.Latex.C121_power",
    "Verif.Units.Latex.C121_value_partial",
    "Verif.Units.Latex.C121_special",
    "Verif.Units.Latex.C121_not_injective",
    "Verif.Units.Latex.C121_mantissa_ten",
    "Verif.Units.Latex.C121_denotes_partial",
    "Verif.Units.Latex.C121_prec_ignored"
   ],
   "note": "Refuted in three details (C121_not_injective, C121_mantissa_ten, C121_prec_ignored); partial: the text stands for the unit to 6.2e-16 (C121_denotes_partial)."
  },
  {
   "property": "C122",
   "status": "partial",
   "theorems": [
    "Verif.Units.Name.C122_converts_partial",
    "Verif.Units.Name.C122_dimensionless",
    "Verif.Units.Name.C122_key_error"
   ],
   "note": "Refuted for dimensionless units (C122_dimensionless); all others convert (C122_converts_partial)."
  },
  {
   "property": "C123",
   "status": "partial",
   "theorems": [
    "Verif.Units.Name.C123_reads_partial",
    "Verif.Units.Name.C123_false",
    "Verif.Units.Name.C123_tower"
   ],
   "note": "Refuted for denominators beyond 10^6 (C123_false) and for right-to-left reading of powers (C123_tower); partial: left-to-right reading of every expression with smaller denominators."
  },
  {
   "property": "C124",
   "status": "partial",
   "theorems": [
    "Verif.PMath.C124_agree_partial",
    "Verif.PMath.C124_complex",
    "Verif.PMath.C124_outside",
    "Verif.PMath.C124_agree_iff",
    "Verif.PMath.C124_false",
    "Verif.PMath.C124_never_float",
    "Verif.PMath.C124_sinc",
    "Verif.PMath.C124_csinc_tensor",
    "Verif.PMath.C124_csinc_python",
    "Verif.PMath.C124_where",
    "Verif.PMath.C124_where_python",
    "Verif.PMath.C124_where_attribute",
    "Verif.PMath.C124_where_drops",
    "Verif.PMath.C124_parts"
   ],
   "note": "Refuted (C124_false, C124_csinc_python, C124_where_attribute); partial: agreement exactly on the real domains (C124_agree_partial, C124_agree_iff), full for complex tensors (C124_complex)."
  },
  {
   "property": "C125",
   "status": "partial",
   "theorems": [
    "Verif.Ext.C125_access",
    "Verif.Ext.C125_same_object",
    "Verif.Ext.C125_import_same",
    "Verif.Ext.C125_dummy_not_importable",
    "Verif.Ext.C125_others_partial",
    "Verif.Ext.C125_overwrites",
    "Verif.Ext.C125_false"
   ],
   "note": "Refuted (C125_false: sys.modules[n] is overwritten; C125_dummy_not_importable); partial: nothing else changes (C125_others_partial). Identity and availability proved in full."
  },
  {
   "property": "C126",
   "status": "proved",
   "theorems": [
    "Verif.Carlson.Flt.C126_elliprd",
    "Verif.Carlson.Flt.C126_elliprd_inf",
    "Verif.Carlson.Flt.C126_ellipd",
    "Verif.Carlson.Flt.C126_elliprg",
    "Verif.Carlson.Flt.C126_elliprg_zero",
    "Verif.Carlson.Flt.C126_elliprg_relative",
    "Verif.Carlson.Flt.C126_ellipe_neg",
    "Verif.Carlson.Flt.C126_ellipe",
    "Verif.Carlson.Flt.C126_ellipe_one",
    "Verif.Carlson.Flt.C126_elliprg_two_zeros"
   ],
   "note": ""
  },
  {
   "property": "C127",
   "status": "proved",
   "theorems": [
    "Verif.Quant.Bind.C127_kernel_sees",
    "Verif.Quant.Bind.C127_received",
    "Verif.Quant.Bind.C127_by_name",
    "Verif.Quant.Bind.C127_positional_only",
    "Verif.Quant.Bind.C127_torch_function"
   ],
   "note": ""
  },
  {
   "property": "C128",
   "status": "proved",
   "theorems": [
    "Verif.Quant.Bind.C128_history",
    "Verif.Quant.Bind.C128_remembered",
    "Verif.Quant.Bind.C128_default_unused"
   ],
   "note": ""
  },
  {
   "property": "C129",
   "status": "proved",
   "theorems": [
    "Verif.Ragged.Old.C129_group_sums",
    "Verif.Ragged.Old.C129_total",
    "Verif.Ragged.Old.C129_accepts",
    "Verif.Ragged.Old.C129_one_takes_all"
   ],
   "note": ""
  },
  {
   "property": "C130",
   "status": "proved",
   "theorems": [
    "Verif.Ragged.Old.C130_carried",
    "Verif.Ragged.Old.C130_elementwise",
    "Verif.Ragged.Old.C130_tuple_lost",
    "Verif.Ragged.Old.C130_operands_not_compared",
    "Verif.Ragged.Old.C130_reduced_keeps_sizes",
    "Verif.Ragged.Old.C130_first_sizes_stay"
   ],
   "note": ""
  },
  {
   "property": "C131",
   "status": "proved",
   "theorems": [
    "Verif.Quant.LinAlg.C131_solve",
    "Verif.Quant.LinAlg.C131_triangular_solve",
    "Verif.Quant.LinAlg.C131_inverse",
    "Verif.Quant.LinAlg.C131_pinverse",
    "Verif.Quant.LinAlg.C131_cholesky",
    "Verif.Quant.LinAlg.C131_cholesky_inverse",
    "Verif.Quant.LinAlg.C131_cholesky_solve",
    "Verif.Quant.LinAlg.C131_eig",
    "Verif.Quant.LinAlg.C131_qr",
    "Verif.Quant.LinAlg.C131_svd",
    "Verif.Quant.LinAlg.C131_lstsq",
    "Verif.Quant.LinAlg.C131_lu",
    "Verif.Quant.LinAlg.C131_lu_solve",
    "Verif.Quant.LinAlg.C131_lu_unpack",
    "Verif.Quant.LinAlg.C131_packed_lu_not_convertible",
    "Verif.Quant.LinAlg.C131_lu_solve_converted_wrong",
    "Verif.Quant.LinAlg.C131_det",
    "Verif.Quant.LinAlg.C131_no_entry",
    "Verif.Quant.LinAlg.C131_no_entry_wrong"
   ],
   "note": ""
  },
  {
   "property": "C132",
   "status": "proved",
   "theorems": [
    "Verif.Quant.Special.C132_where",
    "Verif.Quant.Special.C132_where_unitError",
    "Verif.Quant.Special.C132_where_rejects",
    "Verif.Quant.Special.C132_gradient_seq",
    "Verif.Quant.Special.C132_gradient_defaults",
    "Verif.Quant.Special.C132_gradient_unequal"
   ],
   "note": ""
  },
  {
   "property": "C133",
   "status": "proved",
   "theorems": [
    "Verif.Interp.Batch.C133_linear1d",
    "Verif.Interp.Batch.C133_linear1d_raises",
    "Verif.Interp.Batch.C133_linear1d_assertion",
    "Verif.Interp.Batch.C133_linear1d_default",
    "Verif.Interp.Batch.C133_linear1d_default_outer"
   ],
   "note": ""
  },
  {
   "property": "C134",
   "status": "proved",
   "theorems": [
    "Verif.Interp.Batch.C134_nd",
    "Verif.Interp.Batch.C134_nd_raises",
    "Verif.Interp.Batch.C134_nd_assertion"
   ],
   "note": ""
  },
  {
   "property": "C135",
   "status": "proved",
   "theorems": [
    "Verif.Interp.Batch.C135_spline",
    "Verif.Interp.Batch.C135_cubic",
    "Verif.Interp.Batch.C135_raises",
    "Verif.Interp.Batch.C135_weights"
   ],
   "note": ""
  },
  {
   "property": "C136",
   "status": "partial",
   "theorems": [
    "Verif.Interp.Batch.C136_splineNd",
    "Verif.Interp.Batch.C136_raises",
    "Verif.Interp.Batch.C136_documented_partial",
    "Verif.Interp.Batch.C136_batch_raises",
    "Verif.Interp.Batch.C136_batch_pairs"
   ],
   "note": "Refuted as documented (C136_batch_raises, C136_batch_pairs). What the code computes is proved for all shapes (C136_splineNd, C136_raises); the documented behaviour only for values without batch dimensions or with a dimension of size one inserted (C136_documented_partial)."
  },
  {
   "property": "C137",
   "status": "proved",
   "theorems": [
    "Verif.Interp.Batch.C137_icdf",
    "Verif.Interp.Batch.C137_rsample",
    "Verif.Interp.Batch.C137_batched_grids",
    "Verif.Interp.Batch.C137_one_dim"
   ],
   "note": ""
  },
  {
   "property": "C138",
   "status": "proved",
   "theorems": [
    "Verif.Autograd.C138_forward",
    "Verif.Autograd.C138_forward_unknown",
    "Verif.Autograd.C138_gradient",
    "Verif.Autograd.C138_inverse",
    "Verif.Autograd.C138_marked",
    "Verif.Autograd.C138_wirings"
   ],
   "note": ""
  },
  {
   "property": "C139",
   "status": "proved",
   "theorems": [
    "Verif.Roots.Batch.C139_roots",
    "Verif.Roots.Batch.C139_elementwise",
    "Verif.Roots.Batch.C139_raises",
    "Verif.Roots.Batch.C139_companion",
    "Verif.Roots.Batch.C139_sroots",
    "Verif.Roots.Batch.C139_vieta",
    "Verif.Roots.Batch.C139_round_trip"
   ],
   "note": ""
  },
  {
   "property": "C140",
   "status": "proved",
   "theorems": [
    "Verif.Roots.Batch.C140_raises_iff",
    "Verif.Roots.Batch.C140_backward",
    "Verif.Roots.Batch.C140_vjp"
   ],
   "note": ""
  },
  {
   "property": "C141",
   "status": "proved",
   "theorems": [
    "Verif.Carlson.Flt.C141_elliprj",
    "Verif.Carlson.Flt.C141_elliprj_inf",
    "Verif.Carlson.Flt.C141_elliprj_nan",
    "Verif.Carlson.Flt.C141_ellippi",
    "Verif.Carlson.Flt.C141_ellippi_pos",
    "Verif.Carlson.Flt.C141_ellippi_nan",
    "Verif.Carlson.Flt.C141_ellippi_diagonal",
    "Verif.Carlson.Flt.C141_ellippi_tiny"
   ],
   "note": ""
  },
  {
   "property": "C142",
   "status": "proved",
   "theorems": [
    "Verif.Ellred.C142_comoving",
    "Verif.Ellred.C142_lookback_absorption",
    "Verif.Ellred.C142_flat_comoving",
    "Verif.Ellred.C142_flat_lookback_absorption",
    "Verif.Ellred.C142_raises_iff",
    "Verif.Ellred.C142_no_dark_energy",
    "Verif.Ellred.C142_redshift"
   ],
   "note": ""
  },
  {
   "property": "C143",
   "status": "proved",
   "theorems": [
    "Verif.Ellred.C143_comoving",
    "Verif.Ellred.C143_flat_comoving",
    "Verif.Ellred.C143_radiation",
    "Verif.Ellred.C143_flat_radiation",
    "Verif.Ellred.C143_raises_iff",
    "Verif.Ellred.C143_no_dark_energy"
   ],
   "note": ""
  },
  {
   "property": "C144",
   "status": "proved",
   "theorems": [
    "Verif.Ellred.C144_lookback",
    "Verif.Ellred.C144_flat_lookback",
    "Verif.Ellred.C144_absorption",
    "Verif.Ellred.C144_flat_absorption",
    "Verif.Ellred.C144_raises_iff"
   ],
   "note": ""
  },
  {
   "property": "C145",
   "status": "proved",
   "theorems": [
    "Verif.Ellred.C145_straddle",
    "Verif.Ellred.C145_elliprc",
    "Verif.Ellred.C145_elliprf"
   ],
   "note": ""
  },
  {
   "property": "C146",
   "status": "proved",
   "theorems": [
    "Verif.Ellred.C146_comoving",
    "Verif.Ellred.C146_comoving_radiation"
   ],
   "note": ""
  },
  {
   "property": "C147",
   "status": "partial",
   "theorems": [
    "Verif.Interp.Merge.C147_raises",
    "Verif.Interp.Merge.C147_merge_partial"
   ],
   "note": "Refuted for the class itself (C147_raises). C147_merge_partial: a subclass providing `values`; unbatched, elementwise op, exact arithmetic, NaN where the grids share an end."
  },
  {
   "property": "C148",
   "status": "proved",
   "theorems": [
    "Verif.Ellred.C148_elliprd"
   ],
   "note": ""
  },
  {
   "property": "C149",
   "status": "proved",
   "theorems": [
    "Verif.Ellred.C149_absorption",
    "Verif.Ellred.C149_flat",
    "Verif.Ellred.C149_zero"
   ],
   "note": "The constant is not given in the statement; it is explicit in codeAbsorption3_le."
  },
  {
   "property": "C150",
   "status": "proved",
   "theorems": [
    "Verif.Ellred.C150_elliprj",
    "Verif.Ellred.C150_elliprj_conj",
    "Verif.Ellred.C150_elliprj_zero"
   ],
   "note": ""
  },
  {
   "property": "C151",
   "status": "partial",
   "theorems": [
    "Verif.Ellred.C151_lookback_partial",
    "Verif.Ellred.C151_no_dark_energy"
   ],
   "note": "False without dark energy (C151_no_dark_energy): p equals an argument of elliprj. C151_lookback_partial: with dark energy (E2(-1) != 0), or at redshift 0."
  },
  {
   "property": "C152",
   "status": "partial",
   "theorems": [
    "Verif.Ellred.C152_ellipkinc",
    "Verif.Ellred.C152_ellipdinc",
    "Verif.Ellred.C152_ellipeinc",
    "Verif.Ellred.C152_ellippiinc_partial",
    "Verif.Ellred.C152_ellippi_partial",
    "Verif.Ellred.C152_ellipk",
    "Verif.Ellred.C152_ellipd",
    "Verif.Ellred.C152_ellipe"
   ],
   "note": "First and second kind and D: all complex m off the cut. Third kind (complete and incomplete): Re m and Re n < 1/sin^2(phi), n != 1, m."
  },
  {
   "property": "C153",
   "status": "proved",
   "theorems": [
    "Verif.Ellred.C153_elliprg",
    "Verif.Ellred.C153_elliprg_zero",
    "Verif.Ellred.C153_elliprg_two_zeros",
    "Verif.Ellred.C153_elliprg_zeros"
   ],
   "note": ""
  },
  {
   "property": "C154",
   "status": "partial",
   "theorems": [
    "Verif.Units.C154_rounding_partial",
    "Verif.Units.C154_fraction_exact_partial",
    "Verif.Units.C154_fraction_laws_partial",
    "Verif.Units.C154_mul_comm_partial",
    "Verif.Units.C154_to_partial",
    "Verif.Units.C154_to_self_partial",
    "Verif.Units.C154_div_int_iff",
    "Verif.Units.C154_exact_fails",
    "Verif.Units.C154_inverse_fails",
    "Verif.Units.C154_to_inverse_fails"
   ],
   "note": "The claim as stated is false of the code (C154_exact_fails, C154_inverse_fails, C154_to_inverse_fails; C154_div_int_iff says exactly when). Proved: exactness and all laws of the exact model for Fractions; the number of roundings in general; commutativity, u.to(u) == 1 and correctly rounded conversion factors for all types."
  },
  {
   "property": "C155",
   "status": "partial",
   "theorems": [
    "Verif.Quant.Reg.C155_quantity_partial",
    "Verif.Quant.Reg.C155_notImplemented_partial",
    "Verif.Quant.Reg.C155_most_specific_partial",
    "Verif.Quant.Reg.C155_backend",
    "Verif.Quant.Reg.C155_subclass_inert",
    "Verif.Quant.Reg.C155_abstract_fails",
    "Verif.Quant.Reg.C155_most_specific_fails"
   ],
   "note": "The claim is false of the code (C155_most_specific_fails, C155_abstract_fails). Proved: the exact rule over all histories of class definitions, most-special dispatch if backends are introduced from the general to the special, inertness of plain subclasses, and how the backend is read from the class."
  },
  {
   "property": "C156",
   "status": "partial",
   "theorems": [
    "Verif.Interp.C156_nd_error_partial",
    "Verif.Interp.C156_knots_partial",
    "Verif.Interp.C156_constant_partial",
    "Verif.Interp.C156_monotone_partial",
    "Verif.Interp.C156_error_partial",
    "Verif.Interp.C156_last_fails",
    "Verif.Interp.C156_monotone_fails",
    "Verif.Interp.C156_nd_exact",
    "Verif.Interp.C156_nd_defined",
    "Verif.Interp.C156_nd_range"
   ],
   "note": "The claim as stated is false of the code (C156_last_fails, C156_monotone_fails, both in double precision and for every way of breaking ties). Proved: exactness at all knots but the last, monotonicity within an interval, a rounding error bound in one dimension; exactness at all grid points, a non-zero divisor, boundedness and a rounding error bound (C156_nd_error_partial) in N dimensions."
  },
  {
   "property": "C157",
   "status": "partial",
   "theorems": [
    "Verif.Quant.C157_same_unit",
    "Verif.Quant.C157_to_raises",
    "Verif.Quant.C157_convert_partial",
    "Verif.Quant.C157_order",
    "Verif.Quant.C157_roundtrip_partial",
    "Verif.Quant.C157_compare_raises",
    "Verif.Quant.C157_compare_partial",
    "Verif.Quant.C157_trichotomy",
    "Verif.Quant.C157_compare_swap_partial",
    "Verif.Quant.C157_add_partial",
    "Verif.Quant.C157_add_raises",
    "Verif.Quant.C157_symmetry_fails",
    "Verif.Quant.C157_roundtrip_fails",
    "Verif.Quant.C157_add_fails"
   ],
   "note": "The claim as stated is false of the code (C157_symmetry_fails, C157_roundtrip_fails, C157_add_fails: double precision, every platform, every rule for ties). Proved: when errors are raised (C157_to_raises, C157_compare_raises, C157_add_raises), bounds in numbers of roundings for conversion, round trip, comparison and sum, monotonicity and preservation of signs and zeros (C157_order), trichotomy for a fixed order of the operands, exactness in equal units. Overflow and underflow are not modelled; tensors are already broadcast."
  },
  {
   "property": "C158",
   "status": "partial",
   "theorems": [
    "Verif.Interp.C158_backward",
    "Verif.Interp.C158_error",
    "Verif.Interp.C158_knots_partial",
    "Verif.Interp.C158_exact",
    "Verif.Interp.C158_knots_fail",
    "Verif.Interp.C158_origin",
    "Verif.Interp.C158_weights",
    "Verif.Interp.C158_weights_fail"
   ],
   "note": "The claim as stated is false of the code (C158_knots_fail: single precision, every rule for ties, with and without fused operations, exact coefficients correctly rounded; the same for the weights and for SplineNd in one dimension, in any order of summation, C158_weights_fail). Proved: backward error (C158_backward), a bound on the error (C158_error, C158_knots_partial), exactness for small integers (C158_exact, C158_origin). The algorithm of torch.linalg.solve is not modelled: its coefficients are an argument, of any accuracy."
  },
  {
   "property": "C159",
   "status": "partial",
   "theorems": [
    "Verif.Interp.C159_table",
    "Verif.Interp.C159_cell_partial",
    "Verif.Interp.C159_lower",
    "Verif.Interp.C159_quantile",
    "Verif.Interp.C159_monotone_partial",
    "Verif.Interp.C159_inside_fails"
   ],
   "note": "The claim as stated is false of the code (C159_inside_fails, double precision, every rule for ties). Proved for the coordinate drawn first, that of the last dimension: the table of cumulative probabilities (C159_table), no division by zero and the enclosure in a cell (C159_cell_partial), the lower bound (C159_lower), exactness at the tabulated probabilities (C159_quantile), monotonicity within a cell. The conditional distributions of the other coordinates are not treated in floating point; cumsum is assumed to run from the left."
  },
  {
   "property": "C160",
   "status": "proved",
   "theorems": [
    "Verif.Units.C160_other",
    "Verif.Units.C160_raises",
    "Verif.Units.C160_dims",
    "Verif.Units.C160_of_eq",
    "Verif.Units.C160_symm",
    "Verif.Units.C160_close",
    "Verif.Units.C160_zero",
    "Verif.Units.C160_not_transitive",
    "Verif.Units.C160_zero_ne"
   ],
   "note": "Proved for every rounding to nearest of 53 bits. C160_other, C160_raises: what is returned or raised by type and tolerance; C160_dims: never True across dimensions; C160_of_eq, C160_symm (the rounding must treat both signs alike; platOdd shows such a one exists); C160_close: the decision for relative differences further than 2^-50 from rel_tol; C160_zero, C160_zero_ne: both tolerances 0; C160_not_transitive: a concrete triple at the default tolerance. CPython's math.isclose is transcribed."
  },
  {
   "property": "C161",
   "status": "partial",
   "theorems": [
    "Verif.Ragged.RQ.C161_raises",
    "Verif.Ragged.RQ.C161_type_error",
    "Verif.Ragged.RQ.C161_mixed",
    "Verif.Ragged.RQ.C161_ragged_only",
    "Verif.Ragged.RQ.C161_quantity_only",
    "Verif.Ragged.RQ.C161_construct_partial",
    "Verif.Ragged.RQ.C161_to",
    "Verif.Ragged.RQ.C161_where",
    "Verif.Ragged.RQ.C161_gradient",
    "Verif.Ragged.RQ.C161_reduce_add"
   ],
   "note": "The claim as stated is false of the code (C161_raises, C161_type_error, C161_reduce_add, C161_to, for arbitrary kernels and dimension specs; C161_mixed for a quantity with a ragged tensor). Proved of what remains: the constructor and value (C161_construct_partial), and that the same model lets ragged tensors and quantities on their own through (C161_ragged_only, C161_quantity_only). C161_where, C161_gradient: the two functions with code of their own."
  }
 ]
}