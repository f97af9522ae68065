{
 "claims": [
  {
   "property": "C01",
   "status": "proved",
   "theorems": [
    "ProxNLP.C01_projection_is_nearest",
    "ProxNLP.C01_projection_unique"
   ],
   "note": "all built-in indicator sets, any dimension"
  },
  {
   "property": "C02",
   "status": "proved",
   "theorems": [
    "ProxNLP.C02_projection_idempotent",
    "ProxNLP.C02_projection_fixes_iff",
    "ProxNLP.C02_projection_nonexpansive",
    "ProxNLP.C02_projection_firmly_nonexpansive"
   ],
   "note": "idempotence and fixed points for indicator sets; (firm) nonexpansiveness for all sets including L1"
  },
  {
   "property": "C03",
   "status": "proved",
   "theorems": [
    "ProxNLP.C03_projection_add_normal",
    "ProxNLP.C03_normal_in_cone"
   ],
   "note": ""
  },
  {
   "property": "C04",
   "status": "proved",
   "theorems": [
    "ProxNLP.C04_projection_jacobian",
    "ProxNLP.C04_normal_jacobian",
    "ProxNLP.C04_jacobians_complementary",
    "ProxNLP.C04_degenerate_box_kink_false"
   ],
   "note": "derivative off the kink points over the reals; complementarity everywhere; C04_degenerate_box_kink_false records that a box with lower=upper returns the identity Jacobian at the point itself"
  },
  {
   "property": "C05",
   "status": "proved",
   "theorems": [
    "ProxNLP.C05_moreau_envelope_is_min",
    "ProxNLP.C05_envelope_before_parameter_is_undefined",
    "ProxNLP.C05_moreau_envelope_gradient"
   ],
   "note": "value is the minimum; gradient over the reals; reading the envelope before a parameter is set is undefined (C05_envelope_before_parameter_is_undefined)"
  },
  {
   "property": "C06",
   "status": "proved",
   "theorems": [
    "ProxNLP.C06_l1_prox_minimises",
    "ProxNLP.C06_l1_normal_is_subgradient",
    "ProxNLP.C06_l1_active_iff_zero"
   ],
   "note": ""
  },
  {
   "property": "C07",
   "status": "proved",
   "theorems": [
    "ProxNLP.C07_product_blockwise",
    "ProxNLP.C07_blocks_partition",
    "ProxNLP.C07_constructor_rejects",
    "ProxNLP.C07_product_evaluate",
    "ProxNLP.C07_product_in_place",
    "ProxNLP.C07_product_envelope"
   ],
   "note": ""
  },
  {
   "property": "C08",
   "status": "partial",
   "theorems": [
    "ProxNLP.C08_parameter_reaches_components_false",
    "ProxNLP.C08_product_ignores_parameter",
    "ProxNLP.C08_parameter_reaches_components_partial"
   ],
   "note": "false for the code: setProxParameter is not forwarded to the components (C08_parameter_reaches_components_false, C08_product_ignores_parameter); the partial theorem covers components whose operations do not depend on the parameter"
  },
  {
   "property": "C09",
   "status": "proved",
   "theorems": [
    "ProxNLP.C09_zero_violation_iff_complementary"
   ],
   "note": ""
  },
  {
   "property": "C10",
   "status": "proved",
   "theorems": [
    "ProxNLP.C10_violation_bounds_distance",
    "ProxNLP.C10_equality",
    "ProxNLP.C10_inequality",
    "ProxNLP.C10_box"
   ],
   "note": ""
  },
  {
   "property": "C11",
   "status": "proved",
   "theorems": [
    "ProxNLP.C11_segments_partition",
    "ProxNLP.C11_add_preserves"
   ],
   "note": ""
  },
  {
   "property": "C12",
   "status": "proved",
   "theorems": [
    "ProxNLP.C12_evaluation_segments",
    "ProxNLP.C12_stacked_transpose_product",
    "ProxNLP.C12_stale_workspace_undefined"
   ],
   "note": "for a workspace created for the current list of constraints; a stale workspace is an out-of-bounds access (C12_stale_workspace_undefined)"
  },
  {
   "property": "C13",
   "status": "partial",
   "theorems": [
    "ProxNLP.C13_success_certifies_partial",
    "ProxNLP.C13_success_certifies_point",
    "ProxNLP.C13_success_certifies_false"
   ],
   "note": "proved in mode NEWTON (default); false in modes PRIMAL and PRIMAL_DUAL (C13_success_certifies_false); in all modes the returned point is certified by some multipliers"
  },
  {
   "property": "C14",
   "status": "proved",
   "theorems": [
    "ProxNLP.C14_budgets"
   ],
   "note": "the step computation is a parameter here; termination of its two loops is C25 and C32"
  },
  {
   "property": "C15",
   "status": "partial",
   "theorems": [
    "ProxNLP.C15_flag_truth_partial",
    "ProxNLP.C15_flag_truth_false"
   ],
   "note": "false for the code: UNINIT is returned when max_iters=0 or the outer budget is exhausted (C15_flag_truth_false); everything else proved"
  },
  {
   "property": "C16",
   "status": "partial",
   "theorems": [
    "ProxNLP.C16_early_stop_partial",
    "ProxNLP.C16_early_stop_false",
    "ProxNLP.C16_zero_tolerance_never_succeeds"
   ],
   "note": "false at equality (C16_early_stop_false); proved for strict inequality, as an equivalence"
  },
  {
   "property": "C17",
   "status": "proved",
   "theorems": [
    "ProxNLP.C17_penalty_cycle",
    "ProxNLP.C17_penalty_cycle_length",
    "ProxNLP.C17_penalty_safeguards",
    "ProxNLP.C17_penalty_update"
   ],
   "note": ""
  },
  {
   "property": "C18",
   "status": "proved",
   "theorems": [
    "ProxNLP.C18_tolerance_schedule",
    "ProxNLP.C18_feasible_streak",
    "ProxNLP.C18_infeasible_cycle",
    "ProxNLP.C18_tolerance_safeguards"
   ],
   "note": ""
  },
  {
   "property": "C19",
   "status": "proved",
   "theorems": [
    "ProxNLP.C19_callbacks",
    "ProxNLP.C19_callback_count",
    "ProxNLP.C19_clear"
   ],
   "note": ""
  },
  {
   "property": "C20",
   "status": "partial",
   "theorems": [
    "ProxNLP.C20_warm_start_used",
    "ProxNLP.C20_warm_start_returned",
    "ProxNLP.C20_wrong_size_ignored",
    "ProxNLP.C20_rejected_false",
    "ProxNLP.C20_blocks",
    "ProxNLP.C20_solve_blocks"
   ],
   "note": "false for a stacked vector of the wrong size, which is silently ignored (C20_wrong_size_ignored, C20_rejected_false); everything else proved"
  },
  {
   "property": "C21",
   "status": "partial",
   "theorems": [
    "ProxNLP.C21_reproducible_partial",
    "ProxNLP.C21_history_independent_partial",
    "ProxNLP.C21_reproducible_false_multipliers",
    "ProxNLP.C21_reproducible_false_centre",
    "ProxNLP.C21_setup_partial",
    "ProxNLP.C21_setup_false_centre",
    "ProxNLP.C21_reproducible_false_bfgs",
    "ProxNLP.C21_any_state_partial"
   ],
   "note": "false for calls without multipliers, with a proximal term, and with BFGS (C21_reproducible_false_*); proved for the remaining cases, for the whole solver from any two states (C21_any_state_partial); a setup() between the calls restores it except for the proximal centre (C21_setup_partial, C21_setup_false_centre)"
  },
  {
   "property": "C22",
   "status": "partial",
   "theorems": [
    "ProxNLP.C22_merit_slope_partial",
    "ProxNLP.C22_merit_slope_false"
   ],
   "note": "proved for pdal_beta = 1/2 (the default); false for other values (C22_merit_slope_false)"
  },
  {
   "property": "C23",
   "status": "partial",
   "theorems": [
    "ProxNLP.C23_symmetric_iff_newton",
    "ProxNLP.C23_symmetric_iff_linearised_residual_partial",
    "ProxNLP.C23_exact_mode_false"
   ],
   "note": "C23_symmetric_iff_newton holds in general for a given Hessian block; that the Newton system is the linearisation of the residual is proved for pdal_beta=1/2, off kinks, when the Hessian block is the derivative of the Lagrangian gradient; in mode EXACT the code weights the constraint Hessians with another multiplier (C23_exact_mode_false)"
  },
  {
   "property": "C24",
   "status": "proved",
   "theorems": [
    "ProxNLP.C24_hessian_symmetric",
    "ProxNLP.C24_hessian_value",
    "ProxNLP.C24_symmetric",
    "ProxNLP.C24_inertia_iff",
    "ProxNLP.C24_inertia"
   ],
   "note": "inertia characterised exactly by the reduced Hessian (iff)"
  },
  {
   "property": "C25",
   "status": "proved",
   "theorems": [
    "ProxNLP.C25_regularisation_loop",
    "ProxNLP.C25_negative_init_false",
    "ProxNLP.C25_init_above_max",
    "ProxNLP.C25_factor_one_false"
   ],
   "note": "any backend signature with entries in {-1,0,1}; needs DELTA_INIT>=0 and factors>1 (witnesses C25_negative_init_false, C25_factor_one_false); exact arithmetic"
  },
  {
   "property": "C26",
   "status": "proved",
   "theorems": [
    "ProxNLP.C26_inertia_tuple",
    "ProxNLP.C26_inertia_tuple_rejects",
    "ProxNLP.C26_counts_add_up",
    "ProxNLP.C26_check_inertia"
   ],
   "note": ""
  },
  {
   "property": "C27",
   "status": "proved",
   "theorems": [
    "ProxNLP.C27_refinement_sound",
    "ProxNLP.C27_refinement_bounded",
    "ProxNLP.C27_refinement_contracts",
    "ProxNLP.C27_refinement_converges",
    "ProxNLP.C27_refinement_exact",
    "ProxNLP.C27_regularised_step_false"
   ],
   "note": "also: with a regularised factorisation the refinement converges to the unregularised step (C27_regularised_step_false)"
  },
  {
   "property": "C28",
   "status": "proved",
   "theorems": [
    "ProxNLP.C28_alpha_range",
    "ProxNLP.C28_trials_in_unit_interval"
   ],
   "note": "every phi, throwing or not; singular cubic systems only assumed to go through the safeguard"
  },
  {
   "property": "C29",
   "status": "partial",
   "theorems": [
    "ProxNLP.C29_value_total",
    "ProxNLP.C29_value_partial",
    "ProxNLP.C29_value_false_all_throw",
    "ProxNLP.C29_value_false_cubic"
   ],
   "note": "holds for bisection/quadratic when phi throws at most on longer steps; false when all trials throw, when a main-loop trial throws, or with NaN cubic steps (witness theorems)"
  },
  {
   "property": "C30",
   "status": "partial",
   "theorems": [
    "ProxNLP.C30_armijo_or_exit",
    "ProxNLP.C30_armijo_partial",
    "ProxNLP.C30_armijo_false"
   ],
   "note": "full for the returned value; for phi(alpha) itself under the conditions of C29_value_partial; C30_armijo_false shows the general claim fails"
  },
  {
   "property": "C31",
   "status": "partial",
   "theorems": [
    "ProxNLP.C31_quadratic_interpolates",
    "ProxNLP.C31_quadratic_minimises_partial",
    "ProxNLP.C31_quadratic_minimises_false",
    "ProxNLP.C31_cubic_actual",
    "ProxNLP.C31_cubic_interpolates_iff",
    "ProxNLP.C31_cubic_interpolates_false",
    "ProxNLP.C31_cubic_minimises_partial",
    "ProxNLP.C31_cubic_minimises_false"
   ],
   "note": "quadratic interpolates; minimises for nonpositive slope; the cubic system has exchanged right-hand sides so the cubic claim is false (C31_cubic_actual says what it computes)"
  },
  {
   "property": "C32",
   "status": "proved",
   "theorems": [
    "ProxNLP.C32_terminates_bound",
    "ProxNLP.C32_terminates"
   ],
   "note": ""
  },
  {
   "property": "C33",
   "status": "proved",
   "theorems": [
    "ProxNLP.C33_evaluate",
    "ProxNLP.C33_derivative",
    "ProxNLP.C33_derivative_empty"
   ],
   "note": "empty coefficient vector is undefined (C33_derivative_empty)"
  },
  {
   "property": "C34",
   "status": "proved",
   "theorems": [
    "ProxNLP.C34_secant"
   ],
   "note": ""
  },
  {
   "property": "C35",
   "status": "proved",
   "theorems": [
    "ProxNLP.C35_spd",
    "ProxNLP.C35_runs",
    "ProxNLP.C35_skip"
   ],
   "note": ""
  },
  {
   "property": "C36",
   "status": "proved",
   "theorems": [
    "ProxNLP.C36_first_update",
    "ProxNLP.C36_default_throws",
    "ProxNLP.C36_reference_is_previous",
    "ProxNLP.C36_update_after_history"
   ],
   "note": ""
  },
  {
   "property": "C37",
   "status": "proved",
   "theorems": [
    "ProxNLP.C37_weighted_sum",
    "ProxNLP.C37_expression",
    "ProxNLP.C37_iadd",
    "ProxNLP.C37_addComponent",
    "ProxNLP.C37_iaddSum",
    "ProxNLP.C37_imul",
    "ProxNLP.C37_iadd_self_false",
    "ProxNLP.C37_iaddSum_self_false",
    "ProxNLP.C37_move_changes_operand_false"
   ],
   "note": "Heap of shared cost objects; any nesting of operators by induction over the expression; aliasing failures recorded"
  },
  {
   "property": "C38",
   "status": "partial",
   "theorems": [
    "ProxNLP.C38_after_call_partial",
    "ProxNLP.C38_value",
    "ProxNLP.C38_history_false",
    "ProxNLP.C38_hessian_history_false"
   ],
   "note": "False in general: stale err (witnesses); proved for every history whose last call was at x"
  },
  {
   "property": "C39",
   "status": "proved",
   "theorems": [
    "ProxNLP.C39_gradient",
    "ProxNLP.C39_hessian",
    "ProxNLP.C39_gauss_newton_psd",
    "ProxNLP.C39_asymmetric_false"
   ],
   "note": "Fréchet derivative over the reals, manifold retraction for the gradient; asymmetric weights shown to fail"
  },
  {
   "property": "C40",
   "status": "partial",
   "theorems": [
    "ProxNLP.C40_rejects",
    "ProxNLP.C40_value_jacobian",
    "ProxNLP.C40_chain_rule",
    "ProxNLP.C40_vhp_false",
    "ProxNLP.C40_vhp_partial",
    "ProxNLP.C40_jacobian_defined_false"
   ],
   "note": "value, chain rule and rejection proved; vector-Hessian product false (witness), right for affine functions"
  },
  {
   "property": "C41",
   "status": "proved",
   "theorems": [
    "ProxNLP.C41_quadratic_cost_false",
    "ProxNLP.C41_closed_form",
    "ProxNLP.C41_jacobian_exact",
    "ProxNLP.C41_vhp_exact",
    "ProxNLP.C41_partial_is_derivative",
    "ProxNLP.C41_converges",
    "ProxNLP.C41_cubic_false"
   ],
   "note": "For functions whose Jacobian does not depend on earlier calls; C41_quadratic_cost_false: the finite-difference Hessian of a QuadraticResidualCost (TOC2) misses the term J^T W J, because the Jacobian is requested without an evaluation at the same point."
  },
  {
   "property": "C42",
   "status": "partial",
   "theorems": [
    "ProxNLP.C42_cost_as_function",
    "ProxNLP.C42_function_as_cost_rejects",
    "ProxNLP.C42_function_as_cost",
    "ProxNLP.C42_roundtrip",
    "ProxNLP.C42_roundtrip_function",
    "ProxNLP.C42_python_partial",
    "ProxNLP.C42_python_false"
   ],
   "note": "C++ adapters proved; the Python class CostFromFunction does not check the number of outputs (C42_python_false), proved for one output (C42_python_partial)."
  },
  {
   "property": "C43",
   "status": "partial",
   "theorems": [
    "ProxNLP.C43_vector_space_laws",
    "ProxNLP.C43_interpolation",
    "ProxNLP.C43_jacobians",
    "ProxNLP.C43_jdifference_rejects",
    "ProxNLP.C43_jintegrate_rejects_false"
   ],
   "note": "laws, interpolation, Jacobians and Jdifference rejection proved for every dimension; C43_jintegrate_rejects_false: Jintegrate accepts any argument position"
  },
  {
   "property": "C44",
   "status": "proved",
   "theorems": [
    "ProxNLP.C44_dims",
    "ProxNLP.C44_product_laws",
    "ProxNLP.C44_interpolation",
    "ProxNLP.C44_jacobians_block_diagonal"
   ],
   "note": "products of any list of lawful manifolds, nested included; Jacobians block diagonal"
  },
  {
   "property": "C45",
   "status": "partial",
   "theorems": [
    "ProxNLP.C45_split_merge_inverse",
    "ProxNLP.C45_split_rejects",
    "ProxNLP.C45_merge_rejects_false"
   ],
   "note": "split/merge inverse and split rejection proved; C45_merge_rejects_false: merge silently drops extra blocks"
  },
  {
   "property": "C46",
   "status": "partial",
   "theorems": [
    "ProxNLP.C46_normalized_partial",
    "ProxNLP.C46_always_true",
    "ProxNLP.C46_is_normalized_false"
   ],
   "note": "C46_always_true / C46_is_normalized_false: the code always answers true; only the direction all-normalized => true holds"
  },
  {
   "property": "C47",
   "status": "partial",
   "theorems": [
    "ProxNLP.C47_order_partial",
    "ProxNLP.C47_plain_times_product_false",
    "ProxNLP.C47_product_times_product_false",
    "ProxNLP.C47_nested_product_same",
    "ProxNLP.C47_python_chain_partial",
    "ProxNLP.C47_python_grouped_false"
   ],
   "note": "C47_plain_times_product_false: plain*product swaps the factors; C47_product_times_product_false under the initializer-list reading (C47_nested_product_same: operations unaffected); in Python chains keep the order (C47_python_chain_partial) and a*(b*c) does not (C47_python_grouped_false)"
  },
  {
   "property": "C48",
   "status": "proved",
   "theorems": [
    "ProxNLP.C48_dims",
    "ProxNLP.C48_bundle_laws",
    "ProxNLP.C48_jacobians"
   ],
   "note": ""
  },
  {
   "property": "C49",
   "status": "partial",
   "theorems": [
    "ProxNLP.C49_interpolation_partial",
    "ProxNLP.C49_interpolation_false"
   ],
   "note": "C49_interpolation_false: velocity part is taken from the base coordinates; base part proved"
  },
  {
   "property": "C50",
   "status": "proved",
   "theorems": [
    "ProxNLP.C50_transpose",
    "ProxNLP.C50_add",
    "ProxNLP.C50_mul",
    "ProxNLP.C50_laws",
    "ProxNLP.C50_least"
   ],
   "note": "Soundness, laws and minimality of the kind algebra for all block sizes."
  },
  {
   "property": "C51",
   "status": "proved",
   "theorems": [
    "ProxNLP.C51_succeeds",
    "ProxNLP.C51_fill_in",
    "ProxNLP.C51_failure",
    "ProxNLP.C51_shape"
   ],
   "note": "Fill-in soundness, success and failure criteria for every number and size of blocks."
  },
  {
   "property": "C52",
   "status": "proved",
   "theorems": [
    "ProxNLP.C52_first_best",
    "ProxNLP.C52_succeeds"
   ],
   "note": "Termination within n! passes, optimality, first in lexicographic order, behaviour on failure."
  },
  {
   "property": "C53",
   "status": "proved",
   "theorems": [
    "ProxNLP.C53_rows",
    "ProxNLP.C53_pattern",
    "ProxNLP.C53_solve"
   ],
   "note": "Row bijection, permuted pattern, solve in permuted coordinates."
  },
  {
   "property": "C54",
   "status": "partial",
   "theorems": [
    "ProxNLP.C54_first_analysis_partial",
    "ProxNLP.C54_first_permutation_partial",
    "ProxNLP.C54_analyze_idempotent_partial",
    "ProxNLP.C54_second_analysis_false"
   ],
   "note": "False for a second call (C54_second_analysis_false). Proved for the first call on a fresh object, and idempotence of analyzePattern."
  },
  {
   "property": "C55",
   "status": "proved",
   "theorems": [
    "ProxNLP.C55_factorises",
    "ProxNLP.C55_finds_factorisation",
    "ProxNLP.C55_solves",
    "ProxNLP.C55_solves_singular",
    "ProxNLP.C55_reconstructs",
    "ProxNLP.C55_compute_solve",
    "ProxNLP.C55_info_false"
   ],
   "note": "exact arithmetic; compute finds the unique factorisation, solve and reconstruct; also C55_info_false: Success is reported without a check"
  },
  {
   "property": "C56",
   "status": "partial",
   "theorems": [
    "ProxNLP.C56_block_sign_false",
    "ProxNLP.C56_fresh_partial",
    "ProxNLP.C56_semidefinite_sound_partial",
    "ProxNLP.C56_sign_false"
   ],
   "note": "false under reuse of the object (C56_sign_false) and for the block factorisation (C56_block_sign_false); proved for a fresh dense object, and semi-definite reports are always sound there"
  },
  {
   "property": "C57",
   "status": "partial",
   "theorems": [
    "ProxNLP.C57_block_inertia",
    "ProxNLP.C57_block_verdict",
    "ProxNLP.C57_bk_inertia",
    "ProxNLP.C57_bk_inertia_exact",
    "ProxNLP.C57_bk_verdict",
    "ProxNLP.C57_bk_verdict_small",
    "ProxNLP.C57_bk_threshold_false",
    "ProxNLP.C57_bk_blocked_false",
    "ProxNLP.C57_ldlt_inertia",
    "ProxNLP.C57_ldlt_verdict"
   ],
   "note": "Proved for LDLT, for the block LDLT, and for Bunch-Kaufman whenever the factorisation succeeds and no 2x2 block falls under the threshold (always when the threshold is zero). The full statement is false for Bunch-Kaufman: C57_bk_threshold_false (threshold on the determinant of the inverse block) and C57_bk_blocked_false (failure above block size 32 leaves no zero, a singular matrix is accepted)."
  },
  {
   "property": "C58",
   "status": "proved",
   "theorems": [
    "ProxNLP.C58_compute_total",
    "ProxNLP.C58_factorises",
    "ProxNLP.C58_solves",
    "ProxNLP.C58_success_iff"
   ],
   "note": "Both the unblocked and the blocked routine; success is reported exactly for nonsingular matrices (exact arithmetic)."
  },
  {
   "property": "C59",
   "status": "partial",
   "theorems": [
    "ProxNLP.C59_adds_product_partial",
    "ProxNLP.C59_reads_only_kind",
    "ProxNLP.C59_diag_triU_false",
    "ProxNLP.C59_length_checks",
    "ProxNLP.C59_checked_adds_product"
   ],
   "note": "All kind pairs but (Diag, TriU) of size at least 2, where the code is wrong (C59_diag_triU_false); in builds with Eigen assertions Diag times a triangular kind aborts (C59_length_checks)."
  },
  {
   "property": "C60",
   "status": "proved",
   "theorems": [
    "ProxNLP.C60_solves",
    "ProxNLP.C60_flag",
    "ProxNLP.C60_gemm_irrelevant",
    "ProxNLP.C60_wrong_triangle_false"
   ],
   "note": "Lower, unit lower, upper and unit upper modes, any number of right-hand sides, both product paths; the other triangular kind on the diagonal is silently ignored (C60_wrong_triangle_false)."
  },
  {
   "property": "C61",
   "status": "partial",
   "theorems": [
    "ProxNLP.C61_factorises_partial",
    "ProxNLP.C61_finds_partial",
    "ProxNLP.C61_success",
    "ProxNLP.C61_factorises",
    "ProxNLP.C61_finds",
    "ProxNLP.C61_solves_partial",
    "ProxNLP.C61_solves",
    "ProxNLP.C61_reconstructs",
    "ProxNLP.C61_diag_triU_false",
    "ProxNLP.C61_triL_fails"
   ],
   "note": "L D L^T = P^T A P, exact solve and reconstruction proved for every structure whose off-diagonal blocks are zero, diagonal or dense (all sizes, orders; includes every structure the library builds), and for general structures under FactorFits. Full statement is false for structures with triangular off-diagonal blocks: C61_diag_triU_false, C61_triL_fails."
  },
  {
   "property": "C62",
   "status": "partial",
   "theorems": [
    "ProxNLP.C62_step",
    "ProxNLP.C62_value_semantics",
    "ProxNLP.C62_std_allocator",
    "ProxNLP.C62_no_leak",
    "ProxNLP.C62_copies_independent",
    "ProxNLP.C62_move_allocator_false",
    "ProxNLP.C62_list_false",
    "ProxNLP.C62_terminate_example"
   ],
   "note": "Proved for every history with std::allocator (the library's only use) and for general allocators, with exceptions. False only for the allocator-extended move constructor with an allocator that propagates on copy assignment (C62_move_allocator_false) and for the initializer-list constructor with U != T (C62_list_false)."
  },
  {
   "property": "C63",
   "status": "partial",
   "theorems": [
    "ProxNLP.C63_step",
    "ProxNLP.C63_separate_partial",
    "ProxNLP.C63_leaks_exactly",
    "ProxNLP.C63_copies_independent_partial",
    "ProxNLP.C63_no_leak_partial",
    "ProxNLP.C63_copy_equivalent",
    "ProxNLP.C63_assign_false",
    "ProxNLP.C63_assign_aliases_false",
    "ProxNLP.C63_leak_false",
    "ProxNLP.C63_copy_sign_false"
   ],
   "note": "Histories of construction, copy construction, analysis and destruction: no array is used or deleted when not alive, objects are independent values, leaks counted exactly; no leak if no analysis runs. False with assignment (double delete, aliasing) and for leaks once an analysis runs."
  },
  {
   "property": "C64",
   "status": "partial",
   "theorems": [
    "ProxNLP.C64_snapshots_partial",
    "ProxNLP.C64_views_show_current",
    "ProxNLP.C64_views_false",
    "ProxNLP.C64_dangling_false",
    "ProxNLP.C64_undefined_false",
    "ProxNLP.C64_values_false"
   ],
   "note": "One entry per invocation and every quantity stored by value is the snapshot at that invocation. False for the multiplier views (alias solver memory, dangling after setup) and undefined on empty line-search vectors, which the library never fills."
  },
  {
   "property": "C65",
   "status": "partial",
   "theorems": [
    "ProxNLP.C65_rho_closed_form",
    "ProxNLP.C65_prox_centre_partial",
    "ProxNLP.C65_prox_centre_false"
   ],
   "note": "false for the first outer iteration (C65_prox_centre_false); proved for all later ones"
  },
  {
   "property": "C66",
   "status": "proved",
   "theorems": [
    "ProxNLP.C66_largest_entry",
    "ProxNLP.C66_norm",
    "ProxNLP.C66_list",
    "ProxNLP.C66_append",
    "ProxNLP.C66_check",
    "ProxNLP.C66_close"
   ],
   "note": "Vectors, lists of vectors, norm axioms, finite-value checks on extended scalars, scalar_close."
  },
  {
   "property": "C67",
   "status": "proved",
   "theorems": [
    "ProxNLP.C67_default_pattern",
    "ProxNLP.C67_sizes",
    "ProxNLP.C67_kkt_has_pattern"
   ],
   "note": "Pattern, sizes, and every KKT matrix has it."
  },
  {
   "property": "C68",
   "status": "partial",
   "theorems": [
    "ProxNLP.C68_descent_primal_dual",
    "ProxNLP.C68_descent_classic_partial",
    "ProxNLP.C68_equality_consistent",
    "ProxNLP.C68_descent_classic_false"
   ],
   "note": "proved in the primal-dual KKT mode from the inertia test; in the classic (default) mode proved when active sets agree, false in general (C68_descent_classic_false)"
  },
  {
   "property": "C69",
   "status": "proved",
   "theorems": [
    "ProxNLP.C69_step_common_length",
    "ProxNLP.C69_iterates_retract",
    "ProxNLP.C69_stays_on_manifold",
    "ProxNLP.C69_estimates_of_one_point",
    "ProxNLP.C69_estimates_accepted"
   ],
   "note": ""
  },
  {
   "property": "C70",
   "status": "proved",
   "theorems": [
    "ProxNLP.C70_newton_step"
   ],
   "note": ""
  },
  {
   "property": "C71",
   "status": "proved",
   "theorems": [
    "ProxNLP.C71_merit_decreases"
   ],
   "note": ""
  },
  {
   "property": "C72",
   "status": "proved",
   "theorems": [
    "ProxNLP.C72_step_returns",
    "ProxNLP.C72_solve_returns"
   ],
   "note": "In exact arithmetic; the user's functions are assumed not to throw."
  },
  {
   "property": "C73",
   "status": "proved",
   "theorems": [
    "ProxNLP.C73_linear_function"
   ],
   "note": "Exact arithmetic; all sizes."
  },
  {
   "property": "C74",
   "status": "proved",
   "theorems": [
    "ProxNLP.C74_transport_blockwise",
    "ProxNLP.C74_bundle_transport"
   ],
   "note": ""
  },
  {
   "property": "C75",
   "status": "proved",
   "theorems": [
    "ProxNLP.C75_count_nnz",
    "ProxNLP.C75_rectangular_false"
   ],
   "note": "Proved under the squareness condition of the statement; C75_rectangular_false shows the condition is needed."
  },
  {
   "property": "C76",
   "status": "partial",
   "theorems": [
    "ProxNLP.C76_check_symmetric_partial",
    "ProxNLP.C76_check_symmetric_false"
   ],
   "note": "False as stated (C76_check_symmetric_false): the routine compares kinds without transposing triangular ones. Partial: exact when no off-diagonal block is triangular."
  },
  {
   "property": "C77",
   "status": "proved",
   "theorems": [
    "ProxNLP.C77_allocation"
   ],
   "note": "For every nonempty lists of sizes."
  },
  {
   "property": "C78",
   "status": "proved",
   "theorems": [
    "ProxNLP.C78_block_kkt",
    "ProxNLP.C78_factorisation_exists",
    "ProxNLP.C78_kkt_pivots"
   ],
   "note": "quasi-definite matrices, any permutation; C78_block_kkt carries it to the allocated block solver"
  },
  {
   "property": "C79",
   "status": "proved",
   "theorems": [
    "ProxNLP.C79_bk_threshold",
    "ProxNLP.C79_bk",
    "ProxNLP.C79_bk_exact",
    "ProxNLP.C79_dense",
    "ProxNLP.C79_block",
    "ProxNLP.C79_proxsuite",
    "ProxNLP.C79_exact",
    "ProxNLP.C79_newton_step",
    "ProxNLP.C79_merit_decreases",
    "ProxNLP.C79_identity"
   ],
   "note": "The three linear solvers of the library in full; ProxSuite's LDLT, which is external, under its contract (C79_proxsuite); Eigen's own LDLT is external."
  },
  {
   "property": "C80",
   "status": "proved",
   "theorems": [
    "ProxNLP.C80_solution_exists",
    "ProxNLP.C80_solution_minimises",
    "ProxNLP.C80_converges",
    "ProxNLP.C80_success_false",
    "ProxNLP.C80_room_needed",
    "ProxNLP.C80_defaults",
    "ProxNLP.C80_defaults_converge"
   ],
   "note": "C80_converges, C80_defaults_converge (real numbers, default settings). C80_success_false and C80_room_needed show that the exception for a residual equal to target_tol and the hypothesis room cannot be dropped."
  },
  {
   "property": "C81",
   "status": "partial",
   "theorems": [
    "ProxNLP.C81_value",
    "ProxNLP.C81_rigid",
    "ProxNLP.C81_jacobian",
    "ProxNLP.C81_vhp_false",
    "ProxNLP.C81_rigid_unnormalised_false"
   ],
   "note": "Value, rigidity and Jacobian proved on all of SE(3). The vector-Hessian product part fails (C81_vhp_false) and the quaternion norm is not checked (C81_rigid_unnormalised_false)."
  },
  {
   "property": "C82",
   "status": "partial",
   "theorems": [
    "ProxNLP.C82_solves",
    "ProxNLP.C82_solves_singular",
    "ProxNLP.C82_reconstructs",
    "ProxNLP.C82_inertia",
    "ProxNLP.C82_verdict",
    "ProxNLP.C82_sign_false"
   ],
   "note": "Solve, reconstruction and inertia proved for every correct external factorisation; the reported sign is never written (C82_sign_false)."
  },
  {
   "property": "C83",
   "status": "proved",
   "theorems": [
    "ProxNLP.C83_step_decreases",
    "ProxNLP.C83_inner_loop_ends",
    "ProxNLP.C83_solve_ends",
    "ProxNLP.C83_quadratic_programs",
    "ProxNLP.C83_search_budget",
    "ProxNLP.C83_threshold_false"
   ],
   "note": "C83_step_decreases, C83_inner_loop_ends (number of steps bounded by the merit gap), C83_solve_ends (result independent of max_iters, never MAX_ITERS_REACHED), C83_quadratic_programs (strictly convex QPs with any built-in sets are in the class), C83_search_budget; C83_threshold_false: with the default dphi_thresh the run can cycle for ever"
  },
  {
   "property": "C84",
   "status": "proved",
   "theorems": [
    "ProxNLP.C84_residuals_bound_suboptimality",
    "ProxNLP.C84_success_bounds_suboptimality",
    "ProxNLP.C84_primal_dual_doubles_l1",
    "ProxNLP.C84_small_penalty_false",
    "ProxNLP.C84_warm_start_false"
   ],
   "note": "C84_residuals_bound_suboptimality, C84_success_bounds_suboptimality; C84_small_penalty_false (L1 penalty with the primal-dual KKT system: SUCCESS at x=2 instead of the minimiser 1), C84_warm_start_false (SUCCESS at a warm start that is not optimal), C84_primal_dual_doubles_l1 (cause)"
  },
  {
   "property": "C85",
   "status": "proved",
   "theorems": [
    "ProxNLP.C85_solution_minimises",
    "ProxNLP.C85_residuals_bound_distance",
    "ProxNLP.C85_converges"
   ],
   "note": "C85_converges (exception: a residual exactly equal to target_tol, as in C80_success_false), C85_solution_minimises, C85_residuals_bound_distance; the conditions on the settings are explicit (ConvexConvergence) and stronger than the defaults"
  },
  {
   "property": "C86",
   "status": "proved",
   "theorems": [
    "ProxNLP.C86_vector_space",
    "ProxNLP.C86_product",
    "ProxNLP.C86_bundle"
   ],
   "note": "Pinocchio groups are not modelled: for them the component hypothesis is an assumption"
  },
  {
   "property": "C87",
   "status": "partial",
   "theorems": [
    "ProxNLP.C87_constructor",
    "ProxNLP.C87_values_partial",
    "ProxNLP.C87_gradient_partial",
    "ProxNLP.C87_copies_share",
    "ProxNLP.C87_copies_share_false",
    "ProxNLP.C87_target_check_false"
   ],
   "note": "copies share the target with the original (C87_copies_share, C87_copies_share_false) and the target check can be bypassed (C87_target_check_false); proved for programs without copies"
  },
  {
   "property": "C88",
   "status": "proved",
   "theorems": [
    "ProxNLP.C88_vector_space",
    "ProxNLP.C88_product",
    "ProxNLP.C88_bundle"
   ],
   "note": "C88_vector_space, C88_product, C88_bundle"
  },
  {
   "property": "C89",
   "status": "proved",
   "theorems": [
    "ProxNLP.C89_laws",
    "ProxNLP.C89_phase_space",
    "ProxNLP.C89_is_normalized",
    "ProxNLP.C89_transport",
    "ProxNLP.C89_bad_position_false",
    "ProxNLP.C89_jacobians"
   ],
   "note": "C89_laws, C89_is_normalized, C89_transport, C89_jacobians relative to Pinocchio's functions; so2_laws and so2_jacobians show the hypotheses hold for SO(2). C89_bad_position_false: argument positions other than 0 and 1 are silently ignored"
  },
  {
   "property": "C90",
   "status": "partial",
   "theorems": [
    "ProxNLP.C90_values_partial",
    "ProxNLP.C90_iadd_partial",
    "ProxNLP.C90_alias_false",
    "ProxNLP.C90_added_sum_false",
    "ProxNLP.C90_self_false"
   ],
   "note": "C90_alias_false, C90_added_sum_false, C90_self_false: shared sums changed in place are seen inconsistently; C90_values_partial for every program that changes only objects no other name sees (all programs without in-place statements), C90_iadd_partial for one += in any state"
  },
  {
   "property": "C91",
   "status": "partial",
   "theorems": [
    "ProxNLP.C91_returned_point_partial",
    "ProxNLP.C91_active_set_partial",
    "ProxNLP.C91_violations",
    "ProxNLP.C91_stale_false",
    "ProxNLP.C91_active_set_false"
   ],
   "note": "Value, violations (as maximum and per constraint) and dual residual proved for every return not due to the step budget; active set proved to match the workspace's multiplier estimate, and the returned multipliers in mode PRIMAL. False with MAX_ITERS_REACHED (values of the previous point) and, for the active set, for the returned multipliers in the default mode (witnesses with the library's own factorisation)."
  },
  {
   "property": "C92",
   "status": "partial",
   "theorems": [
    "ProxNLP.C92_values_partial",
    "ProxNLP.C92_copy_blocks_false",
    "ProxNLP.C92_assign_false",
    "ProxNLP.C92_from_copy_false"
   ],
   "note": "Proved for data_lams_opt and x_opt (and the like) in all programs that do not assign to or from copies, and for the blocks lams_opt of objects that are not copies. False for lams_opt of copies: the copied Eigen::Ref still point into the original's buffer (changed by later solves, dangling after destruction, written through by assignment)."
  },
  {
   "property": "C93",
   "status": "partial",
   "theorems": [
    "ProxNLP.C93_linesearch",
    "ProxNLP.C93_stall",
    "ProxNLP.C93_newton_point_partial",
    "ProxNLP.C93_default_false"
   ],
   "note": "full statement is false: C93_default_false (defaults, any library linear solver, budgets 3..30000); C93_stall and C93_linesearch prove the mechanism in general; positive part C93_newton_point_partial; for the primal-dual system see C83 and C85"
  },
  {
   "property": "C94",
   "status": "partial",
   "theorems": [
    "ProxNLP.C94_careful_partial",
    "ProxNLP.C94_temporary_problem_false",
    "ProxNLP.C94_temporary_function_false",
    "ProxNLP.C94_setup_again_false",
    "ProxNLP.C94_manifold_false",
    "ProxNLP.C94_results_outlive_solver"
   ],
   "note": "full statement is false: C94_temporary_problem_false, C94_temporary_function_false, C94_setup_again_false, C94_manifold_false; C94_careful_partial: programs following the rules of Spec/Lifetimes never use a destroyed object; C94_results_outlive_solver"
  },
  {
   "property": "C95",
   "status": "partial",
   "theorems": [
    "ProxNLP.C95_own_weight_partial",
    "ProxNLP.C95_stale_false",
    "ProxNLP.C95_dangling_false"
   ],
   "note": "full statement is false for moved solvers: C95_stale_false, C95_dangling_false; C95_own_weight_partial: every solver obtained from the constructor uses its own weight, after any operations on any solvers"
  },
  {
   "property": "C96",
   "status": "partial",
   "theorems": [
    "ProxNLP.C96_table_partial",
    "ProxNLP.C96_quiet_partial",
    "ProxNLP.C96_quiet_false",
    "ProxNLP.C96_reenable_false"
   ],
   "note": "full statement is false: C96_quiet_false (quiet solves print), C96_reenable_false (a quiet solve disables the table for good); C96_table_partial: the table, for histories without quiet solves; C96_quiet_partial: what the others print"
  },
  {
   "property": "C97",
   "status": "partial",
   "theorems": [
    "ProxNLP.C97_sequential",
    "ProxNLP.C97_quiet_callbacks_partial",
    "ProxNLP.C97_nested_partial",
    "ProxNLP.C97_plain_sets_partial",
    "ProxNLP.C97_nested_false"
   ],
   "note": "C97_sequential: any sequence of solves by any solvers gives what each solver would have given alone. Inside one solve the sharing shows through callbacks: C97_nested_false exhibits a problem (x²/2 + |x−3|) on which a callback that runs a second solver with another penalty makes the first report SUCCESS at a point that is not a solution. The certificate survives callbacks that leave the sets alone, nested solvers with the same constant penalty, and sets whose projection does not depend on the penalty."
  },
  {
   "property": "C98",
   "status": "partial",
   "theorems": [
    "ProxNLP.C98_arithmetic",
    "ProxNLP.C98_success_finite_partial",
    "ProxNLP.C98_certificate",
    "ProxNLP.C98_rejects",
    "ProxNLP.C98_bad_step",
    "ProxNLP.C98_bad_matrix",
    "ProxNLP.C98_agrees",
    "ProxNLP.C98_value_false",
    "ProxNLP.C98_order_false"
   ],
   "note": "Gradient, Jacobian, constraint values and certificate at a SUCCESS point; rejection of bad data at the start; agreement with the finite model. False for the cost value (NaN accepted) and for -∞ values of inequalities (order dependence)."
  },
  {
   "property": "C99",
   "status": "partial",
   "theorems": [
    "ProxNLP.C99_projection",
    "ProxNLP.C99_normal",
    "ProxNLP.C99_active",
    "ProxNLP.C99_half_line",
    "ProxNLP.C99_no_bounds",
    "ProxNLP.C99_crossed_false",
    "ProxNLP.C99_nan_bound_false",
    "ProxNLP.C99_agrees",
    "ProxNLP.C99_crossed_success_false"
   ],
   "note": "Infinite bounds: projection, normal cone, active set, masks, special cases proved. False for crossing bounds (treated as equality with the lower bound, SUCCESS on an infeasible problem) and NaN bounds (ignored)."
  },
  {
   "property": "C100",
   "status": "proved",
   "theorems": [
    "ProxNLP.C100_certified",
    "ProxNLP.C100_suboptimality",
    "ProxNLP.C100_success_rounded",
    "ProxNLP.C100_feasible",
    "ProxNLP.C100_backward",
    "ProxNLP.C100_recognised",
    "ProxNLP.C100_reported",
    "ProxNLP.C100_exact_arithmetic",
    "ProxNLP.C100_factor",
    "ProxNLP.C100_ieee",
    "ProxNLP.C100_exact_false"
   ],
   "note": "C100_success_rounded (mode NEWTON), C100_feasible (any mode), C100_backward (exact for slightly perturbed derivatives), C100_recognised, C100_reported, C100_factor (size of the error), for every rounding and every order of summation; C100_certified and C100_suboptimality carry this over to the true residuals and the objective of convex problems when user functions are accurate to a given bound; C100_exact_false is the last part of the statement, in IEEE double arithmetic. No overflow (that is C98)."
  },
  {
   "property": "C101",
   "status": "proved",
   "theorems": [
    "ProxNLP.C101_alpha_range",
    "ProxNLP.C101_terminates",
    "ProxNLP.C101_armijo",
    "ProxNLP.C101_decrease",
    "ProxNLP.C101_full_step",
    "ProxNLP.C101_ieee",
    "ProxNLP.C101_double",
    "ProxNLP.C101_exact_arithmetic",
    "ProxNLP.C101_accepts_false"
   ],
   "note": "Range, termination, Armijo inequality up to one explicit slack, real decrease, immediate acceptance of a clear full step, IEEE instance (C101_ieee, C101_double), agreement with the exact model (C101_exact_arithmetic). C101_accepts_false records the limit: steps meeting the inequality by less than the rounding of the merit values are refused, e.g. 2^60 - a/2."
  },
  {
   "property": "C102",
   "status": "partial",
   "theorems": [
    "ProxNLP.C102_penalty_range_partial",
    "ProxNLP.C102_tolerances",
    "ProxNLP.C102_tolerance_values",
    "ProxNLP.C102_tolerances_decrease",
    "ProxNLP.C102_reaches_floor",
    "ProxNLP.C102_penalty_decreases",
    "ProxNLP.C102_positive_false",
    "ProxNLP.C102_cycle"
   ],
   "note": "C102_penalty_range_partial, C102_tolerances, C102_tolerances_decrease, C102_penalty_decreases, C102_reaches_floor, C102_cycle cover all but the last sentence. Missing: that sentence, which is false for mu_lower = 0 (C102_positive_false); for mu_lower > 0 it follows from C102_penalty_range_partial."
  },
  {
   "property": "C103",
   "status": "partial",
   "theorems": [
    "ProxNLP.C103_normal_cone",
    "ProxNLP.C103_multiplier_cone",
    "ProxNLP.C103_multiplier_error",
    "ProxNLP.C103_pdal_error",
    "ProxNLP.C103_l1_bound_partial",
    "ProxNLP.C103_projection",
    "ProxNLP.C103_flags",
    "ProxNLP.C103_decomposition",
    "ProxNLP.C103_soft_threshold",
    "ProxNLP.C103_l1_bound_false"
   ],
   "note": "Full statement proved except the bound on L1 multipliers, which is false in double precision (C103_l1_bound_false: multiplier 0 at a nonzero value, or above 5/4); C103_l1_bound_partial gives the bound up to the error of the estimate."
  },
  {
   "property": "C104",
   "status": "proved",
   "theorems": [
    "ProxNLP.C104_central",
    "ProxNLP.C104_jacobian",
    "ProxNLP.C104_vhp",
    "ProxNLP.C104_rounded",
    "ProxNLP.C104_large_point_false"
   ],
   "note": "C104_large_point_false: the step is absolute, at 2^30 with a step of 2^-27 the computed derivative of the identity is 0."
  },
  {
   "property": "C105",
   "status": "partial",
   "theorems": [
    "ProxNLP.C105_factors",
    "ProxNLP.C105_residual",
    "ProxNLP.C105_positive_pivots",
    "ProxNLP.C105_sequential",
    "ProxNLP.C105_no_underflow",
    "ProxNLP.C105_small_pivot_false"
   ],
   "note": "C105_factors: entrywise error of the factors at most 3 nu u |L||D||L^T|; C105_residual: residual at most 12 nu u |L||D||L^T||x|; C105_positive_pivots: with positive computed pivots the residual is at most 20 nu u max_k A_kk sum_j |x_j| (no growth factor). nu = (d+2) l + d + 4 with d roundings per term and n <= 128 2^l. Missing: without positive pivots the bound relative to the data is false (C105_small_pivot_false: no pivoting, a KKT matrix with Hessian 2^-60 gives residual 1); underflow is excluded (C105_no_underflow: the rounding used is double rounding on zero and the normal range)."
  },
  {
   "property": "C106",
   "status": "partial",
   "theorems": [
    "ProxNLP.C106_formula",
    "ProxNLP.C106_update",
    "ProxNLP.C106_decision",
    "ProxNLP.C106_quadratic_form",
    "ProxNLP.C106_symmetric",
    "ProxNLP.C106_secant",
    "ProxNLP.C106_history",
    "ProxNLP.C106_plain",
    "ProxNLP.C106_spd_false",
    "ProxNLP.C106_curvature_false"
   ],
   "note": "the update follows the formula up to rounding (entries, quadratic form, symmetry, secant equation, decision); symmetry and positive definiteness themselves are lost in double precision with is_psd set (C106_spd_false), and the curvature test can have the wrong sign (C106_curvature_false)"
  },
  {
   "property": "C107",
   "status": "partial",
   "theorems": [
    "ProxNLP.C107_sound",
    "ProxNLP.C107_bounded",
    "ProxNLP.C107_contracts",
    "ProxNLP.C107_converges",
    "ProxNLP.C107_dense_solver",
    "ProxNLP.C107_absolute_false"
   ],
   "note": "proved up to the rounding error of the residual; without that allowance the claim is false because the tolerance is absolute (C107_absolute_false); contraction and convergence are without underflow"
  },
  {
   "property": "C108",
   "status": "proved",
   "theorems": [
    "ProxNLP.C108_safe",
    "ProxNLP.C108_solve_keeps_shapes",
    "ProxNLP.C108_exact",
    "ProxNLP.C108_setup_exact",
    "ProxNLP.C108_blocks_exact",
    "ProxNLP.C108_append_false",
    "ProxNLP.C108_added_after_setup_false",
    "ProxNLP.C108_removed_after_setup_false",
    "ProxNLP.C108_removed_before_setup_false",
    "ProxNLP.C108_manifold_false",
    "ProxNLP.C108_manifold_norho_false"
   ],
   "note": "Shape-level model: numbers are forgotten, loops controlled by numbers take any number of turns. Every in-order history is safe and keeps all shapes (C108_safe, C108_solve_keeps_shapes); the outcome of a solve, of setup() and of block-wise starting multipliers is characterised in every case (C108_exact, C108_setup_exact, C108_blocks_exact). Writing the public members constraints_ and manifold_ directly is outside the order and shown undefined (C108_append_false, C108_removed_*_false, C108_manifold_false). Functions are assumed to take points of the problem's manifold and sets to have the dimension of their function."
  },
  {
   "property": "C109",
   "status": "partial",
   "theorems": [
    "ProxNLP.C109_disjoint",
    "ProxNLP.C109_separate_partial",
    "ProxNLP.C109_shared_problem_races",
    "ProxNLP.C109_shared_cost_races",
    "ProxNLP.C109_shared_problem_false",
    "ProxNLP.C109_copied_problem_false"
   ],
   "note": "Proved for solvers with problem objects of their own that share no cost object with buffers (every number of threads, every schedule): no race, each solve returns the sequential result. False when the threads share a problem with constraints (setPenalty writes the sets of the shared problem) or when the problems are copies that share a QuadraticResidualCost (its constant members write buffers): always a data race, and already interleavings of whole accesses give SUCCESS at wrong points."
  },
  {
   "property": "C110",
   "status": "partial",
   "theorems": [
    "ProxNLP.C110_flag",
    "ProxNLP.C110_no_false_success",
    "ProxNLP.C110_point",
    "ProxNLP.C110_callbacks",
    "ProxNLP.C110_reuse_partial",
    "ProxNLP.C110_setup",
    "ProxNLP.C110_thrown",
    "ProxNLP.C110_reports_false"
   ],
   "note": "Flag, point, multipliers (mode NEWTON), no false SUCCESS, and reuse (under the conditions of C21) proved for every crash point. False for the reported quantities: after a callback threw, num_iters is one less than the accepted steps and value and residuals are those of the previous point (C110_reports_false)."
  },
  {
   "property": "C111",
   "status": "partial",
   "theorems": [
    "ProxNLP.C111_renaming",
    "ProxNLP.C111_symmetric_backend",
    "ProxNLP.C111_fresh",
    "ProxNLP.C111_constant",
    "ProxNLP.C111_constraint_order",
    "ProxNLP.C111_variable_order",
    "ProxNLP.C111_linear_solver",
    "ProxNLP.C111_grouping",
    "ProxNLP.C111_grouping_solver",
    "ProxNLP.C111_constant_throws_false"
   ],
   "note": "C111_renaming and its instances C111_constraint_order, C111_variable_order, C111_linear_solver for positive definite Hessian blocks and library linear solvers in exact arithmetic; C111_symmetric_backend for any problem if the linear solver itself does not depend on the names; C111_grouping for any problem, option and linear solver, C111_grouping_solver with different library solvers; C111_constant for any problem whose functions do not throw (with functions that throw at every trial the statement is false: C111_constant_throws_false). Missing: problems whose linear systems need regularisation together with different linear solvers or orders (the inertia corrections are the same only if the reported signatures are), rounding."
  },
  {
   "property": "C112",
   "status": "partial",
   "theorems": [
    "ProxNLP.C112_identity",
    "ProxNLP.C112_antisymmetric",
    "ProxNLP.C112_difference",
    "ProxNLP.C112_integrate",
    "ProxNLP.C112_round_trip",
    "ProxNLP.C112_round_trip_exact",
    "ProxNLP.C112_round_trip_false",
    "ProxNLP.C112_step_lost",
    "ProxNLP.C112_step_seen",
    "ProxNLP.C112_interpolate_ends",
    "ProxNLP.C112_interpolate_error",
    "ProxNLP.C112_product_error",
    "ProxNLP.C112_interpolate_same_false",
    "ProxNLP.C112_product_end_false"
   ],
   "note": "proved; interpolation between equal points, the far end of interpolation in a product of vector spaces and the exact round trip are false (C112_interpolate_same_false, C112_product_end_false, C112_round_trip_false). Overflow is not modelled."
  },
  {
   "property": "C113",
   "status": "partial",
   "theorems": [
    "ProxNLP.C113_infeasible",
    "ProxNLP.C113_farkas",
    "ProxNLP.C113_unbounded",
    "ProxNLP.C113_wrong_sign_false",
    "ProxNLP.C113_infeasible_course"
   ],
   "note": "proved with the stated margins (C113_infeasible, C113_farkas, C113_unbounded, C113_infeasible_course); without the margin an unbounded problem is reported as solved from a warm start of the wrong sign when the penalty is below the tolerance (C113_wrong_sign_false)"
  },
  {
   "property": "C114",
   "status": "partial",
   "theorems": [
    "ProxNLP.C114_success",
    "ProxNLP.C114_feasible",
    "ProxNLP.C114_rejects",
    "ProxNLP.C114_agrees",
    "ProxNLP.C114_order_false",
    "ProxNLP.C114_recognised_false"
   ],
   "note": "proved if both products of the Jacobian with the multipliers are summed in the same order (C114_order_false otherwise); an exact solution can be rejected because of overflow (C114_recognised_false)"
  },
  {
   "property": "C115",
   "status": "proved",
   "theorems": [
    "ProxNLP.C115_digits",
    "ProxNLP.C115_step",
    "ProxNLP.C115_inner_loop",
    "ProxNLP.C115_solve",
    "ProxNLP.C115_regular"
   ],
   "note": "C115_step, C115_inner_loop (affine equality constraints), C115_solve (unconstrained problems, whole run), C115_digits (closed form of the rate), C115_regular (Lipschitz Hessian over the reals gives the hypotheses). Inequality constraints, curved constraints and the whole run with constraints are not covered by this claim (C80, C83, C93 treat convergence there, without the rate)."
  },
  {
   "property": "C116",
   "status": "partial",
   "theorems": [
    "ProxNLP.C116_derivatives_partial",
    "ProxNLP.C116_no_hessian",
    "ProxNLP.C116_accepts",
    "ProxNLP.C116_single_increment",
    "ProxNLP.C116_rotations_false",
    "ProxNLP.C116_row_false",
    "ProxNLP.C116_missing_methods"
   ],
   "note": "proved on vector spaces for column expressions; false on spaces with nx > ndx = 1 (silent broadcasting gives the derivative along (1,...,1)) and for row expressions (accepted, wrong number of outputs)"
  },
  {
   "property": "C117",
   "status": "proved",
   "theorems": [
    "ProxNLP.C117_functions",
    "ProxNLP.C117_constraint_values",
    "ProxNLP.C117_jacobians",
    "ProxNLP.C117_jacobian_defined",
    "ProxNLP.C117_objective",
    "ProxNLP.C117_sets",
    "ProxNLP.C117_sets_described",
    "ProxNLP.C117_number",
    "ProxNLP.C117_total",
    "ProxNLP.C117_dimensions",
    "ProxNLP.C117_anew",
    "ProxNLP.C117_resolve",
    "ProxNLP.C117_box_change_false",
    "ProxNLP.C117_resize_false"
   ],
   "note": "for every program; two things a user may expect and that are not so are recorded as C117_box_change_false (limits of a box changed after the constraint was made are ignored) and C117_resize_false (parameters of another size are accepted and evaluation then fails); C117_resolve under the conditions of C21_any_state_partial"
  },
  {
   "property": "C118",
   "status": "proved",
   "theorems": [
    "ProxNLP.C118_order",
    "ProxNLP.C118_kept_results",
    "ProxNLP.C118_afterwards",
    "ProxNLP.C118_number",
    "ProxNLP.C118_quadratic_residual"
   ],
   "note": "Order, number of calls and agreement with the model of the other theorems, for objects with arbitrary memory and answers. Not modelled: exceptions in the line search that are not std::runtime_error."
  },
  {
   "property": "C119",
   "status": "partial",
   "theorems": [
    "ProxNLP.C119_settings",
    "ProxNLP.C119_as_new_partial",
    "ProxNLP.C119_ldlt_choice_false",
    "ProxNLP.C119_setters_false",
    "ProxNLP.C119_bfgs_after_setup_false"
   ],
   "note": "Proved for every history with exact or Gauss-Newton Hessian and no proximal term; the linear-solver choice after setup(), the setters and BFGS selected after setup() are proved exceptions."
  },
  {
   "property": "C120",
   "status": "partial",
   "theorems": [
    "ProxNLP.C120_values_partial",
    "ProxNLP.C120_safe_partial",
    "ProxNLP.C120_independent_partial",
    "ProxNLP.C120_no_leak_partial",
    "ProxNLP.C120_relocate_false",
    "ProxNLP.C120_reference_false",
    "ProxNLP.C120_init_args_false"
   ],
   "note": "Exact refinement of plain values for all programs that do not move a wrapped object itself, safety without references to stored values, independence, no leak. The full statement is false: three counterexamples (move constructor, references to stored values, constructors with arguments)."
  },
  {
   "property": "C121",
   "status": "proved",
   "theorems": [
    "ProxNLP.C121_factorise",
    "ProxNLP.C121_copy_permuted",
    "ProxNLP.C121_copy",
    "ProxNLP.C121_transpose",
    "ProxNLP.C121_read",
    "ProxNLP.C121_view",
    "ProxNLP.C121_constructed",
    "ProxNLP.C121_default",
    "ProxNLP.C121_search",
    "ProxNLP.C121_allocation",
    "ProxNLP.C121_stride_false",
    "ProxNLP.C121_uninitialised_false",
    "ProxNLP.C121_index_false"
   ],
   "note": "Under the stated condition on the arrays (rows at least as long as the number of blocks, entries initialised); C121_stride_false, C121_uninitialised_false and C121_index_false show what happens without it. Arrays of different objects do not overlap except for views; isize is unbounded."
  },
  {
   "property": "C122",
   "status": "partial",
   "theorems": [
    "ProxNLP.C122_picture_partial",
    "ProxNLP.C122_tall_false"
   ],
   "note": "False for blocks declared lower triangular with more rows than columns (C122_tall_false: a write beyond the buffer, or into the neighbouring block). Proved for all other patterns."
  },
  {
   "property": "C123",
   "status": "proved",
   "theorems": [
    "ProxNLP.C123_residual",
    "ProxNLP.C123_exact",
    "ProxNLP.C123_dominance_needed"
   ],
   "note": "The solve stage for given stored factors; rounding errors of the factorisation itself are not modelled. C123_dominance_needed shows that the condition on the 2x2 blocks cannot be dropped."
  },
  {
   "property": "C124",
   "status": "proved",
   "theorems": [
    "ProxNLP.C124_growth",
    "ProxNLP.C124_growth_code",
    "ProxNLP.C124_rounded_solve",
    "ProxNLP.C124_residual",
    "ProxNLP.C124_residual_code",
    "ProxNLP.C124_growth_attained"
   ],
   "note": "Bounds for every alpha in (0,1) with 4 alpha^2 <= alpha + 1, then for the constant of the code over the reals; the factors are those of exact arithmetic."
  },
  {
   "property": "C125",
   "status": "proved",
   "theorems": [
    "ProxNLP.C125_pieces_are_the_vector",
    "ProxNLP.C125_vector_pieces_are_the_vector",
    "ProxNLP.C125_split_rejects",
    "ProxNLP.C125_nested"
   ],
   "note": "refinement over all programs on the pieces, in C++; lifetimes of the underlying vector are those of the caller and are not part of this claim"
  },
  {
   "property": "C126",
   "status": "proved",
   "theorems": [
    "ProxNLP.C126_equal_iff",
    "ProxNLP.C126_equal_values",
    "ProxNLP.C126_equivalence",
    "ProxNLP.C126_contains",
    "ProxNLP.C126_stored_set_false",
    "ProxNLP.C126_ignores_set_false"
   ],
   "note": "Equality means same function object, is an equivalence, stable under every continuation, and implies equal values; search in a list. C126_ignores_set_false and C126_stored_set_false state what equality does not mean."
  },
  {
   "property": "C127",
   "status": "proved",
   "theorems": [
    "ProxNLP.C127_distances",
    "ProxNLP.C127_gradient",
    "ProxNLP.C127_value",
    "ProxNLP.C127_minimiser",
    "ProxNLP.C127_success",
    "ProxNLP.C127_success_weighted",
    "ProxNLP.C127_cancel",
    "ProxNLP.C127_negative_false"
   ],
   "note": "Distances, value, gradient, Hessian, unique minimiser, SUCCESS within target_tol / S of the mean; factors that cancel (C127_cancel); negative total weight (C127_negative_false)."
  },
  {
   "property": "C128",
   "status": "proved",
   "theorems": [
    "ProxNLP.C128_problem",
    "ProxNLP.C128_problem_refines",
    "ProxNLP.C128_solver_size",
    "ProxNLP.C128_solver_size_mod",
    "ProxNLP.C128_large_false"
   ],
   "note": "Exact range of the problem sizes, solver size below 2^31, residue modulo 2^32 beyond; C128_large_false shows sizes 0 and -2^31 for 64-bit arguments."
  }
 ]
}