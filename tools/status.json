{
 "C01": {
  "status": "proved",
  "note": "all built-in indicator sets, any dimension"
 },
 "C02": {
  "status": "proved",
  "note": "idempotence and fixed points for indicator sets; (firm) nonexpansiveness for all sets including L1"
 },
 "C03": {
  "status": "proved",
  "note": ""
 },
 "C04": {
  "status": "proved",
  "note": "derivative off the kink points over the reals; complementarity everywhere; C04_degenerate_box_kink_false records that a box with lower=upper returns the identity Jacobian at the point itself"
 },
 "C05": {
  "status": "proved",
  "note": "value is the minimum; gradient over the reals; reading the envelope before a parameter is set is undefined (C05_envelope_before_parameter_is_undefined)"
 },
 "C06": {
  "status": "proved",
  "note": ""
 },
 "C07": {
  "status": "proved",
  "note": ""
 },
 "C08": {
  "status": "partial",
  "note": "false for the code: setProxParameter is not forwarded to the components (C08_parameter_reaches_components_false, C08_product_ignores_parameter); the partial theorem covers components whose operations do not depend on the parameter"
 },
 "C09": {
  "status": "proved",
  "note": ""
 },
 "C10": {
  "status": "proved",
  "note": ""
 },
 "C100": {
  "status": "proved",
  "note": "C100_success_rounded (mode NEWTON), C100_feasible (any mode), C100_backward (exact for slightly perturbed derivatives), C100_recognised, C100_reported, C100_factor (size of the error), for every rounding and every order of summation; C100_certified and C100_suboptimality carry this over to the true residuals and the objective of convex problems when user functions are accurate to a given bound; C100_exact_false is the last part of the statement, in IEEE double arithmetic. No overflow (that is C98)."
 },
 "C101": {
  "status": "proved",
  "note": "Range, termination, Armijo inequality up to one explicit slack, real decrease, immediate acceptance of a clear full step, IEEE instance (C101_ieee, C101_double), agreement with the exact model (C101_exact_arithmetic). C101_accepts_false records the limit: steps meeting the inequality by less than the rounding of the merit values are refused, e.g. 2^60 - a/2."
 },
 "C102": {
  "status": "partial",
  "note": "C102_penalty_range_partial, C102_tolerances, C102_tolerances_decrease, C102_penalty_decreases, C102_reaches_floor, C102_cycle cover all but the last sentence. Missing: that sentence, which is false for mu_lower = 0 (C102_positive_false); for mu_lower > 0 it follows from C102_penalty_range_partial."
 },
 "C103": {
  "status": "partial",
  "note": "Full statement proved except the bound on L1 multipliers, which is false in double precision (C103_l1_bound_false: multiplier 0 at a nonzero value, or above 5/4); C103_l1_bound_partial gives the bound up to the error of the estimate."
 },
 "C104": {
  "status": "proved",
  "note": "C104_large_point_false: the step is absolute, at 2^30 with a step of 2^-27 the computed derivative of the identity is 0."
 },
 "C105": {
  "status": "partial",
  "note": "C105_factors: entrywise error of the factors at most 3 nu u |L||D||L^T|; C105_residual: residual at most 12 nu u |L||D||L^T||x|; C105_positive_pivots: with positive computed pivots the residual is at most 20 nu u max_k A_kk sum_j |x_j| (no growth factor). nu = (d+2) l + d + 4 with d roundings per term and n <= 128 2^l. Missing: without positive pivots the bound relative to the data is false (C105_small_pivot_false: no pivoting, a KKT matrix with Hessian 2^-60 gives residual 1); underflow is excluded (C105_no_underflow: the rounding used is double rounding on zero and the normal range)."
 },
 "C106": {
  "status": "partial",
  "note": "the update follows the formula up to rounding (entries, quadratic form, symmetry, secant equation, decision); symmetry and positive definiteness themselves are lost in double precision with is_psd set (C106_spd_false), and the curvature test can have the wrong sign (C106_curvature_false)"
 },
 "C107": {
  "status": "partial",
  "note": "proved up to the rounding error of the residual; without that allowance the claim is false because the tolerance is absolute (C107_absolute_false); contraction and convergence are without underflow"
 },
 "C108": {
  "status": "proved",
  "note": "Shape-level model: numbers are forgotten, loops controlled by numbers take any number of turns. Every in-order history is safe and keeps all shapes (C108_safe, C108_solve_keeps_shapes); the outcome of a solve, of setup() and of block-wise starting multipliers is characterised in every case (C108_exact, C108_setup_exact, C108_blocks_exact). Writing the public members constraints_ and manifold_ directly is outside the order and shown undefined (C108_append_false, C108_removed_*_false, C108_manifold_false). Functions are assumed to take points of the problem's manifold and sets to have the dimension of their function."
 },
 "C109": {
  "status": "partial",
  "note": "Proved for solvers with problem objects of their own that share no cost object with buffers (every number of threads, every schedule): no race, each solve returns the sequential result. False when the threads share a problem with constraints (setPenalty writes the sets of the shared problem) or when the problems are copies that share a QuadraticResidualCost (its constant members write buffers): always a data race, and already interleavings of whole accesses give SUCCESS at wrong points."
 },
 "C11": {
  "status": "proved",
  "note": ""
 },
 "C110": {
  "status": "partial",
  "note": "Flag, point, multipliers (mode NEWTON), no false SUCCESS, and reuse (under the conditions of C21) proved for every crash point. False for the reported quantities: after a callback threw, num_iters is one less than the accepted steps and value and residuals are those of the previous point (C110_reports_false)."
 },
 "C111": {
  "status": "partial",
  "note": "C111_renaming and its instances C111_constraint_order, C111_variable_order, C111_linear_solver for positive definite Hessian blocks and library linear solvers in exact arithmetic; C111_symmetric_backend for any problem if the linear solver itself does not depend on the names; C111_grouping for any problem, option and linear solver, C111_grouping_solver with different library solvers; C111_constant for any problem whose functions do not throw (with functions that throw at every trial the statement is false: C111_constant_throws_false). Missing: problems whose linear systems need regularisation together with different linear solvers or orders (the inertia corrections are the same only if the reported signatures are), rounding."
 },
 "C112": {
  "status": "partial",
  "note": "proved; interpolation between equal points, the far end of interpolation in a product of vector spaces and the exact round trip are false (C112_interpolate_same_false, C112_product_end_false, C112_round_trip_false). Overflow is not modelled."
 },
 "C113": {
  "status": "partial",
  "note": "proved with the stated margins (C113_infeasible, C113_farkas, C113_unbounded, C113_infeasible_course); without the margin an unbounded problem is reported as solved from a warm start of the wrong sign when the penalty is below the tolerance (C113_wrong_sign_false)"
 },
 "C114": {
  "status": "partial",
  "note": "proved if both products of the Jacobian with the multipliers are summed in the same order (C114_order_false otherwise); an exact solution can be rejected because of overflow (C114_recognised_false)"
 },
 "C115": {
  "status": "proved",
  "note": "C115_step, C115_inner_loop (affine equality constraints), C115_solve (unconstrained problems, whole run), C115_digits (closed form of the rate), C115_regular (Lipschitz Hessian over the reals gives the hypotheses). Inequality constraints, curved constraints and the whole run with constraints are not covered by this claim (C80, C83, C93 treat convergence there, without the rate)."
 },
 "C116": {
  "status": "partial",
  "note": "proved on vector spaces for column expressions; false on spaces with nx > ndx = 1 (silent broadcasting gives the derivative along (1,...,1)) and for row expressions (accepted, wrong number of outputs)"
 },
 "C117": {
  "status": "proved",
  "note": "for every program; two things a user may expect and that are not so are recorded as C117_box_change_false (limits of a box changed after the constraint was made are ignored) and C117_resize_false (parameters of another size are accepted and evaluation then fails); C117_resolve under the conditions of C21_any_state_partial"
 },
 "C118": {
  "status": "proved",
  "note": "Order, number of calls and agreement with the model of the other theorems, for objects with arbitrary memory and answers. Not modelled: exceptions in the line search that are not std::runtime_error."
 },
 "C119": {
  "status": "partial",
  "note": "Proved for every history with exact or Gauss-Newton Hessian and no proximal term; the linear-solver choice after setup(), the setters and BFGS selected after setup() are proved exceptions."
 },
 "C12": {
  "status": "proved",
  "note": "for a workspace created for the current list of constraints; a stale workspace is an out-of-bounds access (C12_stale_workspace_undefined)"
 },
 "C120": {
  "status": "partial",
  "note": "Exact refinement of plain values for all programs that do not move a wrapped object itself, safety without references to stored values, independence, no leak. The full statement is false: three counterexamples (move constructor, references to stored values, constructors with arguments)."
 },
 "C121": {
  "status": "proved",
  "note": "Under the stated condition on the arrays (rows at least as long as the number of blocks, entries initialised); C121_stride_false, C121_uninitialised_false and C121_index_false show what happens without it. Arrays of different objects do not overlap except for views; isize is unbounded."
 },
 "C122": {
  "status": "partial",
  "note": "False for blocks declared lower triangular with more rows than columns (C122_tall_false: a write beyond the buffer, or into the neighbouring block). Proved for all other patterns."
 },
 "C123": {
  "status": "proved",
  "note": "The solve stage for given stored factors; rounding errors of the factorisation itself are not modelled. C123_dominance_needed shows that the condition on the 2x2 blocks cannot be dropped."
 },
 "C124": {
  "status": "proved",
  "note": "Bounds for every alpha in (0,1) with 4 alpha^2 <= alpha + 1, then for the constant of the code over the reals; the factors are those of exact arithmetic."
 },
 "C125": {
  "status": "proved",
  "note": "refinement over all programs on the pieces, in C++; lifetimes of the underlying vector are those of the caller and are not part of this claim"
 },
 "C126": {
  "status": "proved",
  "note": "Equality means same function object, is an equivalence, stable under every continuation, and implies equal values; search in a list. C126_ignores_set_false and C126_stored_set_false state what equality does not mean."
 },
 "C127": {
  "status": "proved",
  "note": "Distances, value, gradient, Hessian, unique minimiser, SUCCESS within target_tol / S of the mean; factors that cancel (C127_cancel); negative total weight (C127_negative_false)."
 },
 "C128": {
  "status": "proved",
  "note": "Exact range of the problem sizes, solver size below 2^31, residue modulo 2^32 beyond; C128_large_false shows sizes 0 and -2^31 for 64-bit arguments."
 },
 "C13": {
  "status": "partial",
  "note": "proved in mode NEWTON (default); false in modes PRIMAL and PRIMAL_DUAL (C13_success_certifies_false); in all modes the returned point is certified by some multipliers"
 },
 "C14": {
  "status": "proved",
  "note": "the step computation is a parameter here; termination of its two loops is C25 and C32"
 },
 "C15": {
  "status": "partial",
  "note": "false for the code: UNINIT is returned when max_iters=0 or the outer budget is exhausted (C15_flag_truth_false); everything else proved"
 },
 "C16": {
  "status": "partial",
  "note": "false at equality (C16_early_stop_false); proved for strict inequality, as an equivalence"
 },
 "C17": {
  "status": "proved",
  "note": ""
 },
 "C18": {
  "status": "proved",
  "note": ""
 },
 "C19": {
  "status": "proved",
  "note": ""
 },
 "C20": {
  "status": "partial",
  "note": "false for a stacked vector of the wrong size, which is silently ignored (C20_wrong_size_ignored, C20_rejected_false); everything else proved"
 },
 "C21": {
  "status": "partial",
  "note": "false for calls without multipliers, with a proximal term, and with BFGS (C21_reproducible_false_*); proved for the remaining cases, for the whole solver from any two states (C21_any_state_partial); a setup() between the calls restores it except for the proximal centre (C21_setup_partial, C21_setup_false_centre)"
 },
 "C22": {
  "status": "partial",
  "note": "proved for pdal_beta = 1/2 (the default); false for other values (C22_merit_slope_false)"
 },
 "C23": {
  "status": "partial",
  "note": "C23_symmetric_iff_newton holds in general for a given Hessian block; that the Newton system is the linearisation of the residual is proved for pdal_beta=1/2, off kinks, when the Hessian block is the derivative of the Lagrangian gradient; in mode EXACT the code weights the constraint Hessians with another multiplier (C23_exact_mode_false)"
 },
 "C24": {
  "status": "proved",
  "note": "inertia characterised exactly by the reduced Hessian (iff)"
 },
 "C25": {
  "status": "proved",
  "note": "any backend signature with entries in {-1,0,1}; needs DELTA_INIT>=0 and factors>1 (witnesses C25_negative_init_false, C25_factor_one_false); exact arithmetic"
 },
 "C26": {
  "status": "proved",
  "note": ""
 },
 "C27": {
  "status": "proved",
  "note": "also: with a regularised factorisation the refinement converges to the unregularised step (C27_regularised_step_false)"
 },
 "C28": {
  "status": "proved",
  "note": "every phi, throwing or not; singular cubic systems only assumed to go through the safeguard"
 },
 "C29": {
  "status": "partial",
  "note": "holds for bisection/quadratic when phi throws at most on longer steps; false when all trials throw, when a main-loop trial throws, or with NaN cubic steps (witness theorems)"
 },
 "C30": {
  "status": "partial",
  "note": "full for the returned value; for phi(alpha) itself under the conditions of C29_value_partial; C30_armijo_false shows the general claim fails"
 },
 "C31": {
  "status": "partial",
  "note": "quadratic interpolates; minimises for nonpositive slope; the cubic system has exchanged right-hand sides so the cubic claim is false (C31_cubic_actual says what it computes)"
 },
 "C32": {
  "status": "proved",
  "note": ""
 },
 "C33": {
  "status": "proved",
  "note": "empty coefficient vector is undefined (C33_derivative_empty)"
 },
 "C34": {
  "status": "proved",
  "note": ""
 },
 "C35": {
  "status": "proved",
  "note": ""
 },
 "C36": {
  "status": "proved",
  "note": ""
 },
 "C37": {
  "status": "proved",
  "note": "Heap of shared cost objects; any nesting of operators by induction over the expression; aliasing failures recorded"
 },
 "C38": {
  "status": "partial",
  "note": "False in general: stale err (witnesses); proved for every history whose last call was at x"
 },
 "C39": {
  "status": "proved",
  "note": "Fréchet derivative over the reals, manifold retraction for the gradient; asymmetric weights shown to fail"
 },
 "C40": {
  "status": "partial",
  "note": "value, chain rule and rejection proved; vector-Hessian product false (witness), right for affine functions"
 },
 "C41": {
  "status": "proved",
  "note": "For functions whose Jacobian does not depend on earlier calls; C41_quadratic_cost_false: the finite-difference Hessian of a QuadraticResidualCost (TOC2) misses the term J^T W J, because the Jacobian is requested without an evaluation at the same point."
 },
 "C42": {
  "status": "partial",
  "note": "C++ adapters proved; the Python class CostFromFunction does not check the number of outputs (C42_python_false), proved for one output (C42_python_partial)."
 },
 "C43": {
  "status": "partial",
  "note": "laws, interpolation, Jacobians and Jdifference rejection proved for every dimension; C43_jintegrate_rejects_false: Jintegrate accepts any argument position"
 },
 "C44": {
  "status": "proved",
  "note": "products of any list of lawful manifolds, nested included; Jacobians block diagonal"
 },
 "C45": {
  "status": "partial",
  "note": "split/merge inverse and split rejection proved; C45_merge_rejects_false: merge silently drops extra blocks"
 },
 "C46": {
  "status": "partial",
  "note": "C46_always_true / C46_is_normalized_false: the code always answers true; only the direction all-normalized => true holds"
 },
 "C47": {
  "status": "partial",
  "note": "C47_plain_times_product_false: plain*product swaps the factors; C47_product_times_product_false under the initializer-list reading (C47_nested_product_same: operations unaffected); in Python chains keep the order (C47_python_chain_partial) and a*(b*c) does not (C47_python_grouped_false)"
 },
 "C48": {
  "status": "proved",
  "note": ""
 },
 "C49": {
  "status": "partial",
  "note": "C49_interpolation_false: velocity part is taken from the base coordinates; base part proved"
 },
 "C50": {
  "status": "proved",
  "note": "Soundness, laws and minimality of the kind algebra for all block sizes."
 },
 "C51": {
  "status": "proved",
  "note": "Fill-in soundness, success and failure criteria for every number and size of blocks."
 },
 "C52": {
  "status": "proved",
  "note": "Termination within n! passes, optimality, first in lexicographic order, behaviour on failure."
 },
 "C53": {
  "status": "proved",
  "note": "Row bijection, permuted pattern, solve in permuted coordinates."
 },
 "C54": {
  "status": "partial",
  "note": "False for a second call (C54_second_analysis_false). Proved for the first call on a fresh object, and idempotence of analyzePattern."
 },
 "C55": {
  "status": "proved",
  "note": "exact arithmetic; compute finds the unique factorisation, solve and reconstruct; also C55_info_false: Success is reported without a check"
 },
 "C56": {
  "status": "partial",
  "note": "false under reuse of the object (C56_sign_false) and for the block factorisation (C56_block_sign_false); proved for a fresh dense object, and semi-definite reports are always sound there"
 },
 "C57": {
  "status": "partial",
  "note": "Proved for LDLT, for the block LDLT, and for Bunch-Kaufman whenever the factorisation succeeds and no 2x2 block falls under the threshold (always when the threshold is zero). The full statement is false for Bunch-Kaufman: C57_bk_threshold_false (threshold on the determinant of the inverse block) and C57_bk_blocked_false (failure above block size 32 leaves no zero, a singular matrix is accepted)."
 },
 "C58": {
  "status": "proved",
  "note": "Both the unblocked and the blocked routine; success is reported exactly for nonsingular matrices (exact arithmetic)."
 },
 "C59": {
  "status": "partial",
  "note": "All kind pairs but (Diag, TriU) of size at least 2, where the code is wrong (C59_diag_triU_false); in builds with Eigen assertions Diag times a triangular kind aborts (C59_length_checks)."
 },
 "C60": {
  "status": "proved",
  "note": "Lower, unit lower, upper and unit upper modes, any number of right-hand sides, both product paths; the other triangular kind on the diagonal is silently ignored (C60_wrong_triangle_false)."
 },
 "C61": {
  "status": "partial",
  "note": "L D L^T = P^T A P, exact solve and reconstruction proved for every structure whose off-diagonal blocks are zero, diagonal or dense (all sizes, orders; includes every structure the library builds), and for general structures under FactorFits. Full statement is false for structures with triangular off-diagonal blocks: C61_diag_triU_false, C61_triL_fails."
 },
 "C62": {
  "status": "partial",
  "note": "Proved for every history with std::allocator (the library's only use) and for general allocators, with exceptions. False only for the allocator-extended move constructor with an allocator that propagates on copy assignment (C62_move_allocator_false) and for the initializer-list constructor with U != T (C62_list_false)."
 },
 "C63": {
  "status": "partial",
  "note": "Histories of construction, copy construction, analysis and destruction: no array is used or deleted when not alive, objects are independent values, leaks counted exactly; no leak if no analysis runs. False with assignment (double delete, aliasing) and for leaks once an analysis runs."
 },
 "C64": {
  "status": "partial",
  "note": "One entry per invocation and every quantity stored by value is the snapshot at that invocation. False for the multiplier views (alias solver memory, dangling after setup) and undefined on empty line-search vectors, which the library never fills."
 },
 "C65": {
  "status": "partial",
  "note": "false for the first outer iteration (C65_prox_centre_false); proved for all later ones"
 },
 "C66": {
  "status": "proved",
  "note": "Vectors, lists of vectors, norm axioms, finite-value checks on extended scalars, scalar_close."
 },
 "C67": {
  "status": "proved",
  "note": "Pattern, sizes, and every KKT matrix has it."
 },
 "C68": {
  "status": "partial",
  "note": "proved in the primal-dual KKT mode from the inertia test; in the classic (default) mode proved when active sets agree, false in general (C68_descent_classic_false)"
 },
 "C69": {
  "status": "proved",
  "note": ""
 },
 "C70": {
  "status": "proved",
  "note": ""
 },
 "C71": {
  "status": "proved",
  "note": ""
 },
 "C72": {
  "status": "proved",
  "note": "In exact arithmetic; the user's functions are assumed not to throw."
 },
 "C73": {
  "status": "proved",
  "note": "Exact arithmetic; all sizes."
 },
 "C74": {
  "status": "proved",
  "note": ""
 },
 "C75": {
  "status": "proved",
  "note": "Proved under the squareness condition of the statement; C75_rectangular_false shows the condition is needed."
 },
 "C76": {
  "status": "partial",
  "note": "False as stated (C76_check_symmetric_false): the routine compares kinds without transposing triangular ones. Partial: exact when no off-diagonal block is triangular."
 },
 "C77": {
  "status": "proved",
  "note": "For every nonempty lists of sizes."
 },
 "C78": {
  "status": "proved",
  "note": "quasi-definite matrices, any permutation; C78_block_kkt carries it to the allocated block solver"
 },
 "C79": {
  "status": "proved",
  "note": "The three linear solvers of the library in full; ProxSuite's LDLT, which is external, under its contract (C79_proxsuite); Eigen's own LDLT is external."
 },
 "C80": {
  "status": "proved",
  "note": "C80_converges, C80_defaults_converge (real numbers, default settings). C80_success_false and C80_room_needed show that the exception for a residual equal to target_tol and the hypothesis room cannot be dropped."
 },
 "C81": {
  "status": "partial",
  "note": "Value, rigidity and Jacobian proved on all of SE(3). The vector-Hessian product part fails (C81_vhp_false) and the quaternion norm is not checked (C81_rigid_unnormalised_false)."
 },
 "C82": {
  "status": "partial",
  "note": "Solve, reconstruction and inertia proved for every correct external factorisation; the reported sign is never written (C82_sign_false)."
 },
 "C83": {
  "status": "proved",
  "note": "C83_step_decreases, C83_inner_loop_ends (number of steps bounded by the merit gap), C83_solve_ends (result independent of max_iters, never MAX_ITERS_REACHED), C83_quadratic_programs (strictly convex QPs with any built-in sets are in the class), C83_search_budget; C83_threshold_false: with the default dphi_thresh the run can cycle for ever"
 },
 "C84": {
  "status": "proved",
  "note": "C84_residuals_bound_suboptimality, C84_success_bounds_suboptimality; C84_small_penalty_false (L1 penalty with the primal-dual KKT system: SUCCESS at x=2 instead of the minimiser 1), C84_warm_start_false (SUCCESS at a warm start that is not optimal), C84_primal_dual_doubles_l1 (cause)"
 },
 "C85": {
  "status": "proved",
  "note": "C85_converges (exception: a residual exactly equal to target_tol, as in C80_success_false), C85_solution_minimises, C85_residuals_bound_distance; the conditions on the settings are explicit (ConvexConvergence) and stronger than the defaults"
 },
 "C86": {
  "status": "proved",
  "note": "Pinocchio groups are not modelled: for them the component hypothesis is an assumption"
 },
 "C87": {
  "status": "partial",
  "note": "copies share the target with the original (C87_copies_share, C87_copies_share_false) and the target check can be bypassed (C87_target_check_false); proved for programs without copies"
 },
 "C88": {
  "status": "proved",
  "note": "C88_vector_space, C88_product, C88_bundle"
 },
 "C89": {
  "status": "proved",
  "note": "C89_laws, C89_is_normalized, C89_transport, C89_jacobians relative to Pinocchio's functions; so2_laws and so2_jacobians show the hypotheses hold for SO(2). C89_bad_position_false: argument positions other than 0 and 1 are silently ignored"
 },
 "C90": {
  "status": "partial",
  "note": "C90_alias_false, C90_added_sum_false, C90_self_false: shared sums changed in place are seen inconsistently; C90_values_partial for every program that changes only objects no other name sees (all programs without in-place statements), C90_iadd_partial for one += in any state"
 },
 "C91": {
  "status": "partial",
  "note": "Value, violations (as maximum and per constraint) and dual residual proved for every return not due to the step budget; active set proved to match the workspace's multiplier estimate, and the returned multipliers in mode PRIMAL. False with MAX_ITERS_REACHED (values of the previous point) and, for the active set, for the returned multipliers in the default mode (witnesses with the library's own factorisation)."
 },
 "C92": {
  "status": "partial",
  "note": "Proved for data_lams_opt and x_opt (and the like) in all programs that do not assign to or from copies, and for the blocks lams_opt of objects that are not copies. False for lams_opt of copies: the copied Eigen::Ref still point into the original's buffer (changed by later solves, dangling after destruction, written through by assignment)."
 },
 "C93": {
  "status": "partial",
  "note": "full statement is false: C93_default_false (defaults, any library linear solver, budgets 3..30000); C93_stall and C93_linesearch prove the mechanism in general; positive part C93_newton_point_partial; for the primal-dual system see C83 and C85"
 },
 "C94": {
  "status": "partial",
  "note": "full statement is false: C94_temporary_problem_false, C94_temporary_function_false, C94_setup_again_false, C94_manifold_false; C94_careful_partial: programs following the rules of Spec/Lifetimes never use a destroyed object; C94_results_outlive_solver"
 },
 "C95": {
  "status": "partial",
  "note": "full statement is false for moved solvers: C95_stale_false, C95_dangling_false; C95_own_weight_partial: every solver obtained from the constructor uses its own weight, after any operations on any solvers"
 },
 "C96": {
  "status": "partial",
  "note": "full statement is false: C96_quiet_false (quiet solves print), C96_reenable_false (a quiet solve disables the table for good); C96_table_partial: the table, for histories without quiet solves; C96_quiet_partial: what the others print"
 },
 "C97": {
  "status": "partial",
  "note": "C97_sequential: any sequence of solves by any solvers gives what each solver would have given alone. Inside one solve the sharing shows through callbacks: C97_nested_false exhibits a problem (x²/2 + |x−3|) on which a callback that runs a second solver with another penalty makes the first report SUCCESS at a point that is not a solution. The certificate survives callbacks that leave the sets alone, nested solvers with the same constant penalty, and sets whose projection does not depend on the penalty."
 },
 "C98": {
  "status": "partial",
  "note": "Gradient, Jacobian, constraint values and certificate at a SUCCESS point; rejection of bad data at the start; agreement with the finite model. False for the cost value (NaN accepted) and for -∞ values of inequalities (order dependence)."
 },
 "C99": {
  "status": "partial",
  "note": "Infinite bounds: projection, normal cone, active set, masks, special cases proved. False for crossing bounds (treated as equality with the lower bound, SUCCESS on an infeasible problem) and NaN bounds (ignored)."
 }
}