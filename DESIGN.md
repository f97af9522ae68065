# Formal model of proxsuite-nlp (Lean 4)

Everything lives under `lean/Verif/`:

* `Verif/Model/*.lean`  – the model of the code; each definition cites the file and lines of `/repo` it models.
* `Verif/Spec/*.lean`   – small specifications (sets, nearest point, normal cone, KKT, partition, pattern, ...) written without the model.
* `Verif/Lemmas/*.lean` – helper lemmas.
* `Verif/Props/*.lean`  – the property theorems, one section per property, each followed by an `example`
  that a concrete non-trivial case meets its hypotheses.

## Trusted base

* Lean 4.33.0 kernel; axioms `propext`, `Classical.choice`, `Quot.sound` only (checked with `#print axioms`); no axioms of our own,
  no `sorry`, no `native_decide`/`bv_decide`.
* The reading of the C++: nothing ties the model to the code mechanically.  Every definition cites its source lines.
* **Scalars.**  `Scalar` is modelled as an arbitrary linearly ordered field `K` (the reals for statements with derivatives).
  Rounding, overflow, and NaN/inf propagation of IEEE doubles are NOT modelled, except where stated (extended scalars in C66,
  the explicit NaN outcome of a division by zero in the line-search interpolation).  A `Scalar` equality test such as
  `delta == 0.` is exact equality in `K`.
* **Rounding** is modelled only in Model/Rounding.lean, Model/FloatSolver.lean (C100), Model/FloatLinesearch.lean (C101),
  Model/FloatSpaces.lean (C112), Model/FloatPenalty.lean (C102), Model/FloatSets.lean (C103), Model/FloatFd.lean (C104), Model/FloatLdlt.lean (C105), Model/FloatBfgs.lean (C106), Model/FloatRefine.lean (C107) and Model/FloatBk.lean (C123; there only the solve, not the factorisation), the last four without underflow: the
  residuals that decide about SUCCESS are rounded (IEEE round-to-nearest without overflow is one instance of the rounding used), in any
  order of summation, and the rest of the iteration is an arbitrary function; in the line search every operation is rounded and the
  result of the interpolation formulas is arbitrary.
* **Integers.**  Dimensions, indices and counters are natural numbers (integers where they may be negative); the range of `int` is modelled only
  for the sizes of problems and of linear solvers (Model/MachineSizes.lean, C128).
* **Eigen.**  Dense expressions (`+`, `*`, `cwiseMin`, `triangularView().solve`, `block`, `segment`, permutation products) are taken
  to mean the mathematical operation; aliasing is modelled only where the property is about it.  Out-of-range accesses and other
  undefined behaviour are a distinct outcome in the model where they are reachable.
* **Rounding together with overflow, NaN and infinities**: Model/Overflow.lean (C114), for everything the loop computes from user functions
  except the step; penalty, proximal parameter and tolerances stay finite numbers there.
* **NaN and infinities** without rounding appear only in Model/Math.lean (C66), Model/ExtSolver.lean (C98) and Model/InfBox.lean (C99).  There, element-wise `cwiseMin`/`cwiseMax`
  are taken to be `std::min`/`std::max`; the maximum over a vector with a NaN, which Eigen leaves unspecified, is a parameter; finite
  numbers are exact (no rounding, no overflow).
* **External code as parameters.**  User cost/constraint functions, Pinocchio's functions, the factorisation back-ends inside the
  solver loop, `std::pow`, are parameters of the model; theorems quantify over them, with assumed laws as explicit hypotheses.
* Not modelled: text formats of printing and logging (which lines are printed is C96), Python bindings other than the operators on costs and manifolds (C90, C47) and the allocating Jacobians (C89) and object lifetimes (C94) and Python classes stored by value (C120) and parameters changed after construction (C117) and comparing constraints (C126, where the search in a list is Boost.Python's and modelled as a search for an equal element) and functions written in Python (C116, where CasADi expressions are modelled from its documentation, over exact reals), weak memory (threads are modelled with sequentially consistent accesses, C109; the library starts none itself), memory allocation other than ownership
  of `polymorphic` and of the block-structure buffers, Pinocchio itself, CasADi itself, performance.

## Plan per property

| id | what is modelled | how proved |
|----|------------------|------------|
| C01-C03 | coordinatewise operators of the four sets over `Fin n → K` | nearest point / normal cone inequality by coordinatewise convexity argument and summation |
| C04 | active sets and Jacobian masks; derivatives over ℝ | `HasDerivAt` of the scalar operators off the kinks, locally constant active set |
| C05-C06 | Moreau envelope formulas | coordinatewise minimisation, summation; `HasDerivAt` for the gradient |
| C07-C08 | product sets as lists of blocks with their own parameter cell | induction on the block list; C08 is false of the code: witness + partial |
| C09-C10 | primal residual | case analysis on coordinates |
| C11-C12 | prefix-sum index tables, segment writes | induction on the constraint list / history |
| C13-C20, C65 | whole `solve`/`innerLoop` control flow over abstract problem, factorisation and line-search oracles | loop invariants; false parts by concrete executions of the model |
| C21 | the same, two runs from different prior states | relational induction; false in general (stale prox target, kept multipliers, BFGS state): witnesses + partial |
| C22 | merit value and gradient over ℝ | derivative of the Moreau envelope composed with smooth maps; false for other dual weights: witness |
| C23-C24, C68 | KKT assembly with `Matrix.fromBlocks` | linear algebra identities; explicit descent identity |
| C25 | inertia-correction loop with factorisation oracle and fuel | induction on fuel; fuel bound from Archimedean property |
| C26 | integer counting | induction on the list |
| C27 | refinement loop | induction on steps |
| C28-C33 | Armijo line search with throwing merit function, explicit NaN outcome | loop invariants; false parts with witnesses |
| C34-C36 | BFGS update as matrix function and state machine | matrix algebra; induction over histories |
| C37 | cost-sum expressions over a store of shared objects | induction over expressions; aliasing behaviours modelled with object identities |
| C38-C39 | quadratic residual cost with its cache as explicit state | state machine; false: witness + partial; derivative over ℝ |
| C40-C42 | composition, FD, adapters | calculus over ℝ / algebra over K |
| C43-C49 | manifold interface as structure of operations over lists; vector space, product, tangent bundle | algebra, induction over components; C46, C47, C49 false: witness + partial |
| C50-C54 | block kinds, symbolic factorisation, permutation search | pattern semantics; finite table by `decide` lifted by lemma; induction on blocks |
| C55-C57, C61 | LDLT loops on index functions | loop invariants; Sylvester by Mathlib or direct congruence argument |
| C58 | unblocked Bunch–Kaufman | loop invariant (Schur complement) |
| C59-C60 | gemmt table, block triangular solve | case analysis; induction on blocks |
| C62-C63 | heap of control blocks, operation histories | ownership invariant by induction over operations |
| C64 | history callback with aliasing views | state machine; false for multipliers: witness + partial |
| C66 | extended scalars | case analysis, induction |
| C67 | block structure generator | case analysis on index ranges |
| C69-C72 | the whole step (`Model/Step.lean`): assembly, regularisation loop, refinement, line search, plugged into `solve` | composition of C23, C25, C27-C32, C68 and the loop inductions of `solve` |
| C73 | `Model/Functions.lean` linear function | Fréchet derivative over ℝ |
| C74 | `Model/Manifold.lean` transport loop | induction on the components |
| C75 | count_nnz as the double loop; allowed positions as a finite set of the separate specification; false without squareness | block decomposition of the index set, counting triangular positions |
| C76 | the double loop with early exit; it compares kinds without transposing, so it is correct only without triangular off-diagonal blocks: counterexample plus the correct fragment | loop invariant, concrete witness |
| C77 | allocateBlockSparse: default structure, constructor, search, analysis | from C52, C53, C51 and C67 |
| C78 | quasi-definite matrices over an ordered field, DenseLdlt model | Schur complements of quasi-definite matrices are quasi-definite; induction on the size; uniqueness of the factorisation transfers it to the code |
| C79 | Model/Backends.lean: the three linear solvers as the backend of Model/Step | composition of C57, C58, C61, C78 with C70 and C71; rounding thresholds set to zero in the combined statement, kept in the per-solver ones |
| C80 | solve with the concrete step of Model/Step.lean and the back ends of Model/Backends.lean, on the programs of Spec/Qp.lean | one step is a full Newton step and solves the subproblem (Lemmas/Qp.lean), the multiplier error contracts (Lemmas/QpSolve.lean), a rank decreases with every outer iteration (Lemmas/QpOuter.lean); the two hypotheses that cannot be dropped are shown necessary by counterexamples valid for every budget |
| C81 | quaternion to matrix conversion, the action and the written Jacobian blocks; exponential map abstracted to retractions with given velocity | polynomial identities modulo the unit-norm equation; derivative along curves and uniqueness of derivatives; counterexamples for the inherited vector-Hessian product and for non-unit quaternions |
| C82 | the wrapper over an abstract external factorisation with any permutation | transport of C55 along the permutation; Sylvester; the solver joined to the back ends of C79/C80; counterexample for sign() |
| C83 | innerLoop, outerLoop, solve with the concrete step | descent lemma for the merit function along the semismooth Newton direction, acceptance of a step bounded below by the line search, induction on the merit gap; the threshold on the slope shown necessary by a run that cycles for ever |
| C84 | solve, residuals, set operators | variational inequality of the projections and convexity from C13; two runs that report SUCCESS away from the solution because the test scales the error with mu, one of them caused by the L1 penalty counting twice in the primal-dual system |
| C85 | solve with the concrete step, set operators, tolerance schedule | inexact proximal point argument: monotonicity of the normal cones gives a Fejér inequality for the accepted multipliers with an error controlled by the inner tolerance; counting of penalty and tolerance reductions; inner loops end by C83 |
| C86 | list model of the spaces over the reals | Fréchet derivatives of maps between coordinate spaces; block-diagonal joins (Lemmas/ManifoldCalculus), induction on the list of components |
| C87 | objects in memory with a shared residual, programs as lists of operations | refinement to a value-semantics specification for programs without copies, by induction on the program; a copy shares the target for ever; concrete witnesses |
| C88 | list model of the spaces | row formula for block-diagonal matrices on top of C44, C48 and C74 |
| C89 | the wrappers over an arbitrary group; Pinocchio's functions are parameters | laws carried over; the rotations of the plane as a full instance over the reals (laws by complex argument, Jacobians as derivatives) |
| C90 | the objects, the names bound to them and one step per statement, with the copies made by __iadd__/__imul__ and the overload that Boost.Python tries first | induction over the program with the invariant that every name has its value and no other name reaches the object of an owned name; counterexample programs for shared sums |
| C91 | St.active, St.rowErr, constraintViolation, activeSetOf in Model/Solver.lean | induction over both loops: what was evaluated at the exit is what is reported; C91_returned_point_partial, C91_active_set_partial, C91_violations for all sizes; C91_stale_false (value of the previous point with MAX_ITERS_REACHED) and C91_active_set_false (SUCCESS with a binding constraint of multiplier 1 reported inactive) |
| C92 | ResMem, ResOp, ResMem.step, ResMem.run (heap of buffers and views) in Model/ResultsCopy.lean | refinement of a value semantics (Spec.resValues) by induction over programs: C92_values_partial; C92_copy_blocks_false, C92_assign_false, C92_from_copy_false: lams_opt of a copy views the buffer of the original |
| C93 | Spec/Stall.lean: programs min ½xᵀHx+gᵀx s.t. Ax ≤ b in the solver model, merit function, slope and classic Newton system in closed form; Lemmas/StallLs, StallMerit, StallStep | C93_linesearch: along a direction of ascent above the tangent every trial is rejected, step = max(2^-N, alpha_min), all interpolations; C93_stall: the inner loop then moves along the segment to the Newton point by that fraction per iteration; C93_default_false: a program and a start for which every budget from 3 to 30000 ends with MAX_ITERS_REACHED; C93_newton_point_partial: a Newton point with unchanged rows solves the subproblem |
| C94 | Model/Lifetimes.lean: objects of the bindings with the references they hold, reference counting, 15 statements; Spec/Lifetimes.lean: the rules of a careful program | invariant over all program histories; the full statement is false (four witnesses), programs following the rules of Spec/Lifetimes never touch a destroyed object |
| C95 | Model/SolverMove.lean: solver objects with pdal_beta_ and the object merit_fun.beta_ refers to; Spec/SolverMove.lean: solvers as values | refinement over all operation sequences for solvers not obtained by a move; two negations for moved ones |
| C96 | Model/Console.lean: lines printed along the execution of Model/Solver; Spec/Console.lean: the table and the message | induction over both loops and over the history; the two negations hold for every problem |
| C97 | the mutable prox parameters of the sets of one problem as state shared by a list of solvers; solve with callbacks that may change that state, including callbacks that run a nested solve | solve overwrites every prox parameter before it reads one, hence the result is independent of the shared state; invariants of the inner and outer loops with callbacks; the certificate by the loop-exit invariant; the negation by an exact run with a nested solver |
| C98 | the solver loop over scalars with NaN and infinities (Model/ExtSolver.lean), sets with infinite bounds, norm on NaN and steps as parameters | a finite right-hand side forces finite data (absorption of NaN and infinities), induction over both loops; simulation by the loop of Model/Solver on finite data; false for the cost value and for -∞ values: concrete runs |
| C99 | ExtBox, ExtSet.active (Model/InfBox.lean) with IEEE comparisons | case analysis on the bounds, summation over coordinates; crossing and NaN bounds: general theorems showing what the code does, and a run of the solver |
| C100 | solver loop with rounded residuals (Model/Rounding.lean, Model/FloatSolver.lean); sums as trees, rounding as the standard model, IEEE rounding to nearest as an instance | induction on the summation tree for the error, on both loops for the state that is tested; concrete double-precision run for the negative part |
| C101 | the whole run with rounded operations and extended values (Model/FloatLinesearch.lean), interpolation left open | induction over both phases; error analysis of the comparison; IEEE rounding proved monotone; concrete double-precision searches |
| C102 | the update functions with rounded operations (Model/FloatPenalty.lean) inside the loop of Model/FloatSolver.lean | loop invariant; contraction argument; case analysis on the binary exponent |
| C103 | operators and estimates with rounded operations (Model/FloatSets.lean) | IEEE facts (gradual underflow, exact subtraction) proved from the definition of rounding; sign analysis; error analysis; L1 bound false: witness + partial |
| C104 | finite differences exact (Model/Functions.lean) and rounded (Model/FloatFd.lean) | mean value inequalities for the truncation error; error analysis; double-precision witness for large points |
| C105 | Model/FloatLdlt.lean: the factorisation and solve of Model/DenseLdlt.lean with every operation rounded and every sum in an order given as parameter | induction over columns and over the recursion: entrywise error of the factors relative to \|L\|\|D\|\|Lᵀ\|; then the three stages of the solve; Cauchy-Schwarz for positive pivots; a 2x2 KKT matrix refutes stability relative to \|A\| when pivots are small |
| C106 | Model/FloatBfgs.lean: the update with every operation rounded | calculus of relative errors (Near), concrete run in binary64 for the loss of symmetry and definiteness |
| C107 | Model/FloatRefine.lean: the loop with rounded residuals and corrections | induction over the passes; one-pass recursion of the residual norm (rate, floor); composition with C105 for the dense solver |
| C108 | sizes of all vectors, matrices and views; reallocation by assignment kills views; undefined and thrown are separate outcomes; loops take any number of turns | invariant: after in-order calls workspace and results have exactly the shapes of the constraints at the last setup(); induction over events and over the history; witnesses for out-of-order use |
| C109 | threads as sequences of accesses to the memory shared by solvers (parameter of the constraint sets of a problem object, buffer of a quadratic residual cost object), interleaved by an arbitrary schedule; the solve with its accesses | non-interference by induction over the schedule, refinement of the solve with accesses to the sequential model; the full claim is false: solvers of one problem object, and solvers of copies of a problem that share a quadratic residual cost, race and can return SUCCESS at a wrong point |
| C110 | the state of the solver object at every point at which solve can throw (an inductive relation; what a pass has written to workspace and results is arbitrary) | invariants by induction over the interrupted run; reuse from the history independence of C21; the claim on the reported quantities is false (a callback that throws: iteration count and residuals lag behind the point) |
| C111 | the solver of Model/Solver.lean and Model/Step.lean, twice, related by a renaming (Spec/Renaming.lean) | simulation: every function of the model commutes with the renaming (Lemmas/Renaming.lean), the direction by uniqueness of the solution of the linear system or by symmetry of the linear solver, then induction over inner and outer iterations |
| C112 | integrate, difference, interpolate of vector spaces and their products in rounded arithmetic (Model/FloatSpaces.lean) | oddness and monotonicity of rounding to nearest even, differences on the grid of subnormals, the least relative distance of distinct doubles |
| C113 | solve of Model/Solver.lean; Spec/Infeasible.lean: distance from feasibility, Farkas vectors, descent rays | induction over both loops: every reported pair of residuals is that of an evaluated point and a penalty in the safeguards; C84 along the ray |
| C114 | the loop with every operation rounded and saturated to infinities (Model/Overflow), sets, multiplier estimates, right-hand side, residuals, checks; steps abstract | induction over both loops; each NaN-free row of the residual is within the rounding error of the exact row even if the shift overflowed; agreement with Model/FloatSolver for all large enough formats |
| C115 | programs with smooth cost and affine equality constraints as the problem of the concrete step; Taylor estimates of a Lipschitz Hessian as hypotheses in an ordered field | local quadratic model at each point (the algebra of C80), bound on the Newton step from the KKT system, Armijo test from the third-order estimate, invariant on distance and residual by induction over steps and outer iterations; over the reals the Taylor estimates are derived from Lipschitz continuity by comparison of derivatives |
| C116 | expression trees with evaluation, substitution and symbolic differentiation, the constructor with CasADi's broadcasting and NumPy's shape checks, the dispatch to methods in Python | induction over expressions: symbolic differentiation is the Frechet derivative, commutes with the substitution cx + dx and with itself; witnesses for the rotations of the plane and for rows |
| C117 | objects in memory with shared pointers and copies, programs as lists of statements | what a program says about an object is defined on its text (value assigned last, arguments of the creating statement); preservation along the rest of the program and induction over it; the same program with the last values substituted ends in the same memory; C21 for the solver |
| C118 | the solver as a tree of calls on objects with memory (Query, Calls, solveP in Model/Calls.lean), run with any objects | induction over the tree and both loops for the order and number of calls; refinement: objects that implement functions give ProxNLP.solve of these functions (C118_kept_results), the quadratic residual cost as an instance |
| C119 | solver object with all settings, operations, histories as a relation (a throwing solve leaves any buffers) | induction over histories (settings read off the history), then C21_any_state_partial; exceptions proved for all solvers |
| C120 | Model/PyWrapper.lean: both halves of each object with the pointers between them, reference counts, 14 statements; Boost.Python and copy.deepcopy from their documentation | Spec/PyWrapper.lean is a machine on plain values; the memory is shown to be a function of the values (refinement, by induction over the program); moves of wrapped objects, references to stored values and classes with constructor arguments are counterexamples |
| C121 | arrays with offsets and strides, uninitialised entries and out-of-bounds accesses as undefined behaviour (Model/BlockStorage) | refinement of the functions on block patterns, loop by loop; recursion on views |
| C122 | the buffer with bounds, one block after the other, and the printed text (Model/BlockStorage) | invariant of the two loops: the filled fields are those of the blocks handled so far |
| C123 | rounded version of the solve (swaps, two triangular solves, product with the stored inverse blocks) with arbitrary summation trees | error analysis of each stage; the stored inverse is handled by a componentwise bound on abs(D) abs(D⁻¹) abs(D) for dominant blocks |
| C124 | the factorisation model of C58 with its exact arithmetic | every pivot step multiplies the largest entry by at most 1 + 1/alpha (1x1) or (1 + 1/alpha)^2 (2x2, where 4 alpha^2 ≤ alpha + 1 is used), carried along the sequence of pivot steps of both routines; an example attains the factor; the same induction bounds abs(L) abs(D) abs(L)ᵀ, which turns the bound of C123 into one that mentions the matrix and the solution only |
| C125 | views with offset and length into a memory, reads, writes and merges as statements (Model/SplitViews) | refinement by induction over the program: the pieces as separate lists (Spec/SplitViews), the vector as their concatenation |
| C126 | equality of constraint and set objects and search in a list, on the object memory of C117 (Model/ConEquality) | names stand for constraints by the program text (Spec/ConEquality); the stored function is read off the creating statement |
| C127 | sums of costs (Model/CostSum) over distance costs (Model/DistanceCost) and the solver loop | factors of an expression defined on its syntax (Spec/Barycentre); C37 gives the value of the built object, completing the square the identity, C13 the statement about SUCCESS |
| C128 | the two additions with 32-bit accumulators (Model/MachineSizes) | induction over the list of sizes; refinement of the natural-number model (Model/Problem, Model/BlockKind) |

Properties found false of the code are kept at full strength in `properties.jsonl`; the negation is proved about the model with a
concrete witness (`..._false`), and the part that does hold is proved under the name `..._partial`.  The list of disagreements is
in the section "Findings" below.

## Findings

Each row is a theorem about the model with a concrete witness (or for all inputs); the location is where the code behaves so.

| theorem | what the code does | where |
|---|---|---|
| `C04_degenerate_box_kink_false` | for a box with `lower = upper` the Jacobian at that point is the identity although the projection is constant | box-constraint.hpp |
| `C05_envelope_before_parameter_is_undefined` | the Moreau envelope read before `setProxParameter` uses an indeterminate member | constraint-set.hpp |
| `C08_parameter_reaches_components_false` | `setProxParameter` on a product does not reach the components | constraint-set-product.hpp |
| `C12_stale_workspace_undefined` | `addConstraint` after the workspace was made: `evaluate` runs past the views | problem-base.hpp |
| `C13_success_certifies_false` | in modes PRIMAL, PRIMAL_DUAL the returned multipliers need not be those certified | prox-solver.hxx |
| `C15_flag_truth_false` | `UNINIT` is returned with `max_iters = 0` or an exhausted outer budget | prox-solver.hxx |
| `C16_early_stop_false` | residuals equal to the tolerance stop the inner loop (`<=`) but not the outer one (`<`) | prox-solver.hxx |
| `C17_penalty_cycle` | on a problem that stays infeasible the penalty does not stay at `mu_lower`: the iteration after that goes back to `mu_init`, so the run cycles | prox-solver.hxx |
| `C20_wrong_size_ignored` | a stacked multiplier vector of the wrong size is silently ignored | prox-solver.hxx |
| `C21_reproducible_false_*` | multipliers, proximal centre and BFGS memory survive from earlier `solve` calls | prox-solver.hxx |
| `C22_merit_slope_false` | with `pdal_beta != 1/2` the slope is not the derivative of the merit function | pdal.hxx, prox-solver.hxx |
| `C23_exact_mode_false` | in mode EXACT the constraint Hessians use another multiplier than the residual | prox-solver.hxx |
| `C25_negative_init_false`, `C25_factor_one_false` | a negative `DELTA_INIT` corrupts the KKT matrix; factors 1 make the loop endless | prox-solver.hxx |
| `C27_regularised_step_false` | refinement runs against the unregularised matrix | prox-solver.hxx |
| `C29_value_false_*`, `C30_armijo_false` | trials that throw, or NaN cubic steps: the value returned is not that of the step | linesearch-armijo.hpp |
| `C31_cubic_interpolates_false`, `C31_*_minimises_false` | the right-hand sides of the cubic system are exchanged; vertex taken when it is a maximum | linesearch-armijo.hpp |
| `C37_iadd_self_false`, `C37_iaddSum_self_false`, `C37_move_changes_operand_false` | aliasing of shared cost objects in the operators | cost-sum.hpp |
| `C38_history_false`, `C38_hessian_history_false` | gradient and Hessian of quadratic residual costs use the residual of the last `call` | quadratic-residual.hpp |
| `C39_asymmetric_false` | gradient wrong for asymmetric weights | quadratic-residual.hpp |
| `C40_vhp_false`, `C40_jacobian_defined_false` | composition has vector-Hessian product 0; tangent dimensions are not checked | function-ops.hpp |
| `C43_jintegrate_rejects_false` | `Jintegrate` accepts every argument position | vector-space.hpp |
| `C45_merge_rejects_false` | `merge` drops surplus blocks | cartesian-product.hpp |
| `C46_always_true` | `CartesianProduct::isNormalized` is always true | cartesian-product.hpp |
| `C47_plain_times_product_false` | plain * product puts the plain factor last | cartesian-product.hpp |
| `C49_interpolation_false` | tangent bundle interpolation takes the velocity from the base coordinates | tangent-bundle.hpp |
| `C54_second_analysis_false` | a second analysis re-permutes the factored structure | block-ldlt.hxx |
| `C55_info_false` | `Success` is reported after a zero pivot | dense.hpp |
| `C56_sign_false`, `C56_block_sign_false` | the sign accumulates over `compute` calls; a trailing 1x1 block is not seen | dense.hpp, block-ldlt.hpp |
| `C57_bk_threshold_false`, `C57_bk_blocked_false` | Bunch-Kaufman signature: absolute threshold; failures above the block size invisible | bunchkaufman.hpp, ldlt-allocator.hpp |
| `C59_diag_triU_false`, `C61_diag_triU_false` | `Diag * TriU^T` product uses the wrong diagonal entries | gemmt.hpp |
| `C59_length_checks` | `Diag` times triangular kinds fails Eigen's length assertions | gemmt.hpp |
| `C60_wrong_triangle_false` | a diagonal block of the other triangular kind is skipped silently | block-triangular.hpp |
| `C61_triL_fails` | `TriL` blocks below a `Diag` pivot make `compute` fail though the analysis succeeds | block-ldlt.hpp |
| `C62_move_allocator_false`, `C62_list_false` | wrong trait tested in the allocator-extended move constructor; the initializer-list constructor builds a `T` | polymorphic_cxx14.hpp |
| `C63_assign_false`, `C63_assign_aliases_false`, `C63_leak_false`, `C63_copy_sign_false` | implicit assignment is shallow (double delete); every analysis leaks; `m_sign` not copied | block-ldlt.hpp/.hxx |
| `C64_views_false`, `C64_dangling_false`, `C64_undefined_false`, `C64_values_false` | stored multiplier views alias the solver; `&v[0]` of vectors that are always empty | history-callback.hpp |
| `C65_prox_centre_false` | the first proximal centre is the neutral element, not `x0` | prox-solver.hxx |
| `C68_descent_classic_false` | in the classic (default) KKT mode right inertia does not give descent | prox-solver.hxx |
| `C75_rectangular_false` | `count_nnz` over-counts rectangular diagonal blocks | block-kind.cpp |
| `C76_check_symmetric_false` | the symmetry check compares kinds without transposing | block-kind.cpp |
| `C80_success_false` | on a convex equality-constrained quadratic program the run stalls when a residual equals the tolerance exactly (inner test `<=`, outer test `<`) | prox-solver.hxx |
| `C80_room_needed` | a failed outer step at `mu_lower` resets the penalty to `mu_init`: with a low iteration room the run cycles for ever | prox-solver.hxx |
| `C81_vhp_false` | the rigid-transformation action inherits the zero vector-Hessian product although its Jacobian depends on the configuration | rigid-transform-point.hpp |
| `C81_rigid_unnormalised_false` | the quaternion is neither normalised nor checked: the action is not rigid off SE(3) | rigid-transform-point.hpp |
| `C83_threshold_false` | slopes below `dphi_thresh` are accepted without search: with the identity Hessian the run on `x²` jumps between two points until the iteration limit | linesearch-armijo.hpp |
| `C84_small_penalty_false`, `C84_primal_dual_doubles_l1` | with the primal-dual KKT system an L1 penalty counts twice: SUCCESS is reported at `x = 2` on `min x²/2 + abs(x-3)`, whose minimiser is 1 | pdal.hxx, prox-solver.hxx computeMultipliers |
| `C84_warm_start_false` | the convergence test multiplies errors in the multipliers by `mu`: a warm start with a wrong multiplier is accepted as SUCCESS when `mu_init` is small | prox-solver.hxx computePrimalResiduals |
| `C87_copies_share`, `C87_copies_share_false` | Copying a `QuadraticDistanceCost` copies the `shared_ptr` to its residual, so `updateTarget` on a copy moves the target of the original too | squared-distance.hpp, quadratic-residual.hpp |
| `C87_target_check_false` | The constructor's check of the target is void on products (C46), `updateTarget` has no check, and a target of the wrong size is accepted by vector spaces | squared-distance.hpp |
| `C89_bad_position_false` | `Jintegrate`/`Jdifference` of wrapped Pinocchio spaces ignore invalid argument positions; the allocating versions for Python then return uninitialised memory | pinocchio-groups.hpp, multibody.hpp, expose-manifold.cpp |
| `C90_alias_false` | Python `s += c` changes the object and rebinds the name to a copy: other names see the first `+=` and not the next | expose-cost.cpp |
| `C90_added_sum_false` | Python `s += t` with a sum `t` adds it by reference: a later `t *= a` changes `s` | expose-cost.cpp |
| `C90_self_false` | Python `s += s` makes a sum whose evaluation never ends | expose-cost.cpp, cost-sum.hpp |
| `C47_python_grouped_false` | Python `a * (b * c)` has the factors in the order `b, c, a` | expose-manifold.cpp, cartesian-product.hpp |
| `C91_stale_false` | with MAX_ITERS_REACHED the reported value (and residuals, active set) are those of the point before the last step | prox-solver.hxx |
| `C91_active_set_false` | SUCCESS with a binding constraint of multiplier 1 reported inactive: the active set is computed with the multipliers of the previous outer iteration | prox-solver.hxx |
| `C92_copy_blocks_false` | `lams_opt` of a copied `Results` refers to the buffer of the original (changes with later solves, dangles after `setup()`) | results.hpp |
| `C92_assign_false`, `C92_from_copy_false` | assigning to a copied `Results` overwrites the multipliers of the original; assigning from one takes the current multipliers of the original | results.hpp |
| `C93_default_false` | With default settings (classic KKT system) the solver stalls on a feasible strictly convex QP with 3 affine inequality constraints: after a partial step the classic Newton direction increases the merit function, the line search rejects every trial and takes alpha_min = 1e-6, the next direction points to the same place; MAX_ITERS_REACHED for every budget up to 30000, constraint violation > 1/6 | prox-solver.hxx innerLoop; linesearch-armijo.hpp run |
| `C94_temporary_problem_false` | Python: `ProxNLPSolver(make_problem())` keeps only the address of the problem; once the temporary is collected `setup()`, `solve()` and `solver.problem` use freed memory (no `with_custodian_and_ward`) | expose-solver.cpp:103-117, prox-solver.hpp:61 |
| `C94_temporary_function_false` | Python: `FiniteDifferenceHelper(space, MyFunction(), eps)` keeps C++ references to both arguments but does not keep them alive, even inside a problem | expose-autodiff.cpp:24-37, finite-difference.hpp:85-86 |
| `C94_setup_again_false` | Python: `solver.setup()` frees the results and workspace; results and arrays read before designate freed memory | prox-solver.hpp:147-149, expose-solver.cpp:140-143, expose-results.cpp |
| `C94_manifold_false` | Python: assigning `problem.manifold` frees the manifold returned by an earlier `problem.manifold` or `solver.manifold` | expose-problem.cpp:19, python/polymorphic.hpp:255-273 |
| `C95_stale_false`, `C95_dangling_false` | The solver is implicitly move-constructible, but `merit_fun` holds a reference to `pdal_beta_` of the object it was constructed in: a moved solver ignores `setDualPenalty` in its merit gradient, and reads freed memory when the source is destroyed (e.g. growth of `std::vector<ProxNLPSolver>`) | prox-solver.hxx:22, pdal.hpp:42, pdal.hxx:41 |
| `C96_quiet_false` | `solve` prints "Solver successfully converged" / "Max number of iterations reached." and a line feed also with `verbose = QUIET` | prox-solver.hxx:110-122 |
| `C96_reenable_false` | A quiet solve sets `logger.active = false` and nothing sets it back: raising `verbose` afterwards prints no table | prox-solver.hxx:54-55, logger.hpp:38 |
| `C97_nested_false` | The prox parameter lives in the constraint sets, which all solvers of a problem share: a callback that runs a second solver on the same problem with another penalty makes the first report SUCCESS at a point that is not a solution | constraint-set.hpp:70-73, 114-115, prox-solver.hxx (`setPenalty`, `invokeCallbacks`) |
| `C98_value_false` | The cost value is not checked: a cost that returns NaN where gradient and constraints pass the test is reported as SUCCESS with value NaN | prox-solver.hxx:302-366 |
| `C98_order_false` | The violation of an inequality with value `-∞` (satisfied) is NaN, and a NaN in the maximum over the constraints shows or not depending on its position: exchanging two constraints changes SUCCESS into never SUCCESS | prox-solver.hxx:249-268, negative-orthant.hpp:32-34, math.hpp:50-93 |
| `C99_crossed_false`, `C99_crossed_success_false` | `BoxConstraint` does not check its bounds: with lower > upper the upper bound is ignored and the box acts as the equality `z = lower`; a solve can return SUCCESS although no feasible point exists | box-constraint.hpp:19-44 |
| `C99_nan_bound_false` | A NaN bound of a box is silently treated as no bound | box-constraint.hpp:28-44 |
| `C100_exact_false` | in double arithmetic SUCCESS can be returned with an exact dual residual of 1: `J^T lams` cancels, the reported residual is 0 | prox-solver.hxx |
| `C101_accepts_false` | in double precision the line search refuses steps that meet the Armijo inequality when the merit value is large: on `2^60 - a/2` every trial fails the test and the step `alpha_min` is taken after all trials | linesearch-armijo.hpp |
| `C102_positive_false` | with `mu_lower = 0` the penalty underflows to 0 after 161 failed outer iterations at the default factor, and `mu_inv_` becomes 1/0 | prox-solver.hxx |
| `C103_l1_bound_false` | the L1 normal part is computed as z minus the thresholded z; in double precision the multiplier can be 0 at a nonzero value or exceed 1 | l1-penalty.hpp, prox-solver.hxx |
| `C104_large_point_false` | the finite-difference step is absolute: in double precision the derivative of the identity at 2^30 with step 2^-27 is 0 | finite-difference.hpp |
| `C105_small_pivot_false` | `DenseLDLT` does not pivot: in double precision the KKT matrix [2^-60 1; 1 -1] with right-hand side (1, 0) is solved as (0, 1) instead of about (1, 1), residual 1 | linalg/dense.hpp |
| `C21_setup_false_centre` | `setup()` does not reset the centre of the proximal term: with `rho_init > 0` a solve after `setup()` depends on the solve before it | prox-solver.hpp |
| `C106_spd_false` | In double precision two BFGS updates from the identity, both with positive curvature and `is_psd` set, give a matrix that is not symmetric and whose quadratic form is negative along the last step. | bfgs-strategy.hpp:69-73 |
| `C106_curvature_false` | The rounded curvature `s.dot(y)` can be positive while the exact one is negative: the update is applied and `is_psd` set. | bfgs-strategy.hpp:53-55 |
| `C107_absolute_false` | `iterativeRefinement` compares the rounded residual with an absolute tolerance: 3 x = 2^60 is accepted at 1e-13 with an exact residual of 64. | prox-solver.hxx:534-537 |
| `C108_added_after_setup_false`, `C108_exact` | a constraint added after `setup()` makes the next `solve()` index past the workspace's views; nothing checks it | problem-base.hpp, prox-solver.hxx |
| `C108_append_false` | a constraint pushed onto the public `constraints_` makes `setup()` read past the cached dimensions | problem-base.hpp, workspace.hpp |
| `C108_manifold_false` | assigning the public `manifold_` after the solver was built leaves the proximal penalty on the old manifold; `setup()` does not rebuild it, and a solve is undefined | prox-solver.hxx, prox-solver.hpp |
| `C109_shared_problem_false` | solvers of one problem object used in two threads race on the parameter of the constraint sets, written by `setPenalty` through constant references; one schedule gives SUCCESS at a point that is not a solution | prox-solver.hxx:546-554, constraint-set.hpp:70-73, 113-115 |
| `C109_copied_problem_false` | copies of a problem share the cost; solvers of two copies used in two threads race on the buffers of a quadratic residual cost, and one schedule gives SUCCESS at the starting point | quadratic-residual.hpp:68-72, quadratic-residual.hxx:23-45, problem-base.hpp:27 |
| `C110_reports_false` | after a callback threw, the results show the new point with the iteration count, value and residuals of the previous one | prox-solver.hxx:460-480 |
| `C111_constant_throws_false` | If every trial step of the line search throws, the line search takes the step `alpha_min` and reports the merit 0, a value nothing was evaluated to (`FunctionSample` is default-constructed); the acceptance test compares 0 with the current merit, so adding a constant to the cost changes the test and does not change the reported merit. | linesearch-armijo.hpp:66-83, prox-solver.hxx:444-453 |
| `C112_interpolate_same_false` | `interpolate(x, x, u)` of a vector space is not `x`: with x = 3 and u = 0.3 the result is below 3, so a point on the boundary of a set may leave it. | vector-space.hpp |
| `C112_product_end_false` | `interpolate(x0, x1, 1)` of a Cartesian product of vector spaces is not `x1` (x0 = 1, x1 = 2^-60 gives 0), although `interpolate` of every factor is exact there: `CartesianProductTpl` inherits the default instead of delegating to its components. | cartesian-product.hpp, manifold-base.hpp |
| `C113_wrong_sign_false` | On `min -x s.t. x >= 0`, which has no solution, solve returns SUCCESS at once from a warm start with multiplier -1 (wrong sign) when `mu_init` is below `target_tol`: the sign of a multiplier is only tested multiplied by the penalty. | prox-solver.hxx |
| `C113_infeasible_course` | on an infeasible problem no multiplier is ever accepted, and penalty and tolerances repeat a cycle until the budget is used up: nothing in the result tells infeasibility from slow convergence | prox-solver.hxx |
| `C114_order_false` | with different orders of summation in the dual residual and in the checked right-hand side, an overflow makes the dual residual NaN unnoticed and SUCCESS is returned | prox-solver.hxx:327-330, 350, 356-359 |
| `C114_recognised_false` | at an exact solution with finite data two products overflow, their sum is NaN, and the call throws | prox-solver.hxx:327-330, 350 |
| `C116_rotations_false` | `CasadiFunction` moves points by `cx + dx` whatever the space is; with `ndx = 1` (rotations of the plane) CasADi stretches the single increment over all coordinates, so construction succeeds and the Jacobian is the derivative along (1, ..., 1) | casadi_utils.py:22-27 |
| `C116_row_false` | a row of expressions is accepted as a function with one output; it returns one value per column and its Jacobian raises an exception | casadi_utils.py:19-20, 39-43 |
| `C117_box_change_false` | A constraint object copies its set but shares its function: `box.upper_limit = v` after the constraint was made is silently without effect on the problem, while `f.b = v` takes effect in every problem | constraint-set.hpp:128-142, expose-constraint.cpp:117-118 |
| `C117_resize_false` | `f.A`, `f.b` of a `LinearFunction` may be assigned values of another size, and the constructor accepts an offset of the wrong size; `nr()` keeps its value and the next evaluation writes a value of the wrong size | linear.hpp:24-30, expose-residual.cpp:27-28 |
| `C41_quadratic_cost_false` | the second-order finite-difference wrapper asks for Jacobians at shifted points without evaluating the function there; a QuadraticResidualCost then uses the residual of the last evaluation, so its finite-difference Hessian lacks `J^T W J` (it is 0 for every linear residual) | finite-difference.hpp:46-68, quadratic-residual.hxx:37-45 |
| `C119_ldlt_choice_false` | `ldlt_choice` assigned after `setup()` is ignored by `solve` until the next `setup()` | prox-solver.hpp:147-149 |
| `C119_setters_false` | `setPenalty` and `setProxParameter` called by a program have no effect on `solve` | prox-solver.hxx:64-65 |
| `C119_bfgs_after_setup_false` | `hess_approx = BFGS` after `setup()`: every `solve` throws | prox-solver.hpp:151-155, bfgs-strategy.hpp:34-38 |
| `C42_python_false` | the Python class `CostFromFunction` accepts functions with any number of outputs; their gradient and Hessian leave a matrix | expose-cost.cpp:78-82, cost-function.hpp:101-113 |
| `C120_relocate_false` | the move constructor of a Python-derived object (`= default`) leaves `m_held` of its Python half pointing to the old object; a later virtual call that uses the C++ part of `self` uses freed memory | python/polymorphic.hpp:184, 233 |
| `C120_reference_false` | Python: `y = b.x` shares the Python half of a stored object but does not keep its C++ half alive: after `b.x = other` or the end of `b`, methods of `y` use freed memory | python/polymorphic.hpp:233, 239-240, 262-268 |
| `C120_init_args_false` | an object of a Python class whose constructor needs arguments cannot be stored by value (`deepcopy` raises) unless the class defines `__getinitargs__` | python/polymorphic.hpp:92-100, 212 |
| `C121_stride_false`, `C121_uninitialised_false`, `C121_index_false` | a block structure with `outer_stride` smaller than the number of blocks shares entries and runs out of its array; entries of `SymbolicBlockMatrix(nc, os)` are uninitialised; permutation indices are not checked | block-kind.hpp, block-kind.cpp |
| `C122_tall_false` | printing a lower triangular block with more rows than columns writes beyond the buffer or into the neighbouring block | block-kind.cpp |
| `C126_ignores_set_false`, `C126_stored_set_false` | two constraints on the same function compare equal whatever their sets are (equality and inequality), so a search in a list of constraints finds one that was never added; the set stored in a constraint never equals the set it was made from | constraint-set.hpp:82, 144-146 |
| `C127_negative_false` | a sum of distances with negative total weight is unbounded below, and a solver started at the weighted mean (the point of largest value) reports SUCCESS without a step | prox-solver.hxx:51-127, 278-488, cost-sum.hpp |
| `C128_large_false` | `get_total_dim_helper` adds 64-bit sizes in an `int` (literal 0 given to `std::accumulate`): a size of 2^32 allocates a linear solver of size 0, 2^31 one of negative size, without an error | ldlt-allocator.hpp:95-99, problem-base.hpp:114-127 |
| `C82_sign_false` | `sign()` of the ProxSuite wrapper is never written | proxsuite-ldlt-wrap.hpp |
