{"id": "C01", "title": "Projection lands in the constraint set and is the nearest point", "statement": "For the box (lower<=upper), equality and negative-orthant sets, projection(z) returns a point of the set, and no point of the set is closer to z in Euclidean norm.", "quantifier": "every dimension, every bound vectors with lower<=upper (componentwise), every input vector z, every competing point of the set", "why_tests_cant": "The claim ranges over all competing points of a continuum; tests sample a few z and never the competitors.", "anchors": ["include/proxsuite-nlp/modelling/constraints/box-constraint.hpp: BoxConstraintTpl::projection", "include/proxsuite-nlp/modelling/constraints/equality-constraint.hpp: EqualityConstraintTpl::projection", "include/proxsuite-nlp/modelling/constraints/negative-orthant.hpp: NegativeOrthantTpl::projection"]}
{"id": "C02", "title": "Projection is idempotent, fixes the set pointwise and never increases distances", "statement": "projection(projection(z)) = projection(z); projection(z) = z exactly when z belongs to the set; and the distance between two projected points is at most the distance between the originals.", "quantifier": "every built-in set, dimension, pair of input vectors", "why_tests_cant": "Universal over pairs of real vectors.", "anchors": ["include/proxsuite-nlp/modelling/constraints/*.hpp: projection"]}
{"id": "C03", "title": "Normal-cone projection complements the projection", "statement": "For every built-in set (and the L1 penalty), projection(z) + normalConeProjection(z) = z, and for the indicator sets the normal part is in the normal cone at the projected point: its inner product with (y - projection(z)) is <= 0 for every y in the set.", "quantifier": "every set, dimension, z, every y in the set", "why_tests_cant": "Universal over a continuum; the normal-cone half quantifies over all points of the set.", "anchors": ["include/proxsuite-nlp/modelling/constraints/*.hpp: projection, normalConeProjection"]}
{"id": "C04", "title": "Projection Jacobians agree with the operators they differentiate", "statement": "Wherever the operator is differentiable (z off the kink points), the matrix obtained by applyNormalConeProjectionJacobian to the identity is the derivative of normalConeProjection at z, and applyProjectionJacobian is that of projection; at every z (kinks included) the two are complementary: their results sum to the input matrix.", "quantifier": "every built-in set, z, and matrix being multiplied", "why_tests_cant": "Derivative statements are limits; finite-difference tests are approximations at sampled points.", "anchors": ["include/proxsuite-nlp/constraint-set.hxx: applyProjectionJacobian, applyNormalConeProjectionJacobian", "include/proxsuite-nlp/modelling/constraints/*.hpp: computeActiveSet"]}
{"id": "C05", "title": "The Moreau envelope value is the proximal minimum", "statement": "computeMoreauEnvelope(z) (with parameter mu>0 set on the set) returns min over y of g(y) + |y-z|^2/(2 mu), where g is the indicator of the set (resp. the L1 norm); its gradient is normalConeProjection(z)/mu.", "quantifier": "every built-in set, mu>0, z, every competitor y", "why_tests_cant": "Minimum over a continuum.", "anchors": ["include/proxsuite-nlp/constraint-set.hpp: evaluateMoreauEnvelope, computeMoreauEnvelope, setProxParameter"]}
{"id": "C06", "title": "The L1 penalty proximal operator is the soft threshold and its scaled normal part is a subgradient", "statement": "With parameter mu>0, projection(z) minimises |y|_1 + |y-z|^2/(2mu); normalConeProjection(z)/mu is a subgradient of the L1 norm at projection(z); the active set is exactly the set of coordinates sent to 0.", "quantifier": "all dimensions, z, mu>0, competitors y", "why_tests_cant": "Minimum over a continuum.", "anchors": ["include/proxsuite-nlp/modelling/constraints/l1-penalty.hpp"]}
{"id": "C07", "title": "A product of constraint sets acts block by block", "statement": "Every operation of ConstraintSetProduct (evaluate, projection, normalConeProjection, the two Jacobian products, computeActiveSet) on a stacked vector equals running the component operation on the consecutive block of the vector owned by that component; blocks are disjoint and cover the vector; construction with a wrong number of block sizes is rejected.", "quantifier": "every number of components, every block sizes (including empty blocks), every stacked vector", "why_tests_cant": "Universal over the number and sizes of blocks.", "anchors": ["include/proxsuite-nlp/modelling/constraints/constraint-set-product.hpp"]}
{"id": "C08", "title": "The proximal parameter reaches the component sets of a product", "statement": "After setProxParameter(mu) on a product set, its operations behave as if each component had been given mu, so a product of sets behaves like stacking those sets as separate constraints of a problem.", "quantifier": "every product of built-in sets, every mu>0, every z", "why_tests_cant": "Existing tests only use parameter-free sets in products; the statement is universal over component kinds.", "anchors": ["include/proxsuite-nlp/constraint-set.hpp: setProxParameter", "include/proxsuite-nlp/modelling/constraints/constraint-set-product.hpp", "include/proxsuite-nlp/prox-solver.hxx: setPenalty"]}
{"id": "C09", "title": "Zero primal residual is exactly primal feasibility plus complementarity", "statement": "The reported constraint violation |c - projection(c + mu*lambda)| is 0 exactly when c is in the set and lambda is in its normal cone at c (for L1: lambda is a subgradient of the L1 norm at c), whatever mu>0.", "quantifier": "every built-in set, mu>0, c, lambda", "why_tests_cant": "Equivalence over a continuum.", "anchors": ["include/proxsuite-nlp/prox-solver.hxx: computePrimalResiduals"]}
{"id": "C10", "title": "A small reported violation bounds the distance to the set and the sign of the multiplier", "statement": "If the violation reported for a constraint is <= t then the constraint value is within t (max norm) of the set; for an inequality constraint every component is <= t, every multiplier is >= -t/mu, and a component below -t has |multiplier| <= t/mu (approximate complementarity).", "quantifier": "every built-in indicator set, mu>0, t>=0, c, lambda", "why_tests_cant": "Universal over reals.", "anchors": ["include/proxsuite-nlp/prox-solver.hxx: computePrimalResiduals"]}
{"id": "C11", "title": "Constraint segments partition the stacked vectors", "statement": "For a problem built from any list of constraints, and after any number of addConstraint calls, the index ranges [getIndex(i), getIndex(i)+getConstraintDim(i)) are consecutive, pairwise disjoint, in insertion order, and cover exactly [0,getTotalConstraintDim()); adding a constraint does not move the earlier ranges.", "quantifier": "every list of constraint dimensions (zero allowed), every sequence of addConstraint calls", "why_tests_cant": "Universal over lengths and histories.", "anchors": ["include/proxsuite-nlp/problem-base.hpp: reset_constraint_dim_vars, addConstraint, getSegment"]}
{"id": "C12", "title": "Problem evaluation writes each constraint into its own segment and nothing else", "statement": "After evaluate/computeDerivatives, segment i of the stacked value (row block i of the stacked Jacobian) is constraint i evaluated at x, and consequently the stacked product J^T*lambda is the sum over constraints of J_i^T*lambda_i.", "quantifier": "every list of constraints, x, multipliers", "why_tests_cant": "Universal over the block structure.", "anchors": ["include/proxsuite-nlp/problem-base.hpp: evaluate, computeDerivatives", "include/proxsuite-nlp/workspace.hpp: init", "include/proxsuite-nlp/problem-base.hpp: allocateMultipliersOrResiduals"]}
{"id": "C13", "title": "solve() returning SUCCESS certifies the returned point", "statement": "If solve() returns SUCCESS then the max-norm primal and dual residuals recomputed at the returned x and the returned multipliers, with the penalty parameter reported in the results, are below the target tolerance.", "quantifier": "every problem, starting point, warm start, settings, linear solver and line-search behaviour", "why_tests_cant": "Quantifies over every execution of a nonlinear iterative solver.", "anchors": ["include/proxsuite-nlp/prox-solver.hxx: solve, innerLoop, acceptMultipliers, computePrimalResiduals"]}
{"id": "C14", "title": "The iteration budgets are respected and solve() terminates", "statement": "solve() performs at most max_iters steps and at most max_al_iters outer iterations, whatever the problem; the reported num_iters/al_iters obey those bounds.", "quantifier": "every problem, settings and behaviour of the external solvers", "why_tests_cant": "Termination on all inputs is not testable.", "anchors": ["include/proxsuite-nlp/prox-solver.hxx: solve, innerLoop"]}
{"id": "C15", "title": "The returned flag tells the truth about why solve() stopped", "statement": "solve() returns MAX_ITERS_REACHED exactly when the step budget was used up without success, SUCCESS only from the convergence test, and never anything else.", "quantifier": "every execution, including max_iters=0 and an exhausted outer budget", "why_tests_cant": "Corner settings and all executions.", "anchors": ["include/proxsuite-nlp/prox-solver.hxx: solve, innerLoop", "include/proxsuite-nlp/results.hpp: ConvergenceFlag"]}
{"id": "C16", "title": "A point that meets the early-stopping test is reported as converged", "statement": "Whenever the solver stops an inner loop because the residuals meet the target tolerance, solve() returns SUCCESS.", "quantifier": "every problem/settings, including residual exactly equal to the tolerance and target_tol = 0", "why_tests_cant": "The violating inputs are a measure-zero boundary (equality).", "anchors": ["include/proxsuite-nlp/prox-solver.hxx: lines 101 and 364"]}
{"id": "C17", "title": "The penalty parameter stays within its safeguards", "statement": "With mu_lower<=mu_init and an update factor in (0,1], the penalty parameter used by every outer iteration lies in [mu_lower, mu_init], is mu_init at the first one, changes only after an iteration with insufficient feasibility, and the sets always carry the current value. While no outer iteration meets its feasibility tolerance the penalty repeats a cycle: it is multiplied by the update factor down to mu_lower and then set back to mu_init.", "quantifier": "every execution history of outer iterations", "why_tests_cant": "Histories of arbitrary length.", "anchors": ["include/proxsuite-nlp/prox-solver.hxx: updatePenalty, setPenalty, solve"]}
{"id": "C18", "title": "Inner tolerances never fall under their safeguards", "statement": "After every tolerance update the inner tolerance is at least inner_tol_min and the primal tolerance at least target_tol, and they do not increase on successful iterations when mu<=mu_upper. Over a streak of successful iterations they fall geometrically to their floors; while no iteration is successful they follow the cycle of the penalty.", "quantifier": "every history of successes and failures, any power function with the monotonicity of pow", "why_tests_cant": "Histories of arbitrary length.", "anchors": ["include/proxsuite-nlp/prox-solver.hxx: updateToleranceFailure, updateToleranceSuccess, tolerancePostUpdate"]}
{"id": "C19", "title": "Callbacks run once per accepted step and once at the end", "statement": "Each registered callback is invoked exactly num_iters+1 times by one solve(), in registration order, the k-th invocation seeing the k-th accepted iterate and the last one the returned point; clearCallbacks() removes all.", "quantifier": "every execution and number of callbacks", "why_tests_cant": "Counting over all executions.", "anchors": ["include/proxsuite-nlp/prox-solver.hpp: registerCallback, clearCallbacks, invokeCallbacks", "include/proxsuite-nlp/prox-solver.hxx: innerLoop, solve"]}
{"id": "C20", "title": "Warm-start multipliers are used as given or rejected", "statement": "Multipliers passed to solve() become the initial multipliers; per-constraint multipliers are placed in their own segments; a wrong number of blocks is an error.", "quantifier": "every problem, every vector of multipliers of any size", "why_tests_cant": "Universal over sizes; wrong sizes are silently accepted by one overload.", "anchors": ["include/proxsuite-nlp/prox-solver.hxx: solve (both overloads)"]}
{"id": "C21", "title": "Solving is reproducible: earlier solves do not influence later ones", "statement": "The result of solve(x0, lams0) depends only on the problem, the settings and the arguments, not on previous calls on the same solver object.", "quantifier": "every history of earlier solve() calls, every argument", "why_tests_cant": "Universal over histories.", "anchors": ["include/proxsuite-nlp/prox-solver.hxx: solve, setProxParameter", "include/proxsuite-nlp/bfgs-strategy.hpp", "include/proxsuite-nlp/logger.hpp"]}
{"id": "C22", "title": "The gradient used by the line search is the gradient of the merit function", "statement": "The directional derivative passed to the line search equals the derivative at step length 0 of the merit function that the line search evaluates, along the computed step (Euclidean space, twice differentiable problem data).", "quantifier": "every smooth problem, every built-in set, every primal-dual point, direction, mu>0 and dual penalty weight", "why_tests_cant": "Derivative of a nonsmooth composite for all inputs; only defaults are exercised by tests.", "anchors": ["include/proxsuite-nlp/pdal.hxx: evaluate, computeGradient", "include/proxsuite-nlp/prox-solver.hxx: computeMultipliers, innerLoop"]}
{"id": "C23", "title": "The symmetric KKT system has the same solutions as the Newton system", "statement": "A primal-dual step solves the symmetrised system assembled by the solver exactly when it solves the (non-symmetric) semismooth Newton system of the optimality residual, in both KKT modes.", "quantifier": "every Hessian, Jacobian, active set, mu, multipliers, both KKT modes", "why_tests_cant": "Linear-algebra equivalence for all sizes.", "anchors": ["include/proxsuite-nlp/prox-solver.hxx: innerLoop lines 323-392, assembleKktMatrix, computeMultipliers"]}
{"id": "C24", "title": "The assembled KKT matrix is symmetric and has the required inertia when the reduced Hessian is positive definite", "statement": "The assembled matrix is symmetric whenever the Hessians are; for mu>0 and positive definite Hessian block it is nonsingular, with quadratic form positive on the primal block and negative on the dual one.", "quantifier": "every size, Hessian, Jacobian, mu>0", "why_tests_cant": "All matrices.", "anchors": ["include/proxsuite-nlp/prox-solver.hxx: assembleKktMatrix"]}
{"id": "C25", "title": "Inertia correction: what is factorised, what is restored, when it stops", "statement": "Each factorisation attempted is of the assembled matrix with delta*I added to its primal block, deltas strictly increase from the second try on, the loop stops at the first delta with correct inertia or once delta exceeds DELTA_MAX, and on exit the stored KKT matrix equals the assembled one.", "quantifier": "every matrix, every factorisation backend, every setting of the correction parameters with increase factors > 1 and positive starting values", "why_tests_cant": "Loop with data-dependent bound.", "anchors": ["include/proxsuite-nlp/prox-solver.hxx: innerLoop lines 394-429"]}
{"id": "C26", "title": "Inertia counting and the inertia verdict", "statement": "computeInertiaTuple counts the +1, -1, 0 entries (they add up to the size) and rejects any other entry; checkInertia answers OK exactly when there are ndx positive, nc negative and no zero entries, HAS_ZEROS exactly when there is a zero entry, BAD otherwise.", "quantifier": "every integer vector, ndx, nc", "why_tests_cant": "Universal over vectors.", "anchors": ["include/proxsuite-nlp/ldlt-allocator.hpp: computeInertiaTuple", "include/proxsuite-nlp/prox-solver.hxx: checkInertia"]}
{"id": "C27", "title": "Iterative refinement only claims success when the residual is small", "statement": "iterativeRefinement returns true only if the returned step has KKT residual (max norm) below the tolerance; it performs at most max_refinement_steps corrections; if the factorisation is exact for the matrix, the first solve already satisfies the system and the answer stays a solution.", "quantifier": "every matrix, right-hand side, (possibly inexact) solver", "why_tests_cant": "All linear systems.", "anchors": ["include/proxsuite-nlp/prox-solver.hxx: iterativeRefinement"]}
{"id": "C28", "title": "Accepted step lengths are in (0,1] and at least alpha_min", "statement": "ArmijoLinesearch::run sets alpha in [alpha_min, 1].", "quantifier": "every merit function (possibly throwing), initial value and slope, every options with 0<alpha_min<=1 and 0<contraction_min<=contraction_max<1", "why_tests_cant": "Every function of one real variable.", "anchors": ["include/proxsuite-nlp/linesearch-armijo.hpp: run, minimize_interpolant"]}
{"id": "C29", "title": "The line search returns the merit value of the step it returns", "statement": "The value returned by run() is phi(alpha) for the alpha it outputs.", "quantifier": "every phi including ones that throw at some step lengths", "why_tests_cant": "Exceptional paths for every function.", "anchors": ["include/proxsuite-nlp/linesearch-armijo.hpp: run"]}
{"id": "C30", "title": "Sufficient decrease unless the search gave up", "statement": "On return, either the Armijo inequality phi(alpha) <= phi0 + c1*alpha*dphi0 holds, or the slope was below threshold, or the step is at alpha_min, or max_num_steps was exhausted.", "quantifier": "every phi and options", "why_tests_cant": "All functions.", "anchors": ["include/proxsuite-nlp/linesearch-armijo.hpp: run"]}
{"id": "C31", "title": "Interpolation models interpolate the samples they are built from", "statement": "The quadratic (resp. cubic) interpolant built from the samples takes the value phi0 and slope dphi0 at 0 and the sampled values at the sampled steps; the chosen step minimises it on the contraction interval.", "quantifier": "every set of samples with distinct positive steps", "why_tests_cant": "Universal over samples.", "anchors": ["include/proxsuite-nlp/linesearch-armijo.hpp: minimize_interpolant"]}
{"id": "C32", "title": "The line search terminates", "statement": "run() performs finitely many evaluations of phi, at most a bound determined by the options alone.", "quantifier": "every phi, including always-throwing ones", "why_tests_cant": "Termination.", "anchors": ["include/proxsuite-nlp/linesearch-armijo.hpp: run"]}
{"id": "C33", "title": "Polynomial helper: evaluation and derivative", "statement": "Polynomial::evaluate(a) is the polynomial with the given (highest-degree first) coefficients at a, and derivative() is its derivative.", "quantifier": "every coefficient vector and point", "why_tests_cant": "Universal over degrees.", "anchors": ["include/proxsuite-nlp/linesearch-armijo.hpp: Polynomial"]}
{"id": "C34", "title": "BFGS updates satisfy the secant equation", "statement": "After an update with s^T y>0 the stored Hessian approximation maps s to y (resp. the inverse approximation maps y to s).", "quantifier": "every dimension, matrix, pair of iterates/gradients", "why_tests_cant": "All matrices and vectors.", "anchors": ["include/proxsuite-nlp/bfgs-strategy.hpp: update"]}
{"id": "C35", "title": "BFGS keeps the approximation symmetric positive definite along every history", "statement": "Starting from the identity, after any sequence of updates (with arbitrary points and gradients) the matrix is symmetric positive definite; updates with s^T y<=0 leave it unchanged and clear is_psd.", "quantifier": "every history of updates", "why_tests_cant": "Histories of arbitrary length.", "anchors": ["include/proxsuite-nlp/bfgs-strategy.hpp: update", "include/proxsuite-nlp/prox-solver.hpp: setup"]}
{"id": "C36", "title": "BFGS initialisation protocol", "statement": "The first update only records the point and gradient; using a default-constructed strategy is an error; every later update uses the immediately preceding point/gradient as reference whether or not it was accepted.", "quantifier": "every history", "why_tests_cant": "Histories.", "anchors": ["include/proxsuite-nlp/bfgs-strategy.hpp"]}
{"id": "C37", "title": "Cost sums are weighted sums", "statement": "A CostSum built by any sequence of +, *, +=, *=, addComponent operations evaluates (value, gradient, Hessian) to the weighted sum of its components, and building an expression does not change its operands.", "quantifier": "every expression over shared cost objects, every x", "why_tests_cant": "Universal over expression trees and aliasing.", "anchors": ["include/proxsuite-nlp/cost-sum.hpp", "include/proxsuite-nlp/cost-sum.hxx"]}
{"id": "C38", "title": "Gradient and Hessian of a quadratic residual cost depend only on the point", "statement": "computeGradient(x) (computeHessian(x)) of a quadratic residual/distance cost returns the gradient of its value at x, independent of which calls were made before.", "quantifier": "every history of call/computeGradient/computeHessian on the object, every x", "why_tests_cant": "Histories; tests always call value first at the same point.", "anchors": ["include/proxsuite-nlp/modelling/costs/quadratic-residual.hxx", "include/proxsuite-nlp/modelling/costs/squared-distance.hpp"]}
{"id": "C39", "title": "Gradient of the quadratic residual cost is the derivative of its value", "statement": "When evaluated after call(x) at the same x, with symmetric weights, computeGradient is the derivative of x -> 1/2 r(x)^T W r(x) + b^T r(x) + c, and with gauss_newton disabled computeHessian is its second derivative.", "quantifier": "every residual with its Jacobian/vector-Hessian product, W symmetric, b, c, x", "why_tests_cant": "Universal over functions.", "anchors": ["include/proxsuite-nlp/modelling/costs/quadratic-residual.hxx"]}
{"id": "C40", "title": "Function composition obeys the chain rule and rejects mismatched dimensions", "statement": "compose(f,g)(x)=f(g(x)), its Jacobian is J_f(g(x))*J_g(x) which is the derivative of the composition, its reported vector-Hessian product is the true one, and mismatched dimensions are rejected.", "quantifier": "every pair of functions", "why_tests_cant": "Universal over functions.", "anchors": ["include/proxsuite-nlp/function-ops.hpp: ComposeFunctionTpl", "include/proxsuite-nlp/function-base.hpp: C2FunctionTpl::vectorHessianProduct"]}
{"id": "C41", "title": "Central finite differences are exact on quadratics", "statement": "The finite-difference wrapper on a vector space returns exactly the Jacobian of every function whose components are polynomials of degree <=2, for every nonzero step; and its vector-Hessian product from exact Jacobians of such functions is exact.", "quantifier": "every quadratic function, x, step eps != 0", "why_tests_cant": "Universal over functions.", "anchors": ["include/proxsuite-nlp/modelling/autodiff/finite-difference.hpp"]}
{"id": "C42", "title": "Cost/function adapters preserve values and derivatives", "statement": "A cost used as a one-dimensional function returns its value, gradient (as 1xn Jacobian) and Hessian times the multiplier; a one-output function used as a cost returns the same; adapting a function with another output size is rejected; adapting back and forth is the identity on observable values.", "quantifier": "every function/cost, x, v", "why_tests_cant": "Universal over functions.", "anchors": ["include/proxsuite-nlp/cost-function.hpp"]}
{"id": "C43", "title": "Vector-space manifold laws", "statement": "integrate(x,0)=x, difference(x,x)=0, integrate(x,difference(x,y))=y, difference(x,integrate(x,v))=v, interpolation from x to y at 0,1 gives x,y; Jacobians (arg 0/1) are those of the operations and any other arg is rejected.", "quantifier": "every dimension, points, vectors", "why_tests_cant": "Universal.", "anchors": ["include/proxsuite-nlp/modelling/spaces/vector-space.hpp", "include/proxsuite-nlp/manifold-base.hpp: interpolate"]}
{"id": "C44", "title": "Cartesian products inherit the manifold laws", "statement": "If the component manifolds satisfy the integrate/difference/neutral laws, so does any Cartesian product (nested products included), with nx and ndx adding up.", "quantifier": "every list of component manifolds (any length), points, vectors", "why_tests_cant": "Universal over component lists.", "anchors": ["include/proxsuite-nlp/modelling/spaces/cartesian-product.hpp", "include/proxsuite-nlp/modelling/spaces/cartesian-product.hxx"]}
{"id": "C45", "title": "Split and merge on product points are inverse", "statement": "merge(split(x))=x for every x of the right size, split(merge(xs))=xs for every list of blocks of the right sizes; wrong total sizes are rejected.", "quantifier": "every list of components and every vector", "why_tests_cant": "Universal.", "anchors": ["include/proxsuite-nlp/modelling/spaces/cartesian-product.hxx: split_impl, merge"]}
{"id": "C46", "title": "isNormalized on a product checks all components", "statement": "CartesianProduct::isNormalized(x) is true exactly when every block of x is normalized for its component.", "quantifier": "every product and x", "why_tests_cant": "Needs a non-normalized element in some component; tests only use valid ones.", "anchors": ["include/proxsuite-nlp/modelling/spaces/cartesian-product.hxx: isNormalized", "include/proxsuite-nlp/modelling/residuals/state-residual.hpp: ManifoldDifferenceToPoint constructor"]}
{"id": "C47", "title": "Product operators keep the order of the factors", "statement": "a*b is the product whose components are those of a followed by those of b, for every combination of plain manifolds and products; addComponent appends at the end.", "quantifier": "every combination of operands", "why_tests_cant": "Tests only multiply left-associated chains.", "anchors": ["include/proxsuite-nlp/modelling/spaces/cartesian-product.hpp: operator*, addComponent"]}
{"id": "C48", "title": "Tangent bundles inherit the manifold laws", "statement": "If the base manifold satisfies the laws, its tangent bundle satisfies integrate/difference inverse laws, with nx = base.nx + base.ndx, ndx = 2 base.ndx, and block-diagonal Jacobians.", "quantifier": "every base manifold, points, vectors", "why_tests_cant": "Universal over manifolds.", "anchors": ["include/proxsuite-nlp/modelling/spaces/tangent-bundle.hpp", "include/proxsuite-nlp/modelling/spaces/tangent-bundle.hxx"]}
{"id": "C49", "title": "Tangent-bundle interpolation joins its end points", "statement": "interpolate(x0,x1,0)=x0 and interpolate(x0,x1,1)=x1 on a tangent bundle.", "quantifier": "every base manifold and pair of points", "why_tests_cant": "Universal; the only test discards the result.", "anchors": ["include/proxsuite-nlp/modelling/spaces/tangent-bundle.hxx: interpolate_impl"]}
{"id": "C50", "title": "Block-kind algebra over-approximates matrix algebra", "statement": "If blocks have the declared kinds then the sum, product and transpose of the blocks have the kinds given by add, mul and trans; add and mul are commutative/associative/monotone as the symbolic factorisation relies on.", "quantifier": "every block sizes and entries", "why_tests_cant": "Universal over matrices.", "anchors": ["include/proxsuite-nlp/linalg/block-kind.hpp", "src/block-kind.cpp: trans, add, mul"]}
{"id": "C51", "title": "Symbolic factorisation predicts the fill-in of the numeric one", "statement": "If llt_in_place succeeds on the pattern of a symmetric matrix, the lower factor L of the LDL^T factorisation of every matrix with that pattern (when it exists) has the computed pattern; it fails only on patterns with a non-diagonal triangular or zero pivot block.", "quantifier": "every number of blocks, block sizes, matrix with the pattern", "why_tests_cant": "Universal over patterns and matrices.", "anchors": ["src/block-kind.cpp: llt_in_place"]}
{"id": "C52", "title": "The sparsifying permutation is optimal", "statement": "brute_force_best_permutation returns a permutation whose symbolic factor has the least nonzero count among all permutations tried, the first such in lexicographic order; it is a permutation of the blocks.", "quantifier": "every pattern and number of blocks", "why_tests_cant": "Factorially many candidates; tests inspect one instance.", "anchors": ["src/block-kind.cpp: brute_force_best_permutation, symbolic_deep_copy, count_nnz"]}
{"id": "C53", "title": "The block permutation lifts to a permutation of the matrix rows", "statement": "For every permutation of the blocks the scalar permutation used to permute the matrix is a bijection of the rows that maps consecutive positions inside each block to consecutive rows of the original block; permuting, factorising and solving in permuted coordinates solves the original system.", "quantifier": "every block sizes and permutation", "why_tests_cant": "Universal.", "anchors": ["include/proxsuite-nlp/linalg/block-ldlt.hxx: updateBlockPermutationMatrix, solveInPlace", "include/proxsuite-nlp/linalg/block-ldlt.hpp: compute"]}
{"id": "C54", "title": "Re-running pattern analysis is harmless", "statement": "Calling findSparsifyingPermutation / setBlockPermutation again on a BlockLDLT keeps the object correct (the stored structure is a valid factor pattern for the permuted input).", "quantifier": "every history of analysis calls", "why_tests_cant": "Histories; tests call it once.", "anchors": ["include/proxsuite-nlp/linalg/block-ldlt.hpp: setBlockPermutation, findSparsifyingPermutation, analyzePattern", "src/block-kind.cpp: symbolic_deep_copy"]}
{"id": "C55", "title": "Dense LDLT reconstructs the matrix and solves the system", "statement": "If no zero pivot is met, after compute(A) (A symmetric) L*D*L^T=A with L unit lower triangular, and solveInPlace(b) returns x with A x=b.", "quantifier": "every size (blocked recursion included), symmetric matrix with nonzero pivots, right-hand side", "why_tests_cant": "Universal over matrices.", "anchors": ["include/proxsuite-nlp/linalg/dense.hpp: ldlt_in_place_unblocked, dense_ldlt_in_place, dense_ldlt_solve_in_place, dense_ldlt_reconstruct"]}
{"id": "C56", "title": "The reported definiteness sign of DenseLDLT is that of the last matrix", "statement": "sign() (isPositive/isNegative) after compute(A) classifies A itself.", "quantifier": "every history of compute() calls", "why_tests_cant": "Histories.", "anchors": ["include/proxsuite-nlp/linalg/dense.hpp: update_sign_matrix, DenseLDLT::compute"]}
{"id": "C57", "title": "The inertia read off a factorisation is the inertia of the matrix", "statement": "The signature of the diagonal/block-diagonal factor has as many +1/-1/0 entries as the matrix has positive/negative/zero eigenvalues (Sylvester), for LDLT and for Bunch-Kaufman.", "quantifier": "every symmetric matrix with an exact factorisation", "why_tests_cant": "Universal over matrices.", "anchors": ["include/proxsuite-nlp/ldlt-allocator.hpp: bunch_kaufman_compute_signature, ComputeSignatureVisitor"]}
{"id": "C58", "title": "Bunch-Kaufman factorises every symmetric matrix it accepts and solves the system", "statement": "For every symmetric matrix, the unblocked Bunch-Kaufman routine either reports NumericalIssue or yields P A P^T = L D L^T with L unit lower triangular and D block diagonal with nonsingular 1x1/2x2 blocks, and the solve routine then returns the solution.", "quantifier": "every size, symmetric matrix, right-hand side", "why_tests_cant": "Universal over matrices.", "anchors": ["include/proxsuite-nlp/linalg/bunchkaufman.hpp: bunch_kaufman_in_place_unblocked, bunch_kaufman_solve_in_place"]}
{"id": "C59", "title": "Structured block products compute alpha*lhs*rhs^T", "statement": "gemmt(dst,lhs,rhs,kinds,alpha) adds alpha*lhs*rhs^T to dst whenever lhs and rhs have the declared kinds.", "quantifier": "every pair of kinds, block sizes and matrices", "why_tests_cant": "Tests only reach some kind pairs.", "anchors": ["include/proxsuite-nlp/linalg/gemmt.hpp"]}
{"id": "C60", "title": "Block triangular solve solves the triangular system", "statement": "TriangularBlockMatrix::solveInPlace returning true leaves x with T x=b for every block triangular matrix with the declared structure and supported diagonal kinds (lower, unit lower, upper, unit upper).", "quantifier": "every block structure, sizes, matrices, right-hand sides", "why_tests_cant": "Universal over structures.", "anchors": ["include/proxsuite-nlp/linalg/block-triangular.hpp"]}
{"id": "C61", "title": "Block LDLT equals the dense LDLT on matrices with the declared pattern", "statement": "If the matrix has the declared block pattern and no zero pivot occurs, BlockLDLT computes L, D with L D L^T = P^T A P.", "quantifier": "every block structure, sizes, matrices", "why_tests_cant": "Universal.", "anchors": ["include/proxsuite-nlp/linalg/block-ldlt.hpp: block_ldlt_in_place_unblocked"]}
{"id": "C62", "title": "polymorphic<T> has value semantics and never leaks or double-frees", "statement": "For every sequence of construct/copy/move/assign/swap/destroy operations on polymorphic objects, copies are independent of their originals, every live object owns exactly one value no other owns (or is valueless after move), each value is destroyed exactly once, and self-assignment is harmless.", "quantifier": "every operation history on any number of objects", "why_tests_cant": "Histories.", "anchors": ["include/proxsuite-nlp/third-party/polymorphic_cxx14.hpp"]}
{"id": "C63", "title": "Copies and assignments of the block factorisation own separate storage", "statement": "Copying or assigning a SymbolicBlockMatrix-owning BlockLDLT leaves two independently destructible objects; no buffer is freed twice and none is leaked.", "quantifier": "every history of construction, copy, assignment, analysis, destruction", "why_tests_cant": "Histories.", "anchors": ["include/proxsuite-nlp/linalg/block-ldlt.hpp", "include/proxsuite-nlp/linalg/block-kind.hpp", "src/block-kind.cpp: copy"]}
{"id": "C64", "title": "History callback records a snapshot per invocation", "statement": "After n invocations the history holds n entries and entry k equals the solver state at the k-th invocation, for every stored quantity.", "quantifier": "every sequence of solver states", "why_tests_cant": "Histories.", "anchors": ["include/proxsuite-nlp/helpers/history-callback.hpp"]}
{"id": "C65", "title": "Proximal term is centred at the previous outer iterate", "statement": "During outer iteration k the proximal penalty is rho/2 times the squared distance to the iterate accepted by outer iteration k-1 (to x0 for the first). Its weight at outer iteration i is rho_init times the i-th power of the update factor.", "quantifier": "every execution with rho>0", "why_tests_cant": "All executions.", "anchors": ["include/proxsuite-nlp/prox-solver.hxx: solve, prox_penalty", "include/proxsuite-nlp/modelling/costs/squared-distance.hpp"]}
{"id": "C66", "title": "max-norm helper and finite-value checks", "statement": "infty_norm of a vector (of a list of vectors) is the largest absolute entry, 0 when empty; it is zero only for the zero vector; check_value flags exactly the vectors with a NaN or infinite entry.", "quantifier": "every vector / list of vectors of extended reals", "why_tests_cant": "Universal.", "anchors": ["include/proxsuite-nlp/math.hpp"]}
{"id": "C67", "title": "The default KKT block structure covers the KKT matrix", "statement": "create_default_block_structure on primal sizes and dual sizes gives a symmetric pattern with all primal-primal and primal-dual blocks dense and dual-dual blocks diagonal, whose sizes add up to the KKT dimension; every assembled KKT matrix has that pattern.", "quantifier": "every list of primal and dual sizes", "why_tests_cant": "Universal over lists.", "anchors": ["include/proxsuite-nlp/ldlt-allocator.hpp: create_default_block_structure, get_total_dim_helper", "include/proxsuite-nlp/prox-solver.hxx: assembleKktMatrix"]}
{"id": "C68", "title": "With correct inertia the Newton step is a descent direction of the merit function", "statement": "If mu>0, the Hessian of the Lagrangian plus (1/mu) times the active constraint Jacobian Gram matrix is positive definite and the step solves the KKT system exactly, then the directional derivative passed to the line search is negative unless the residual is zero, in either KKT mode.", "quantifier": "every problem data", "why_tests_cant": "Universal.", "anchors": ["include/proxsuite-nlp/prox-solver.hxx: innerLoop", "include/proxsuite-nlp/pdal.hxx"]}
{"id": "C69", "title": "Iterates move along retractions and never leave the manifold", "statement": "Every accepted primal iterate is the retraction (manifold integrate) of the previous one along a tangent vector scaled by the line-search step in [alpha_min,1]; the multipliers move with the same step length; hence any property of points preserved by integrate that x0 has is shared by all iterates and by the returned point.", "quantifier": "every problem, manifold, linear solver, settings, start and history", "why_tests_cant": "Universal over executions and manifolds.", "anchors": ["include/proxsuite-nlp/prox-solver.hxx: innerLoop, tryStep"]}
{"id": "C70", "title": "With an exact linear solver and correct inertia the step is the semismooth Newton step", "statement": "If the linear solver is exact and reports inertia correctly, no initial regularisation is set and the KKT matrix assembled at the current point has n positive and m negative eigenvalues, the accepted step is a multiple of the solution of the semismooth Newton system for the optimality conditions of the subproblem, without regularisation.", "quantifier": "every problem data, both KKT systems", "why_tests_cant": "Universal.", "anchors": ["include/proxsuite-nlp/prox-solver.hxx: innerLoop, assembleKktMatrix, iterativeRefinement"]}
{"id": "C71", "title": "An accepted step strictly decreases the merit function", "statement": "In the primal-dual KKT mode, under the hypotheses of C70, from a point that is not a solution of the subproblem the accepted step decreases the primal-dual merit function by at least the Armijo amount unless the line search stopped on one of its exits (tiny slope, alpha_min, number of trials).", "quantifier": "every problem data and line-search options", "why_tests_cant": "Universal.", "anchors": ["include/proxsuite-nlp/prox-solver.hxx: innerLoop", "include/proxsuite-nlp/linesearch-armijo.hpp: run"]}
{"id": "C72", "title": "solve always returns", "statement": "For every problem whose functions do not throw, with regularisation factors above 1 and valid line-search options, solve() after setup() returns: no exception and no infinite loop, with a bound on the passes inside a step that does not depend on the problem.", "quantifier": "every problem, linear solver with signature entries in {-1,0,1}, start, history", "why_tests_cant": "Termination over all inputs.", "anchors": ["include/proxsuite-nlp/prox-solver.hxx: solve, innerLoop"]}
{"id": "C73", "title": "The linear residual reports its exact derivatives", "statement": "The linear function built from (A, b) evaluates to A x + b, and its Jacobian and vector-Hessian product are the derivatives of its value and of its Jacobian at every point.", "quantifier": "every matrix A, vector b and point x, all sizes", "why_tests_cant": "derivative at every point for every size", "anchors": ["include/proxsuite-nlp/modelling/residuals/linear.hpp: LinearFunctionTpl", "include/proxsuite-nlp/function-base.hpp: vectorHessianProduct"]}
{"id": "C74", "title": "Transport on products and bundles acts block by block", "statement": "JintegrateTransport on a Cartesian product replaces the rows of each block by the component's transport of those rows and leaves further rows unchanged; on a tangent bundle it transports only the base rows.", "quantifier": "every list of components, point, tangent vector and matrix", "why_tests_cant": "any number and size of components", "anchors": ["include/proxsuite-nlp/modelling/spaces/cartesian-product.hxx: JintegrateTransport", "include/proxsuite-nlp/modelling/spaces/tangent-bundle.hxx: JintegrateTransport"]}
{"id": "C75", "title": "The nonzero count counts the positions the pattern allows", "statement": "count_nnz returns the number of matrix positions that the declared block pattern allows to be nonzero, when blocks declared diagonal or triangular are square.", "quantifier": "every number of blocks, block sizes and pattern", "why_tests_cant": "Universal over patterns.", "anchors": ["src/block-kind.cpp: count_nnz"]}
{"id": "C76", "title": "The symmetry check recognises patterns of symmetric matrices", "statement": "check_if_symmetric answers true exactly when the pattern equals the pattern of its transpose.", "quantifier": "every number of blocks and pattern", "why_tests_cant": "Universal over patterns.", "anchors": ["src/block-kind.cpp: check_if_symmetric"]}
{"id": "C77", "title": "Allocating the block-sparse KKT solver always succeeds", "statement": "For every nonempty list of primal and dual block sizes, allocating the block-sparse solver ends with a successful pattern analysis of the KKT structure: bijective row permutation, stored pattern valid for the factor of every KKT matrix.", "quantifier": "every lists of primal and dual sizes, every content of the uninitialised memory", "why_tests_cant": "Universal over lists of sizes.", "anchors": ["include/proxsuite-nlp/ldlt-allocator.hpp: allocate_ldlt_from_sizes, create_default_block_structure", "include/proxsuite-nlp/linalg/block-ldlt.hxx: findSparsifyingPermutation"]}
{"id": "C78", "title": "LDLT never breaks down on KKT matrices with positive definite Hessian block", "statement": "If the Hessian block of the KKT matrix is symmetric positive definite and the dual diagonal negative (mu>0), the unpivoted LDLT factorisation exists for every symmetric reordering of rows and columns, compute() meets no zero pivot, pivots of primal rows are positive and pivots of dual rows negative.", "quantifier": "every primal and dual size, Hessian block, Jacobian, dual diagonal, permutation, object history", "why_tests_cant": "Universal over matrices and orderings.", "anchors": ["include/proxsuite-nlp/linalg/dense.hpp: dense_ldlt_in_place", "include/proxsuite-nlp/prox-solver.hxx: assembleKktMatrix", "include/proxsuite-nlp/linalg/block-ldlt.hxx: findSparsifyingPermutation"]}
{"id": "C79", "title": "The library's linear solvers are exact on the solver's KKT matrices", "statement": "With any of the library's linear solver choices (Bunch-Kaufman, dense LDLT, block-sparse LDLT) the inertia check accepts every KKT matrix with positive definite Hessian block and mu > 0 at the first try, the system is solved exactly (up to rounding), and therefore the step taken is the Newton step of the optimality conditions, scaled by the line search, and decreases the merit function. Bunch-Kaufman does so on every symmetric matrix with the right numbers of positive and negative eigenvalues.", "quantifier": "all problem dimensions, Hessians, Jacobians, constraint sets, penalty parameters, multipliers, earlier contents of the factorisation object, block sizes", "why_tests_cant": "Tests solve a handful of matrices; the claim is about every matrix and composes factorisation, signature, inertia check, solve and step.", "anchors": ["include/proxsuite-nlp/ldlt-allocator.hpp: allocate_ldlt_from_sizes, ComputeSignatureVisitor", "include/proxsuite-nlp/prox-solver.hxx: innerLoop, iterativeRefinement", "include/proxsuite-nlp/linalg/bunchkaufman.hpp", "include/proxsuite-nlp/linalg/dense.hpp", "include/proxsuite-nlp/linalg/block-ldlt.hpp"]}
{"id": "C80", "title": "solve converges on convex quadratic programs", "statement": "For every strictly convex quadratic program with linearly independent equality constraints, solve (NEWTON multiplier update, no proximal term, any KKT formulation, any of the library's linear solvers) returns, for large enough iteration budgets, a point and multipliers satisfying the optimality conditions up to target_tol, from every starting point and every initial multipliers within the stated distance of the optimal ones; the flag is SUCCESS unless a residual equals target_tol exactly.", "quantifier": "all dimensions, all such programs, all starts, all earlier histories, all settings in the stated range (which contains the defaults), all three linear solvers", "why_tests_cant": "Convergence is a statement about infinitely many programs and runs of unbounded length; a test shows single runs", "anchors": ["include/proxsuite-nlp/prox-solver.hxx: solve, innerLoop, updatePenalty, updateToleranceFailure, updateToleranceSuccess", "include/proxsuite-nlp/linesearch-armijo.hpp: run", "include/proxsuite-nlp/pdal.hxx"]}
{"id": "C81", "title": "The rigid-transformation action returns the transformed point and its true Jacobian", "statement": "For every stored point p and every configuration of SE(3) given as translation and unit quaternion, evaluating the point-action function returns q p q* + t, two stored points keep their distance, and the Jacobian written equals the derivative of the value along every retraction whose initial velocity is the body twist. The function carries no vector-Hessian product of its own; the inherited zero is not its second derivative, and nothing checks that the quaternion is normalised.", "quantifier": "all stored points, all points of SE(3), all body-frame retractions", "why_tests_cant": "the configuration space is a continuum of rotations; a test samples a few configurations and compares with finite differences up to a tolerance", "anchors": ["include/proxsuite-nlp/modelling/residuals/rigid-transform-point.hpp: RigidTransformationPointActionTpl"]}
{"id": "C82", "title": "The ProxSuite LDLT wrapper solves, reconstructs and reports the inertia of the matrix it was given", "statement": "Given a correct external factorisation A = P L D L^T P^T, the wrapper's solve returns the solution of A x = b whenever every pivot exceeds the threshold (and a solution of every solvable system when the remaining pivots are zero), reconstructedMatrix() returns A, and the inertia counted from vectorD() is that of A; the definiteness sign it reports is that of A.", "quantifier": "all sizes, all symmetric matrices and pivot orders, all right-hand sides", "why_tests_cant": "the pivot order is chosen by another library from the entries; tests exercise a few random matrices and orders", "anchors": ["include/proxsuite-nlp/linalg/proxsuite-ldlt-wrap.hpp: ProxSuiteLDLTWrapper, solve_impl", "include/proxsuite-nlp/ldlt-allocator.hpp: allocate_ldlt_from_sizes"]}
{"id": "C83", "title": "Every inner loop ends by its own test", "statement": "With the primal-dual KKT system, on a problem with smooth cost bounded below and affine constraints in any mix of equality, orthant, box and L1 sets, each inner loop of solve stops because its tolerance (or the target tolerance) is met, after a number of steps bounded by (merit at entry - lower bound of the cost) / (a decrease computed from the data); solve can then only fail by its outer budget, and its result does not depend on max_iters once that is large enough.", "quantifier": "all problems of the class (any size, any sets, identity / Gauss-Newton / exact Hessian with bounded positive definite Hessians), all starting points and multipliers, all penalties, all linear solvers of the library, all interpolation strategies of the line search", "why_tests_cant": "a test sees finitely many runs; that no run stalls needs the decrease of the merit function in every step", "anchors": ["include/proxsuite-nlp/prox-solver.hxx innerLoop", "include/proxsuite-nlp/linesearch-armijo.hpp ArmijoLinesearch::run", "include/proxsuite-nlp/pdal.hxx"]}
{"id": "C84", "title": "SUCCESS bounds the suboptimality of the returned point", "statement": "On a problem with convex cost and affine constraints in built-in sets, if solve returns SUCCESS (multiplier mode NEWTON) with reported penalty mu, the constraint values are within target_tol of the sets and no feasible point improves the total cost (L1 penalties included) by more than an explicit bound in target_tol, target_tol/mu, the multipliers and the distance.", "quantifier": "all convex problems of the class, all settings, starting points, warm starts, linear solvers", "why_tests_cant": "tests compare a few runs with known solutions; the statement is about every feasible competitor and every run", "anchors": ["include/proxsuite-nlp/prox-solver.hxx computePrimalResiduals, solve", "include/proxsuite-nlp/modelling/constraints/l1-penalty.hpp"]}
{"id": "C85", "title": "Convergence with inequality constraints", "statement": "On a smooth strongly convex problem with affine constraints in equality, nonpositive-orthant and box sets that has a solution with multipliers, with the primal-dual KKT system, multiplier mode NEWTON and settings whose inner tolerances are small relative to the penalty and whose smallest penalty leaves room for the target tolerance, solve returns SUCCESS from every starting point once max_iters is large enough, after fewer than (levels+1)(rounds+1) outer iterations, unless some outer iteration ends with a residual exactly equal to target_tol. The returned point is within an explicit distance of the solution.", "quantifier": "all problems of the class, all starting points, all initial multipliers in the ball the settings are made for, all linear solvers of the library, all states of a reused solver", "why_tests_cant": "a test runs a few problems from a few points; convergence from every point on every problem is a statement about unboundedly many runs of unbounded length", "anchors": ["include/proxsuite-nlp/prox-solver.hxx solve, innerLoop, updatePenalty, updateToleranceSuccess, updateToleranceFailure, acceptMultipliers", "include/proxsuite-nlp/pdal.hxx"]}
{"id": "C86", "title": "Jacobians of spaces are derivatives", "statement": "Jintegrate(x, v, J, arg) and Jdifference(x0, x1, J, arg) overwrite J with the derivative of integrate (difference) with respect to the chosen argument, moved along the space's own retraction: on vector spaces everywhere, and on Cartesian products and tangent bundles wherever it holds for the components (the base).", "quantifier": "every vector space, every list of component spaces (nested products and bundles included), every base space, points, tangent vectors, both arguments, every previous content of J", "why_tests_cant": "tests compare with finite differences at a few points of a few spaces; derivatives at all points of all combinations of spaces need a proof", "anchors": ["include/proxsuite-nlp/modelling/spaces/cartesian-product.hxx: Jintegrate_impl, Jdifference_impl", "include/proxsuite-nlp/modelling/spaces/tangent-bundle.hxx: Jintegrate_impl, Jdifference_impl", "include/proxsuite-nlp/modelling/spaces/vector-space.hpp: Jintegrate_impl, Jdifference_impl"]}
{"id": "C87", "title": "Distance costs measure the distance to their own target", "statement": "A QuadraticDistanceCost evaluates to 1/2 d^T W d for the difference d between its target (the one it was constructed with or last given by updateTarget) and x, its gradient is the derivative of that along the space's retraction, targets that are not elements of the space are rejected, and updating the target of one cost leaves all other costs (copies included) as they were.", "quantifier": "every program of constructions, copies, assignments, target updates and evaluations on any spaces", "why_tests_cant": "aliasing shows up only in particular histories of copies and updates; values and derivatives must hold for all spaces, targets and points", "anchors": ["include/proxsuite-nlp/modelling/costs/squared-distance.hpp: QuadraticDistanceCostTpl, getTarget, updateTarget", "include/proxsuite-nlp/modelling/residuals/state-residual.hpp: ManifoldDifferenceToPoint"]}
{"id": "C88", "title": "Transport multiplies by the Jacobian of integrate", "statement": "JintegrateTransport(x, v, J, arg) replaces J by the product of the matrix returned by Jintegrate(x, v, ., arg) with J, on vector spaces, and on products and tangent bundles whose components have this property.", "quantifier": "all spaces built from such components, all points, tangent vectors, matrices with any number of columns, all argument positions", "why_tests_cant": "the loops of products and bundles address rows by running offsets; agreement of two separately coded functions must hold for all shapes", "anchors": ["include/proxsuite-nlp/modelling/spaces/cartesian-product.hxx: JintegrateTransport, Jintegrate_impl", "include/proxsuite-nlp/modelling/spaces/tangent-bundle.hxx: JintegrateTransport", "include/proxsuite-nlp/modelling/spaces/vector-space.hpp"]}
{"id": "C89", "title": "Wrapped Lie groups and multibody configurations are the groups they wrap", "statement": "The manifold that wraps a Pinocchio Lie group or the configuration space of a model has the points, operations, interpolation and (for argument positions 0 and 1) Jacobians and transport of the group: it obeys the manifold laws, isNormalized recognises the points, and its Jacobians are derivatives, whenever Pinocchio's functions do.", "quantifier": "all groups, points, tangent vectors and output buffers", "why_tests_cant": "a swapped argument position or a missing size check shows only on particular groups and points; laws quantify over all of them", "anchors": ["include/proxsuite-nlp/modelling/spaces/pinocchio-groups.hpp: PinocchioLieGroup", "include/proxsuite-nlp/modelling/spaces/multibody.hpp: MultibodyConfiguration, MultibodyPhaseSpace", "bindings/python/expose-manifold.cpp: Jintegrate, Jdifference"]}
{"id": "C90", "title": "Python cost operators compute like values", "statement": "In Python, for every program that binds names to costs with =, +, scalar *, unary minus, CostSum(nx, ndx), add_component, += and *=, every name evaluates (value, gradient, Hessian) to what the same statements compute on numbers, vectors or matrices: a statement changes only the name it assigns.", "quantifier": "every sequence of such statements over any names, any user costs and any values they return, any nesting of sums", "why_tests_cant": "the effect of a statement depends on which objects the names share after every possible history of earlier statements; tests use one expression at a time", "anchors": ["bindings/python/expose-cost.cpp (__add__, __mul__, __rmul__, __iadd__, __imul__, add_component)", "include/proxsuite-nlp/cost-sum.hpp"]}
{"id": "C91", "title": "The reported value, violations and active set describe the returned point", "statement": "When solve() returns, results.value, results.constraint_violations and results.active_set are those of the returned point and multipliers: the value is the cost there, there is one violation per constraint and prim_infeas is their maximum, and a row is reported active exactly when its multiplier says so (equality rows always; inequality rows when positive; bound rows when nonzero).", "quantifier": "every problem, settings, starting point, warm start, earlier history of the solver and flag returned", "why_tests_cant": "the reported fields are written at the top of each inner iteration while the point moves afterwards; a test sees the few runs it makes, not every way of leaving the two nested loops", "anchors": ["include/proxsuite-nlp/prox-solver.hxx (innerLoop, computePrimalResiduals, computeMultipliers, acceptMultipliers)", "include/proxsuite-nlp/results.hpp (ResultsTpl)"]}
{"id": "C92", "title": "A copy of the results is a snapshot", "statement": "A results object made by copying another keeps its own values: later solves, setup() calls, copies, moves, assignments and destructions of other results objects do not change what any of its members show, and assigning one results object to another makes the members equal and touches nothing else.", "quantifier": "every program (finite sequence of constructions, copies, moves, assignments, solves and destructions) and every object alive at its end, for all constraint dimensions", "why_tests_cant": "the aliasing only shows when the original is changed, assigned through or destroyed after the copy; a test would have to hit each interleaving", "anchors": ["include/proxsuite-nlp/results.hpp (ResultsTpl: x_opt, data_lams_opt, lams_opt)", "include/proxsuite-nlp/problem-base.hpp (helpers::createConstraintWiseView, allocateMultipliersOrResiduals)", "include/proxsuite-nlp/prox-solver.hpp (setup, results_)"]}
{"id": "C93", "title": "Default formulation on convex quadratic programs with inequalities", "statement": "On a feasible strictly convex quadratic program with affine inequality constraints, solve() with the default settings (classic KKT system, cubic interpolation) ends with SUCCESS within the iteration budget.", "quantifier": "all feasible strictly convex quadratic programs with inequality constraints, all starting points, all linear solvers of the library", "why_tests_cant": "failures occur on a few percent of random small problems, depend on the starting point and on the exact values of the line search, and look like slow convergence: whether the run ever leaves the stall cannot be seen from a test with a finite budget", "anchors": ["include/proxsuite-nlp/prox-solver.hxx (innerLoop, KKT_CLASSIC)", "include/proxsuite-nlp/linesearch-armijo.hpp (run, minimize_interpolant)", "include/proxsuite-nlp/pdal.hxx"]}
{"id": "C94", "title": "Objects used from Python outlive what refers to them", "statement": "A Python program, whatever its statements and their order, never makes the library use an object that has already been destroyed: a solver can be built on a temporary problem, a finite-difference helper on a temporary function, results and points read from a solver stay usable after setup() or after the solver variable is deleted, and a manifold read from a problem stays usable after the problem's manifold is assigned.", "quantifier": "all Python programs built from the constructors, getters, setters and method calls of the bindings, in any order, with any deletions and exceptions", "why_tests_cant": "Use after free depends on the whole history of creations and deletions and usually shows no effect in a test; tests keep every object in a local variable.", "anchors": ["bindings/python/expose-solver.cpp: exposeSolver", "bindings/python/expose-problem.cpp", "bindings/python/expose-autodiff.cpp", "bindings/python/expose-results.cpp", "include/proxsuite-nlp/prox-solver.hpp: problem_, setup", "include/proxsuite-nlp/modelling/autodiff/finite-difference.hpp: func, space"]}
{"id": "C95", "title": "A solver object keeps its settings when it is moved", "statement": "A solver uses the dual penalty weight that was last set on it, whatever was done to it and to other solvers before: in particular a solver obtained by moving another one (growth of a std::vector of solvers, returning a named solver, std::make_unique(std::move(s))) uses the weight of the solver it was moved from until setDualPenalty is called on it, and the weight set by that call afterwards.", "quantifier": "all sequences of construction, move construction, setup, setDualPenalty and destruction of any number of solvers, all weights", "why_tests_cant": "The implicit move constructor leaves the new object referring to a member of the old one; the old value is usually still in memory, so a test sees the right number.", "anchors": ["include/proxsuite-nlp/prox-solver.hpp: merit_fun, pdal_beta_, setDualPenalty", "include/proxsuite-nlp/prox-solver.hxx: ProxNLPSolverTpl::ProxNLPSolverTpl, computeMultipliers", "include/proxsuite-nlp/pdal.hpp: beta_", "include/proxsuite-nlp/pdal.hxx: computeGradient"]}
{"id": "C96", "title": "Console output follows the verbosity setting", "statement": "A solve with verbose = QUIET prints nothing; any other solve prints the column titles, one row per accepted step, numbered from 1 to the number of iterations, with the merit value of the step and non-decreasing outer iteration numbers, the titles again before every 25th row, and the message of the returned flag.", "quantifier": "all problems, settings, and histories of setup(), solve() and verbosity changes", "why_tests_cant": "Whether rows appear depends on the verbosities of all earlier solves of the same object; tests solve once.", "anchors": ["include/proxsuite-nlp/logger.hpp: BaseLogger", "include/proxsuite-nlp/prox-solver.hxx: solve, innerLoop", "include/proxsuite-nlp/prox-solver.hpp: verbose, logger"]}
{"id": "C97", "title": "Several solvers on one problem do not disturb one another", "statement": "Any number of solvers may be built on one problem and used in any order. A call of solve() gives the same return value, results and trace as if the other solvers did not exist, whatever they solved in between. A callback registered with a solver may run a second solver on the same problem: the first solver's SUCCESS still certifies an approximate KKT point of the original problem.", "quantifier": "all problems, lists of solvers with any settings and states, sequences of solve calls; all callbacks that run other solvers on the same problem", "why_tests_cant": "Tests build one solver per problem and register callbacks that only record; the constraint sets shared by all solvers of a problem carry a prox parameter that each solver writes, and whether a write by another solver is visible depends on the order of calls and on where inside a solve a callback fires.", "anchors": ["include/proxsuite-nlp/prox-solver.hxx: SolverTpl::solve, setPenalty, invokeCallbacks", "include/proxsuite-nlp/constraint-set.hpp: ConstraintSetTpl::setProxParameter, mu_", "include/proxsuite-nlp/modelling/constraints/l1-penalty.hpp", "include/proxsuite-nlp/helpers-base.hpp"]}
{"id": "C98", "title": "NaN and infinite values from user functions are never certified", "statement": "User functions may return NaN or infinities at points outside their domain, and bounds of boxes may be infinite. If solve() returns SUCCESS, then the cost, the gradient, the Jacobian and the constraints are finite numbers at the returned point, and the point and multipliers are certified to the tolerance; the verdict does not depend on the order of the constraints. A call that meets a non-finite gradient, Jacobian, multiplier or constraint value at its first point throws. On finite data nothing changes.", "quantifier": "all problems whose functions return numbers, NaN or infinities at any point, all built-in sets with finite or infinite bounds, all settings, steps, starting points, prior states, and all values Eigen may return for the norm of a vector with NaN", "why_tests_cant": "Tests use functions that are finite everywhere. Whether a NaN reaches a check or vanishes in a comparison or a maximum depends on where it appears, in which constraint, and at which iterate.", "anchors": ["include/proxsuite-nlp/prox-solver.hxx: SolverTpl::innerLoop, computePrimalResiduals", "include/proxsuite-nlp/math.hpp: math::checkScalar, math::checkValue", "include/proxsuite-nlp/exceptions.hpp: PROXSUITE_NLP_RAISE_IF_NAN_NAME", "include/proxsuite-nlp/modelling/constraints/negative-orthant.hpp", "include/proxsuite-nlp/modelling/constraints/box-constraint.hpp"]}
{"id": "C99", "title": "Boxes with infinite bounds", "statement": "Bounds of a box constraint may be infinite; an infinite bound is no bound. The projection of every vector is finite and the nearest vector of the box, the normal part is in the normal cone with the sign of the existing bound, the active set is the set of violated coordinates; the box (-inf, 0] behaves as the negative orthant and an unbounded coordinate as no constraint. Bounds that describe no box (crossing, NaN) are not certified silently.", "quantifier": "all sizes, all bounds (numbers, infinities, NaN), all vectors", "why_tests_cant": "Tests use boxes with finite bounds in the right order; infinite, crossing and NaN bounds only show in comparisons with special values.", "anchors": ["include/proxsuite-nlp/modelling/constraints/box-constraint.hpp: BoxConstraintTpl", "include/proxsuite-nlp/constraint-set.hxx: applyProjectionJacobian, applyNormalConeProjectionJacobian", "include/proxsuite-nlp/modelling/constraints/negative-orthant.hpp"]}
{"id": "C100", "title": "SUCCESS and reported residuals in floating-point arithmetic", "statement": "When solve returns SUCCESS, the residuals at the returned point and multipliers, computed in exact arithmetic from the values the user's functions returned, are below target_tol up to an explicit rounding error; a starting point whose exact residuals are below target_tol by more than that error is returned with SUCCESS; SUCCESS does not imply that the exact residuals are below target_tol.", "quantifier": "every rounding function with bounded relative and underflow error (IEEE double among them), every order of summation and every use of fused operations, changing between iterations, every step, multiplier estimate, penalty update and inner criterion, every problem, starting point and settings", "why_tests_cant": "a test compares residuals computed with the same rounding as the solver, on one platform with one order of summation", "anchors": ["include/proxsuite-nlp/prox-solver.hxx: solve, innerLoop, computePrimalResiduals", "include/proxsuite-nlp/math.hpp: infty_norm", "include/proxsuite-nlp/modelling/constraints/*.hpp: projection"]}
{"id": "C101", "title": "The line search in floating-point arithmetic", "statement": "In double precision, whatever the merit function returns (exceptions, NaN, infinities) and whatever the interpolation formulas compute, the line search ends after a bounded number of evaluations, calls the merit function only at steps in [0,1] and returns a step in [alpha_min, 1]. A value it accepts by its sufficient-decrease test is never NaN or +infinity, meets the Armijo inequality up to the rounding of that comparison, and is below the initial merit value unless the required decrease underflows to zero. A step of 1 that beats the Armijo line by more than this rounding is taken after a single evaluation.", "quantifier": "every merit function, initial value and slope, every interpolation outcome, options with 0 < alpha_min <= 1 and 0 < contraction_min <= contraction_max < 1, every order-preserving rounding (IEEE binary64 included)", "why_tests_cant": "Rounding and non-finite values enter at every trial; tests run a few smooth merit functions in which neither matters.", "anchors": ["include/proxsuite-nlp/linesearch-armijo.hpp: run, minimize_interpolant", "include/proxsuite-nlp/linesearch-base.hpp: Options, FunctionSample"]}
{"id": "C102", "title": "Penalty and tolerances in floating-point arithmetic", "statement": "In double precision too: the penalty stays in [mu_lower, mu_init], the inner tolerance is never below inner_tol_min and the primal one never below target_tol and neither grows after a successful iteration; an update factor below 1, however close to 1, really lowers the penalty, and the floor mu_lower is reached exactly after a number of failed iterations that the factor determines, so that the equality test that triggers the reset works. The penalty never becomes zero.", "quantifier": "every problem, every history of outer iterations, every order-preserving rounding; IEEE binary64 for the strict decrease; any computed power function", "why_tests_cant": "The penalty is the result of arbitrarily many rounded products and is then compared for equality.", "anchors": ["include/proxsuite-nlp/prox-solver.hxx: updatePenalty, updateToleranceFailure, updateToleranceSuccess, tolerancePostUpdate", "include/proxsuite-nlp/bcl-params.hpp: BCLParamsTpl"]}
{"id": "C103", "title": "Set operators in double precision", "statement": "In double precision the projection on a hard constraint is exact: it lies in the set, is a nearest point, and leaves points of the set unchanged. The computed normal part and both computed multiplier estimates are exactly in the normal cone at the computed projection (right sign on active rows, zero on inactive ones). The flags of computeActiveSet agree with the computed normal part (L1: with the computed proximal point). Projection and normal part add up to the point up to one relative rounding error. Multiplier estimates are exact up to the rounding errors of the row divided by the penalty parameter; multipliers of the L1 penalty stay in [-1, 1].", "quantifier": "all sets, double-precision points, bounds and parameters, every rounding that respects the order (cone statements), fused or separate operations", "why_tests_cant": "a rounding error that flips a flag or a sign occurs only for particular bit patterns near a bound or in the underflow range", "anchors": ["include/proxsuite-nlp/modelling/constraints/*.hpp projection, normalConeProjection, computeActiveSet", "include/proxsuite-nlp/prox-solver.hxx computeMultipliers"]}
{"id": "C104", "title": "Accuracy of finite-difference derivatives", "statement": "On any manifold the finite-difference Jacobian of a function whose third derivative along each coordinate curve is at most M differs from the true Jacobian by at most M eps^2/6 per entry, and the vector-Hessian product accordingly. In rounded arithmetic on a vector space the error grows by (error of the function values + slope times misplacement of the two points)/eps and two relative roundings; the misplacement is proportional to the size of the point, so that a fixed step gives wrong derivatives at large points.", "quantifier": "all functions with three derivatives, all steps, points, manifolds (exact), all roundings of the standard model (rounded)", "why_tests_cant": "error bounds are statements about all functions and steps; tests compare a few derivatives with a tolerance", "anchors": ["include/proxsuite-nlp/modelling/autodiff/finite-difference.hpp finite_difference_impl"]}
{"id": "C105", "title": "Dense LDLT solve in double precision is backward stable", "statement": "DenseLDLT::compute followed by solve, in rounded arithmetic, returns a vector whose residual in the given symmetric system is a modest multiple of the unit roundoff times the size of the data and of the solution, for every size (recursive splitting included) and every order in which Eigen accumulates the sums.", "quantifier": "every matrix, right-hand side, size, summation order and use of fused multiply-add, every rounding to nearest without underflow", "why_tests_cant": "tests solve a few random well-conditioned systems; the error depends on the values, on the size and on the vectorisation of the machine", "anchors": ["include/proxsuite-nlp/linalg/dense.hpp: ldlt_in_place_unblocked, dense_ldlt_in_place, dense_ldlt_solve_in_place", "include/proxsuite-nlp/linalg/dense.hpp: DenseLDLT"]}
{"id": "C106", "title": "BFGS update in double precision", "statement": "In double precision the BFGS update does what the formula says up to rounding: an update whose computed curvature is not positive leaves the matrix unchanged and clears is_psd; otherwise every entry of the new matrix is the one of the formula, the secant equation, symmetry and the quadratic form holding up to errors relative to the absolute values of the terms. With is_psd set the matrix is symmetric positive definite.", "quantifier": "every dimension, point, gradient and matrix, both types, every order of summation and use of fused multiply-add, every rounding with relative error at most u", "why_tests_cant": "Rounding errors accumulate over histories and depend on magnitudes; tests run a few well-scaled quadratic functions.", "anchors": ["include/proxsuite-nlp/bfgs-strategy.hpp:BFGSStrategy::update"]}
{"id": "C107", "title": "Iterative refinement in double precision", "statement": "In double precision iterativeRefinement returns true only with a step whose exact KKT residual is below the tolerance, up to the rounding error of one residual evaluation; it makes at most max_refinement_steps corrections; with a linear solver of relative residual q (the dense LDLT is one, with q of the order of its backward error times the condition number) the exact residual contracts by about q per correction down to a floor of the order of the condition number times the unit roundoff, and the refinement succeeds when the tolerance is above that floor.", "quantifier": "every matrix, right-hand side, tolerance and number of corrections, every linear solver, every order of summation, every rounding with relative error at most u", "why_tests_cant": "Whether a correction helps depends on conditioning and rounding of every single step; tests check a few well-conditioned systems.", "anchors": ["include/proxsuite-nlp/prox-solver.hxx:iterativeRefinement", "include/proxsuite-nlp/prox-solver.hpp:kkt_tolerance_"]}
{"id": "C108", "title": "Calls made in order never leave their memory", "statement": "Build a problem and a solver, add constraints at any time, call setup() after the last of them, and start solves at points of the right length. Then no call reads or writes outside its memory, combines vectors of different lengths, uses a dangling view or throws, whatever the numbers decide inside the solve, and the results hold one view of the right length for each constraint. A solve after a constraint was added without a new setup(), or from a point of another length, is undefined, and a solve without any setup() throws.", "quantifier": "every problem shape, every history of calls, every number of passes, outer iterations, line-search trials, refinement and inertia turns", "why_tests_cant": "histories of calls and the control flow inside a solve are unbounded; a test runs a few", "anchors": ["include/proxsuite-nlp/problem-base.hpp: ProblemTpl", "include/proxsuite-nlp/workspace.hpp: WorkspaceTpl", "include/proxsuite-nlp/results.hpp: ResultsTpl", "include/proxsuite-nlp/prox-solver.hxx: solve, innerLoop, assembleKktMatrix, iterativeRefinement, tryStep", "include/proxsuite-nlp/pdal.hxx"]}
{"id": "C109", "title": "Solvers running in different threads", "statement": "Solver objects that are used in different threads at the same time do not disturb each other: there is no data race, and under every interleaving of their accesses to shared objects each solve returns what it returns in a program without threads. (Each thread has a solver of its own; the problems, constraint sets and costs the solvers refer to are only used through constant members.)", "quantifier": "every number of threads, every problem, settings, state and starting point of each, and every schedule of the accesses to the objects they have in common", "why_tests_cant": "a test sees a few schedules; a race may need one particular interleaving, and its effect is not defined", "anchors": ["include/proxsuite-nlp/constraint-set.hpp: ConstraintSetTpl::setProxParameter, mu_", "include/proxsuite-nlp/prox-solver.hxx: ProxNLPSolverTpl::setPenalty, ProxNLPSolverTpl::solve", "include/proxsuite-nlp/modelling/costs/quadratic-residual.hxx: QuadraticResidualCostTpl::call, QuadraticResidualCostTpl::computeGradient", "include/proxsuite-nlp/problem-base.hpp: ProblemTpl::cost_, ProblemTpl::constraints_"]}
{"id": "C110", "title": "Exceptions in the middle of a solve", "statement": "A user function, constraint set, manifold or callback may throw at any moment of solve(). Afterwards the results do not claim convergence: the flag is UNINIT, or, if a callback at the very end threw, the results are those solve() would have returned. The results hold the last accepted point and its multipliers, the iteration count and the reported quantities belong to that point, the callbacks have run once for each counted step (and, of the round in which one throws, those before it), and the solver can be used again: the next solve gives what it would have given without the interrupted one.", "quantifier": "every problem, state, argument and every point of the solve at which an exception can be thrown", "why_tests_cant": "the exception can come from any call of any iteration; tests throw at one or two points", "anchors": ["include/proxsuite-nlp/prox-solver.hxx: ProxNLPSolverTpl::solve, ProxNLPSolverTpl::innerLoop", "include/proxsuite-nlp/prox-solver.hpp: ProxNLPSolverTpl::invokeCallbacks"]}
{"id": "C111", "title": "The outcome does not depend on how the problem is written down", "statement": "Adding a constant to the cost changes only the reported value and merit, by that constant. Listing the constraints or the variables of a convex problem in another order permutes multipliers, active set, row errors (or the coordinates of the point) and changes nothing else: same return value, iterates, counts, infeasibilities. Merging several constraints into one, or splitting one, changes nothing. Choosing another of the library's linear solvers, refinement threshold or number of refinement steps changes nothing at all in exact arithmetic.", "quantifier": "every problem (constant: any problem whose functions do not throw, any Hessian option, any linear solver; grouping: any problem and option with the same linear solver; order and choice of solver: positive definite Hessian blocks, EXACT or GAUSS_NEWTON), every permutation, every pair of library linear solvers, every start and settings", "why_tests_cant": "a test compares two orders or two linear solvers on one problem; the claim is about every permutation, every problem and whole runs with all their branches", "anchors": ["include/proxsuite-nlp/prox-solver.hxx: solve, innerLoop, assembleKktMatrix, iterativeRefinement", "include/proxsuite-nlp/linesearch-armijo.hpp: run", "include/proxsuite-nlp/modelling/constraints", "include/proxsuite-nlp/ldlt-allocator.hpp"]}
{"id": "C112", "title": "Points of vector spaces in double arithmetic", "statement": "In a vector space or product of vector spaces with double coordinates: the difference of a point to itself is exactly 0 and moving by 0 leaves the point as it is; exchanging the points negates the difference exactly; the difference is 0 only between equal points, has the right sign and relative error at most 2^-53; moving has relative error at most 2^-53 per coordinate and is monotone; moving by the difference arrives at the target up to a stated rounding error, exactly for coordinates within a factor 2; a step below 2^-55 of each coordinate is lost and one above 2^-52 of some coordinate is seen; interpolation hits both ends exactly.", "quantifier": "all dimensions, all points and steps with double coordinates (no overflow), every choice of fused multiply-add by the compiler", "why_tests_cant": "a test samples points; absorption, cancellation and underflow depend on all bit patterns", "anchors": ["include/proxsuite-nlp/modelling/spaces/vector-space.hpp: integrate_impl, difference_impl, interpolate_impl", "include/proxsuite-nlp/modelling/spaces/cartesian-product.hxx: integrate_impl, difference_impl", "include/proxsuite-nlp/manifold-base.hpp: interpolate_impl"]}
{"id": "C113", "title": "Problems without solution are never reported as solved", "statement": "If every point violates some constraint by at least delta, solve reports a primal infeasibility of at least delta, and with delta >= target_tol it never returns SUCCESS but uses up its step or outer budget. A Farkas vector of affine constraints is enough to know delta. If a convex problem has a ray of feasible points along which the cost decreases, faster than the tolerance can hide, the reported infeasibilities are never both below the tolerance and SUCCESS is never returned. When no tolerance of the schedule exceeds delta, the call keeps its initial multiplier estimate to the end and penalty and tolerances cycle with a fixed period.", "quantifier": "every problem of the class, every start, warm start, settings (0 < mu_lower <= mu_init, update factor at most 1), multiplier mode, linear solver, line search and earlier history", "why_tests_cant": "non-existence of a wrong SUCCESS for all starts and histories; a test can only try some", "anchors": ["include/proxsuite-nlp/prox-solver.hxx: solve, innerLoop, computePrimalResiduals", "include/proxsuite-nlp/modelling/constraints"]}
{"id": "C114", "title": "Guarantees of solve in floating-point arithmetic with overflow", "statement": "When all computations are done in floating-point arithmetic in which every operation rounds, results beyond the largest number become infinite and infinities and NaN propagate, a call of solve that returns SUCCESS still does so at a point where gradient, Jacobian, multipliers and constraint values are numbers and the exact residuals are below the tolerance up to rounding errors; a call whose starting data are not numbers, or whose Lagrangian gradient overflows, throws; and a call whose intermediate results stay in range behaves as if overflow did not exist.", "quantifier": "all problems, formats, orders of summation, fused operations, settings, starting points and multipliers, finite or not", "why_tests_cant": "overflow needs particular huge intermediate values in particular operations; tests use moderate numbers", "anchors": ["include/proxsuite-nlp/prox-solver.hxx: solve, innerLoop, computeMultipliers, computePrimalResiduals", "include/proxsuite-nlp/exceptions.hpp: PROXSUITE_NLP_RAISE_IF_NAN_NAME"]}
{"id": "C115", "title": "Near a solution the residual is squared with every step", "statement": "On a problem with a twice differentiable cost whose Hessian is positive definite and Lipschitz continuous near the start, with affine equality constraints (or none) and exact second derivatives, a start whose Newton step is short compared with (smallest eigenvalue)/(Lipschitz constant) makes every inner iteration of solve a full Newton step; the norm of the residual is at most squared (in fixed units) by each of them, the iterates stay within twice the first step length of the start, the inner loop ends after a number of steps that is doubly logarithmic in its tolerance, and on unconstrained problems solve returns a point with gradient at most target_tol after so many steps in total, flagged SUCCESS unless an entry equals target_tol exactly.", "quantifier": "all dimensions, all such costs, all starts in the region of fast convergence, all tolerances, both KKT systems, all linear solvers of the library, all interpolation strategies of the line search, all earlier histories", "why_tests_cant": "The rate is a statement about every function of the class and every tolerance; a test sees one run, and a run that accepts damped steps or a slightly wrong Hessian also converges, only slower.", "anchors": ["include/proxsuite-nlp/prox-solver.hxx: innerLoop, assembleKktMatrix, tryStep", "include/proxsuite-nlp/linesearch-armijo.hpp: run", "include/proxsuite-nlp/pdal.hpp: pdalMeritFunction"]}
{"id": "C116", "title": "Functions written as CasADi expressions report their exact derivatives", "statement": "An object CasadiFunction(nx, ndx, expression, cx) is either refused when it is made or is a function with as many outputs as the expression has entries whose call returns the values of the expression, whose computeJacobian writes the derivative along the space it was made for and whose vectorHessianProduct writes the derivative of the Jacobian transposed times the vector, whatever the matrices contained before; with use_hessian=False the product is zero. A function class written in Python without one of the methods raises an exception or, for the vector-Hessian product, reports zero.", "quantifier": "every expression (any size and nesting) of constants, symbols, sums, products, quotients, squares, roots, exponentials, logarithms, sines and cosines, every point where it is defined, every vector, every content of the output matrices, every nx, ndx and shape, every set of methods defined in Python", "why_tests_cant": "a test evaluates a few expressions on vector spaces; the wrapper must be right for every expression tree, and the accepted combinations of sizes on which it is wrong look like working code", "anchors": ["bindings/python/proxsuite_nlp/casadi_utils.py: CasadiFunction", "bindings/python/include/proxsuite-nlp/python/function.hpp: C2FunctionWrap", "bindings/python/expose-function.cpp: exposeFunctionTypes"]}
{"id": "C117", "title": "Changing an object after a problem has been built from it", "statement": "A problem evaluates its functions and costs with the parameters (LinearFunction.A, .b) assigned last, also when they are assigned after the constraint or the problem was made; the sets of its constraints are the ones the user passed, as they were when the constraint object was made; its list of constraints changes only by add_constraint on this problem; its dimension changes by nothing else. Changing the data and solving again with an already used solver gives what a new solver gives on a problem built anew with the new data.", "quantifier": "all programs of any length that create and change functions, sets, constraints, costs and problems, in any order", "why_tests_cant": "tests change one parameter of one object; the claim is about every interleaving of creations, assignments and sharing", "anchors": ["include/proxsuite-nlp/constraint-set.hpp: ConstraintObjectTpl", "include/proxsuite-nlp/problem-base.hpp: ProblemTpl", "include/proxsuite-nlp/modelling/residuals/linear.hpp: LinearFunctionTpl", "include/proxsuite-nlp/function-ops.hpp: ComposeFunctionTpl", "bindings/python/expose-constraint.cpp", "bindings/python/expose-residual.cpp", "bindings/python/expose-problem.cpp"]}
{"id": "C118", "title": "Functions that keep results between calls", "statement": "During a solve a derivative of the cost or of a constraint function at a point is requested only after all of them have been evaluated at that point, without an exception, and with no call at another point since; this holds whatever the functions answer, keep or throw. Functions whose derivatives reuse what their last evaluation stored (as QuadraticResidualCost does) are therefore solved exactly like functions without memory, whatever they contained before. The number of calls of each kind is bounded by the options, and by the reported numbers of iterations; when a solve returns before max_iters every function was last evaluated at the returned point.", "quantifier": "every cost and constraint functions with any internal memory and any sequence of answers and exceptions, every set of options, solver state and starting point, every number of iterations", "why_tests_cant": "The order of calls depends on the path through both loops, the line search and its exceptions; a test sees a few paths, and pure test functions cannot notice a wrong order.", "anchors": ["include/proxsuite-nlp/prox-solver.hxx: solve, innerLoop, computeProblemDerivatives", "include/proxsuite-nlp/problem-base.hpp: evaluate, computeDerivatives, computeHessians", "include/proxsuite-nlp/linesearch-armijo.hpp: run", "include/proxsuite-nlp/modelling/costs/quadratic-residual.hxx"]}
{"id": "C119", "title": "Settings changed between calls", "statement": "Every public setting of a solver object has, in a call of solve(), the value last assigned to it, whatever assignments, setter calls, setup() and solve() calls (returned or thrown) came before; a solver adjusted this way gives the same outcome as a new one constructed with those values. Exceptions found in the code: a linear solver chosen after setup() is not used until setup() is called again; setPenalty and setProxParameter have no effect on solve; selecting BFGS after setup() makes solve throw.", "quantifier": "every problem, initial settings, history of assignments, setters, callbacks, setup() and solve() calls, every starting point and multipliers", "why_tests_cant": "Universal over histories of any length and over all settings.", "anchors": ["include/proxsuite-nlp/prox-solver.hpp: public members, setup, setDualPenalty, setPenalty, setProxParameter", "include/proxsuite-nlp/prox-solver.hxx: solve", "bindings/python/expose-solver.cpp"]}
{"id": "C120", "title": "Objects of Python classes stored by value", "statement": "An object of a Python class derived from a wrapped C++ class can be stored in C++ by value: the stored object has the attributes and the C++ members the original had at that time, later changes or the deletion of the original or of other copies do not affect it, C++ calls reach the Python methods of the stored object, no memory is used after its end and none is left over at the end.", "quantifier": "all programs (sequences of statements, of any length, with any number of objects, variables and C++ slots) that create, share, change, store, copy, assign, hand out, call, move and destroy such objects from Python and from C++", "why_tests_cant": "Lifetimes depend on the order of the operations, there are unboundedly many orders, and use of freed memory usually goes unnoticed in a test", "anchors": ["bindings/python/include/proxsuite-nlp/python/polymorphic.hpp: PolymorphicWrapper, OwningNonOwningHolder, PolymorphicVisitor, ToPythonIndirectPoly", "include/proxsuite-nlp/third-party/polymorphic_cxx14.hpp: polymorphic::operator="]}
{"id": "C121", "title": "Block structures stay inside their memory", "statement": "For every block structure whose arrays hold initialised entries inside their bounds, with rows at least as long as the number of blocks: symbolic factorisation, deep copies with and without a permutation, transposition, the nonzero count, the symmetry check and the search of a block order access only entries inside the arrays, read no uninitialised entry, give the result that the block pattern determines, and change nothing outside of the object's own entries; what is done to a view appears in that part of the viewed object only. Allocating the block-sparse solver writes every entry before it is read.", "quantifier": "every number of blocks, pattern, block sizes, row length, position of a view in its array, permutation, lists of primal and dual sizes", "why_tests_cant": "an out-of-bounds or uninitialised read usually goes unnoticed; it depends on the stride, the offset of the view and the order in which blocks are eliminated", "anchors": ["include/proxsuite-nlp/linalg/block-kind.hpp: SymbolicBlockMatrix, ptr, submatrix, transpose", "src/block-kind.cpp: llt_in_place, symbolic_deep_copy, copy, brute_force_best_permutation, count_nnz, check_if_symmetric", "include/proxsuite-nlp/ldlt-allocator.hpp: create_default_block_structure, allocate_ldlt_from_sizes"]}
{"id": "C122", "title": "The printed sparsity pattern shows the positions the pattern allows", "statement": "print_sparsity_pattern prints one line per matrix row, in which a field is filled exactly when the declared block pattern allows a nonzero at that position, and writes nothing outside of its buffer.", "quantifier": "every number of blocks, block sizes and pattern", "why_tests_cant": "the picture has to be right for every combination of kinds and rectangular sizes; a stray write is not visible in the output", "anchors": ["src/block-kind.cpp: print_sparsity_pattern"]}
{"id": "C123", "title": "The Bunch-Kaufman solve is backward stable in floating point", "statement": "With the factors held by a Bunch-Kaufman object, solve(b) carried out in double precision, with sums in any order and products possibly fused, returns an x whose residual in every row is at most 12 d u (|L||D||L^T||x|), where d is the largest number of roundings a term goes through, provided the off-diagonal entries of 2x2 blocks dominate as the pivot rule makes them. Storing the inverse of D does not spoil this.", "quantifier": "every size, stored factorisation with dominant 2x2 blocks, right-hand side, rounding with relative error u (no underflow), order of summation", "why_tests_cant": "a test observes a few residuals on one machine with one instruction set; the bound is for every factorisation, rounding and order of summation", "anchors": ["include/proxsuite-nlp/linalg/bunchkaufman.hpp: bunch_kaufman_solve_in_place, BunchKaufman::solveInPlace"]}
{"id": "C124", "title": "The pivot rule of the Bunch-Kaufman factorisation bounds the growth of the entries", "statement": "After a successful compute(A), whatever the size of the matrix and whether or not the blocked routine is used, the factors held by the object satisfy: the entries of D in column k are at most ((1 + sqrt 17)/2)^k times the largest entry of A, and in every 2x2 block the product of the diagonal entries is at most ((1 + sqrt 17)/8)^2 times the square of the off-diagonal entry. Hence a solve in rounded arithmetic with these factors has the residual bound of C123 for every nonsingular symmetric matrix. In terms of the matrix and the solution only: the residual in every row is at most 312 d u c(n) max|A| sum|x|, where c(n) depends on the size alone.", "quantifier": "every matrix, every size and block size, every pivot sequence the rule chooses; for the last part every rounding with relative error u and every order of the sums", "why_tests_cant": "growth is worst case over all matrices and sizes: a sample of matrices shows small growth even with a wrong pivot threshold", "anchors": ["include/proxsuite-nlp/linalg/bunchkaufman.hpp: bunch_kaufman_in_place_unblocked, bunch_kaufman_in_place_one_block, bunch_kaufman_in_place"]}
{"id": "C125", "title": "The pieces of a split vector are the vector", "statement": "The references returned by split and split_vector on a mutable vector are views of consecutive, disjoint parts that cover it: any sequence of reads and writes through the pieces and through the vector itself, and of merges of the pieces, behaves as if the pieces were separate vectors and the vector their concatenation; nothing outside the vector changes, merge returns the current contents, a vector of the wrong size is rejected, and splitting the pieces of nested products gives the pieces of the flattened product.", "quantifier": "every list of components, every vector at any place in memory, every sequence of reads, writes and merges", "why_tests_cant": "Programs of any length on any product; tests write one piece and look at one entry.", "anchors": ["include/proxsuite-nlp/modelling/spaces/cartesian-product.hpp: split, split_vector", "include/proxsuite-nlp/modelling/spaces/cartesian-product.hxx: split_impl, split_vector_impl, merge"]}
{"id": "C126", "title": "What equality of constraints and sets means", "statement": "In every program that makes functions, sets, constraints and problems and changes their parameters, two constraints (made by the user or held by a problem) compare equal exactly when they were made from the same function object; a constraint in a problem equals the one it was copied from; the answer never changes later, and equal constraints have equal values at every point after any further statements. Searching a list finds a constraint exactly when the list has one made from the same function. Sets compare by identity, so the set stored in a constraint never equals the set it was made from. In particular equal constraints need not be the same condition: the set is not compared.", "quantifier": "every program over the modelled statements, every two constraints it can name, every list, every continuation and every point", "why_tests_cant": "tests compare a few constraints made in one way; that equality ignores the set and survives any later change needs all programs", "anchors": ["include/proxsuite-nlp/constraint-set.hpp: ConstraintObjectTpl::operator==, ConstraintSetTpl::operator==", "include/proxsuite-nlp/problem-base.hpp: getConstraint", "bindings/python/expose-constraint.cpp"]}
{"id": "C127", "title": "A weighted sum of distances is the distance to the weighted mean", "statement": "On a vector space, let any number of QuadraticDistanceCosts with a common symmetric weight matrix W be combined by any expression of sums, scalings and negations. If the factors of the costs add up to S (not zero), the resulting cost is a constant plus S times the distance cost to the weighted mean of the targets; its gradient is S W (x - mean) and its Hessian S W. With S > 0 and W positive definite the mean is the only minimiser, and a solver without constraints (identity weights) that reports SUCCESS returns a point within target_tol / S of the mean in every coordinate; with a weight matrix whose quadratic form is at least c times the squared norm, the coordinate distances sum to at most n target_tol / (c S). When the factors add up to zero the gradient is constant and SUCCESS is not reported unless the weighted sum of the targets is below the tolerance. With negative total the mean is the point of largest value, and the solver may report SUCCESS there.", "quantifier": "every dimension, number of targets, expression, weight matrix, point, starting point, multiplier mode and settings", "why_tests_cant": "tests try one expression with three targets; the identity must hold for all expressions, with negative factors, and for every run", "anchors": ["include/proxsuite-nlp/cost-sum.hpp: CostSumTpl", "include/proxsuite-nlp/cost-sum.hxx", "include/proxsuite-nlp/modelling/costs/squared-distance.hpp: QuadraticDistanceCostTpl", "examples/cost_sum_barycenter.py"]}
{"id": "C128", "title": "Sizes of problems and linear solvers in machine integers", "statement": "The total constraint dimension, the size and the first row of every constraint reported by a problem are the true ones, and the linear solver is allocated with the sum of the primal and dual sizes, whenever the total is below 2^31. Beyond, adding up the constraint sizes is undefined, and the size of the linear solver is right only modulo 2^32, although its arguments are 64-bit integers.", "quantifier": "every list of sizes, of any length", "why_tests_cant": "the boundary lies at sizes no test allocates, and every way to split a total into blocks has to be considered", "anchors": ["include/proxsuite-nlp/problem-base.hpp: reset_constraint_dim_vars", "include/proxsuite-nlp/ldlt-allocator.hpp: get_total_dim_helper, allocate_ldlt_from_sizes"]}
