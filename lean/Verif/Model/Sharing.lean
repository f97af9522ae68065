import Mathlib.Algebra.Field.Defs
import Mathlib.Algebra.BigOperators.Group.List.Basic

/-!
# Objects a problem is built from, and what it keeps of them

A `ConstraintObject` holds a `shared_ptr` to its function and a *copy* of its set; a `Problem` holds a `shared_ptr` to its cost and a
*copy* of the list of constraints. From Python the parameters of linear functions (`A`, `b`) and of boxes (`lower_limit`,
`upper_limit`) and the cost of a problem may be assigned at any time. This file models the objects in memory and the statements of a
program that creates them, changes them and evaluates problems.

Objects are addressed by the number of objects of the same class created before. Points are lists of coordinates (vector spaces).
-/

set_option linter.unusedSectionVars false

namespace ProxNLP

/-- An Eigen matrix of run-time size, row by row (`MatrixXs`; include/proxsuite-nlp/math.hpp:26-39). `cols` is stored as well: a matrix
without rows still has a number of columns. -/
structure LMat (K : Type) where
  cols : ℕ
  rows : List (List K)
  deriving DecidableEq

section
variable {K : Type} [Field K]

/-- `a.dot(b)` of Eigen vectors of the same size; `none` when the sizes differ (assertion, or a read out of bounds when assertions are
off). Used in modelling/costs/quadratic-residual.hxx:30 and, row by row, in products. -/
def ldot (a b : List K) : Option K := if a.length = b.length then some (List.zipWith (· * ·) a b).sum else none

/-- `a + b`, `none` on different sizes. modelling/residuals/linear.hpp:30 -/
def ladd (a b : List K) : Option (List K) := if a.length = b.length then some (List.zipWith (· + ·) a b) else none

/-- `a - b`, `none` on different sizes: `difference` of a vector space. modelling/spaces/vector-space.hpp:54-57 -/
def lsub (a b : List K) : Option (List K) := if a.length = b.length then some (List.zipWith (· - ·) a b) else none

/-- `mat * x`, `none` on different sizes. modelling/residuals/linear.hpp:30 -/
def LMat.mulVec (A : LMat K) (x : List K) : Option (List K) :=
  if x.length = A.cols then some (A.rows.map fun r => (List.zipWith (· * ·) r x).sum) else none

/-- `Jleft * Jright`, `none` on different sizes. function-ops.hpp:38-41 -/
def LMat.mul (A B : LMat K) : Option (LMat K) :=
  if A.cols = B.rows.length then
    some ⟨B.cols, A.rows.map fun r => (List.range B.cols).map fun j => (List.zipWith (fun a row => a * row.getD j 0) r B.rows).sum⟩
  else none

/-- The identity matrix written by `Jdifference(target, x, Jout, 1)` of a vector space. modelling/spaces/vector-space.hpp:59-71 -/
def LMat.one (n : ℕ) : LMat K := ⟨n, (List.range n).map fun i => (List.range n).map fun j => if i = j then 1 else 0⟩

/-- A function object. `nx = ndx` and `nr` are fixed by the constructor (function-base.hpp:15-24); the parameters are not.
* `linear`: `LinearFunctionTpl`, modelling/residuals/linear.hpp:14-35, with `mat` and `b` as parameters;
* `diff`: `ManifoldDifferenceToPoint` on a vector space, modelling/residuals/state-residual.hpp:18-50;
* `compose`: `ComposeFunctionTpl`, function-ops.hpp:14-49, with shared pointers to both functions. -/
inductive FunObj (K : Type) where
  | linear (nx nr : ℕ) (mat : LMat K) (b : List K)
  | diff (nx : ℕ) (target : List K)
  | compose (nx nr : ℕ) (left right : ℕ)
  deriving DecidableEq

/-- `nx()`. function-base.hpp:34-35 -/
def FunObj.nx : FunObj K → ℕ
  | .linear nx _ _ _ => nx
  | .diff nx _ => nx
  | .compose nx _ _ _ => nx

/-- `nr()`. function-base.hpp:38-39 -/
def FunObj.nr : FunObj K → ℕ
  | .linear _ nr _ _ => nr
  | .diff nx _ => nx
  | .compose _ nr _ _ => nr

/-- A constraint set object. modelling/constraints/equality-constraint.hpp, negative-orthant.hpp, l1-penalty.hpp,
box-constraint.hpp:13-22. The prox parameter is not part of it (C97). -/
inductive UserSet (K : Type) where
  | equality
  | negOrthant
  | l1
  | box (lower upper : List K)
  deriving DecidableEq

/-- `ConstraintObjectTpl`: a shared function, an own copy of the set. constraint-set.hpp:121-142 -/
structure ConObj (K : Type) where
  func : ℕ
  set : UserSet K
  deriving DecidableEq

/-- `QuadraticResidualCostTpl`: a shared residual function; weights, slope and constant are copied.
modelling/costs/quadratic-residual.hpp:88-99 -/
structure UserCost (K : Type) where
  residual : ℕ
  weights : LMat K
  slope : List K
  constant : K
  deriving DecidableEq

/-- `ProblemTpl`: a shared cost and an own copy of the list of constraints, which themselves contain a function pointer and a set.
problem-base.hpp:24-40 -/
structure ProbObj (K : Type) where
  cost : ℕ
  constraints : List (ConObj K)
  deriving DecidableEq

/-- All objects of a program (constraint-set.hpp:121-142, problem-base.hpp:24-40). -/
structure Objects (K : Type) where
  funs : List (FunObj K) := []
  sets : List (UserSet K) := []
  cons : List (ConObj K) := []
  costs : List (UserCost K) := []
  probs : List (ProbObj K) := []
  deriving DecidableEq

/-- A statement of a program that uses the library from Python (bindings/python/expose-residual.cpp:23-28, expose-problem.cpp:14-27). -/
inductive Stmt (K : Type) where
  /-- `LinearFunction(A, b)`; bindings/python/expose-residual.cpp:23-26 -/
  | newLinear (A : LMat K) (b : List K)
  /-- `ManifoldDifferenceToPoint(space, target)`; expose-residual.cpp:30-34 -/
  | newDiff (target : List K)
  /-- `compose(left, right)`; bindings/python/expose-function.cpp:85-86 -/
  | newCompose (left right : ℕ)
  /-- `f.A = A`; expose-residual.cpp:27 -/
  | setMat (f : ℕ) (A : LMat K)
  /-- `f.b = b`; expose-residual.cpp:28 -/
  | setOffset (f : ℕ) (b : List K)
  /-- `EqualityConstraintSet()`, `NegativeOrthant()`, `NonsmoothPenaltyL1()`, `BoxConstraint(lower, upper)`; expose-constraint.cpp:102-131 -/
  | newSet (s : UserSet K)
  /-- `s.lower_limit = v`; expose-constraint.cpp:118 -/
  | setLower (s : ℕ) (v : List K)
  /-- `s.upper_limit = v`; expose-constraint.cpp:117 -/
  | setUpper (s : ℕ) (v : List K)
  /-- `ConstraintObject(func, set)`; expose-constraint.cpp:88-91 -/
  | newConstraint (f s : ℕ)
  /-- `QuadraticResidualCost(residual, weights, slope, constant)`; expose-quadratic-costs.cpp:27-30 -/
  | newCost (f : ℕ) (W : LMat K) (slope : List K) (c : K)
  /-- `Problem(space, cost, constraints)`; expose-problem.cpp:15-17 -/
  | newProblem (cost : ℕ) (cs : List ℕ)
  /-- `problem.add_constraint(c)`; expose-problem.cpp:26-27 -/
  | addConstraint (p c : ℕ)
  /-- `problem.cost = cost`; expose-problem.cpp:18 -/
  | setCost (p cost : ℕ)

/-- Execution of one statement; `none` when an exception is thrown or an object named does not exist.
* `newLinear`: dimensions are taken from the matrix, linear.hpp:24-25 (the size of `b` is not checked);
* `newCompose`: the check of function-ops.hpp:27-30;
* `setMat`, `setOffset`: plain assignments to the members (`def_readwrite`, expose-residual.cpp:27-28), which change the object seen by
  every holder of a pointer to it, and neither check sizes nor change `nr()`;
* `setLower`, `setUpper`: plain assignments to the members of the user's own set object;
* `newConstraint`: the pointer is shared, the set is copied, constraint-set.hpp:140-142;
* `newProblem`, `addConstraint`: the constraints are copied, problem-base.hpp:35-40 and 59-62;
* `setCost`: the pointer is replaced. -/
def Objects.exec (o : Objects K) : Stmt K → Option (Objects K)
  | .newLinear A b => some { o with funs := o.funs ++ [.linear A.cols A.rows.length A b] }
  | .newDiff t => some { o with funs := o.funs ++ [.diff t.length t] }
  | .newCompose l r =>
    match o.funs[l]?, o.funs[r]? with
    | some fl, some fr => if fl.nx = fr.nr then some { o with funs := o.funs ++ [.compose fr.nx fl.nr l r] } else none
    | _, _ => none
  | .setMat f A =>
    match o.funs[f]? with
    | some (.linear nx nr _ b) => some { o with funs := o.funs.set f (.linear nx nr A b) }
    | _ => none
  | .setOffset f b =>
    match o.funs[f]? with
    | some (.linear nx nr A _) => some { o with funs := o.funs.set f (.linear nx nr A b) }
    | _ => none
  | .newSet s => some { o with sets := o.sets ++ [s] }
  | .setLower s v =>
    match o.sets[s]? with
    | some (.box _ hi) => some { o with sets := o.sets.set s (.box v hi) }
    | _ => none
  | .setUpper s v =>
    match o.sets[s]? with
    | some (.box lo _) => some { o with sets := o.sets.set s (.box lo v) }
    | _ => none
  | .newConstraint f s =>
    match o.funs[f]?, o.sets[s]? with
    | some _, some v => some { o with cons := o.cons ++ [⟨f, v⟩] }
    | _, _ => none
  | .newCost f W sl c =>
    match o.funs[f]? with
    | some _ => some { o with costs := o.costs ++ [⟨f, W, sl, c⟩] }
    | none => none
  | .newProblem cost cs =>
    match o.costs[cost]?, cs.mapM fun c => o.cons[c]? with
    | some _, some l => some { o with probs := o.probs ++ [⟨cost, l⟩] }
    | _, _ => none
  | .addConstraint p c =>
    match o.probs[p]?, o.cons[c]? with
    | some q, some v => some { o with probs := o.probs.set p { q with constraints := q.constraints ++ [v] } }
    | _, _ => none
  | .setCost p cost =>
    match o.probs[p]?, o.costs[cost]? with
    | some q, some _ => some { o with probs := o.probs.set p { q with cost := cost } }
    | _, _ => none

/-- A whole program: the statements one after the other (bindings/python/expose-problem.cpp:14-27). -/
def Objects.run (o : Objects K) : List (Stmt K) → Option (Objects K)
  | [] => some o
  | s :: rest => (o.exec s).bind fun o' => o'.run rest

/-- `f(x)` of the function object `k`, `none` on a size mismatch. linear.hpp:30, state-residual.hpp:42-44, function-ops.hpp:34-36.
`fuel` bounds the depth of nesting; `k + 1` is always enough, because a composition refers to older functions. -/
def evalFun (funs : List (FunObj K)) : ℕ → ℕ → List K → Option (List K)
  | 0, _, _ => none
  | fuel + 1, k, x =>
    match funs[k]? with
    | some (.linear _ _ A b) => (A.mulVec x).bind fun y => ladd y b
    | some (.diff _ t) => lsub x t
    | some (.compose _ _ l r) => (evalFun funs fuel r x).bind fun y => evalFun funs fuel l y
    | none => none

/-- `f.computeJacobian(x, Jout)` with `Jout` of size `nr() × ndx()`, `none` on a size mismatch. linear.hpp:32-34,
state-residual.hpp:46-48, function-ops.hpp:38-41 (with the allocating variant of function-base.hpp:66-70) -/
def jacFun (funs : List (FunObj K)) : ℕ → ℕ → List K → Option (LMat K)
  | 0, _, _ => none
  | fuel + 1, k, x =>
    match funs[k]? with
    | some (.linear nx nr A _) => if A.cols = nx ∧ A.rows.length = nr then some A else none
    | some (.diff nx t) => if x.length = t.length ∧ t.length = nx then some (.one nx) else none
    | some (.compose nx nr l r) =>
      (evalFun funs fuel r x).bind fun y => (jacFun funs fuel l y).bind fun jl => (jacFun funs fuel r x).bind fun jr =>
        (jl.mul jr).bind fun j => if j.cols = nx ∧ j.rows.length = nr then some j else none
    | none => none

/-- `f(x)`. function-base.hpp:30 -/
def Objects.value (o : Objects K) (f : ℕ) (x : List K) : Option (List K) := evalFun o.funs (f + 1) f x

/-- `f.computeJacobian(x)`. function-base.hpp:66-70 -/
def Objects.jacobian (o : Objects K) (f : ℕ) (x : List K) : Option (LMat K) := jacFun o.funs (f + 1) f x

/-- `f.nr()`. function-base.hpp:38-39 -/
def Objects.dim (o : Objects K) (f : ℕ) : Option ℕ := (o.funs[f]?).map FunObj.nr

/-- `cost.call(x)`. modelling/costs/quadratic-residual.hxx:24-35. `err` is a `VectorXs` and takes any size. -/
def Objects.costValue (o : Objects K) (c : ℕ) (x : List K) : Option K :=
  match o.costs[c]? with
  | some q => (o.value q.residual x).bind fun r => (q.weights.mulVec r).bind fun w => (ldot r w).bind fun a => (ldot r q.slope).bind fun s =>
      some (2⁻¹ * a + s + q.constant)
  | none => none

/-- The value written to the segment of one constraint: the segment has `nr()` rows (it was cut out of the stacked vector,
problem-base.hpp:131-152), so a value of another size is an error. problem-base.hpp:79-82 -/
def Objects.segment (o : Objects K) (c : ConObj K) (x : List K) : Option (List K) :=
  (o.value c.func x).bind fun v => if some v.length = o.dim c.func then some v else none

/-- `problem.evaluate(x, workspace)`: the objective and the values of all constraints. problem-base.hpp:76-83 -/
def Objects.evaluate (o : Objects K) (p : ℕ) (x : List K) : Option (K × List (List K)) :=
  match o.probs[p]? with
  | some q => (o.costValue q.cost x).bind fun f => (q.constraints.mapM fun c => o.segment c x).bind fun cs => some (f, cs)
  | none => none

/-- `problem.computeDerivatives(x, workspace)`, the Jacobians of the constraints. problem-base.hpp:85-92 -/
def Objects.jacobians (o : Objects K) (p : ℕ) (x : List K) : Option (List (LMat K)) :=
  match o.probs[p]? with
  | some q => q.constraints.mapM fun c => o.jacobian c.func x
  | none => none

/-- The sets of the constraints of a problem, as the solver reads them (`getConstraint(i).set_`, prox-solver.hxx:177, 188, 197, 214, 258,
307, 507). -/
def Objects.setsOf (o : Objects K) (p : ℕ) : Option (List (UserSet K)) := (o.probs[p]?).map fun q => q.constraints.map ConObj.set

/-- `total_constraint_dim`. problem-base.hpp:50, 114-127 -/
def Objects.totalDim (o : Objects K) (p : ℕ) : Option ℕ :=
  (o.probs[p]?).bind fun q => (q.constraints.mapM fun c => o.dim c.func).map List.sum

end

end ProxNLP
