import Mathlib.Data.Matrix.Mul
import Mathlib.LinearAlgebra.Matrix.RowCol
import Mathlib.Algebra.BigOperators.Fin
import Mathlib.Algebra.Order.Field.Basic

/-!
Model of the function classes (function-base.hpp), composition (function-ops.hpp), the cost adapters
(cost-function.hpp), the linear and state residuals (modelling/residuals), finite differences
(modelling/autodiff/finite-difference.hpp) and quadratic residual costs (modelling/costs).
-/

namespace ProxNLP

variable {K : Type} [Field K]

/-- A `C2FunctionTpl` object (function-base.hpp:12-100): sizes, value, Jacobian and vector-Hessian product.  `none` in the
Jacobian: the evaluation violates an Eigen size assertion. -/
structure C2Fn (K : Type) where
  nx : ℕ
  ndx : ℕ
  nr : ℕ
  eval : (Fin nx → K) → Fin nr → K
  jac : (Fin nx → K) → Option (Matrix (Fin nr) (Fin ndx) K)
  vhp : (Fin nx → K) → (Fin nr → K) → Matrix (Fin ndx) (Fin ndx) K

/-- The default `vectorHessianProduct` (function-base.hpp:92-97): zero. -/
def defaultVhp {nx ndx nr : ℕ} : (Fin nx → K) → (Fin nr → K) → Matrix (Fin ndx) (Fin ndx) K := fun _ _ => 0

/-- `ComposeFunctionTpl(left, right)` (function-ops.hpp:14-49); `none`: "Incompatible dimensions" exception. The
Jacobian product needs `left.ndx == right.nr`, which the constructor does not check.  `vectorHessianProduct` is
inherited from the base class. -/
def compose (left right : C2Fn K) : Option (C2Fn K) :=
  if h : left.nx = right.nr then
    some
      { nx := right.nx, ndx := right.ndx, nr := left.nr
        eval := fun x => left.eval fun i => right.eval x (Fin.cast h i)
        jac := fun x =>
          (left.jac fun i => right.eval x (Fin.cast h i)).bind fun Jl =>
            (right.jac x).bind fun Jr =>
              if h2 : left.ndx = right.nr then some (Jl * Jr.submatrix (Fin.cast h2) id) else none
        vhp := defaultVhp }
  else none

/-- A `CostFunctionBaseTpl` object (cost-function.hpp:29-56). -/
structure CostFn (K : Type) where
  nx : ℕ
  ndx : ℕ
  call : (Fin nx → K) → K
  gradient : (Fin nx → K) → Option (Fin ndx → K)
  hessian : (Fin nx → K) → Matrix (Fin ndx) (Fin ndx) K

/-- A cost seen through the `C2FunctionTpl` interface (cost-function.hpp:61-80). -/
def CostFn.toFn (c : CostFn K) : C2Fn K where
  nx := c.nx
  ndx := c.ndx
  nr := 1
  eval x := fun _ => c.call x
  jac x := (c.gradient x).map fun g => Matrix.of fun _ j => g j
  vhp x v := Matrix.of fun i j => c.hessian x i j * v 0

/-- `downcast_function_to_cost` (cost-function.hpp:14-22) with `func_to_cost` (92-118); `none`: exception. -/
def C2Fn.toCost (f : C2Fn K) : Option (CostFn K) :=
  if h : f.nr = 1 then
    some
      { nx := f.nx, ndx := f.ndx
        call := fun x => f.eval x (Fin.cast h.symm 0)
        gradient := fun x => (f.jac x).map fun J j => J (Fin.cast h.symm 0) j
        hessian := fun x => f.vhp x fun _ => 1 }
  else none

/-- The Python class `CostFromFunction` (bindings/python/expose-cost.cpp:78-82): `func_to_cost` without the check of
`downcast_function_to_cost` (cost-function.hpp:14-22). -/
structure PyCost (K : Type) where
  nx : ℕ
  ndx : ℕ
  call : (Fin nx → K) → Option K
  gradient : (Fin nx → K) → Option (Fin ndx → K)
  hessian : (Fin nx → K) → Option (Matrix (Fin ndx) (Fin ndx) K)

/-- `CostFromFunction(func)` (expose-cost.cpp:78-82, cost-function.hpp:92-118); the constructor accepts every function.
`none`: an access outside a vector or matrix.  The value reads entry 0 of the output.  The gradient hands the function
a 1 x ndx matrix to fill, the Hessian a vector of one multiplier.  Simplification: a function with another number of
outputs is taken to write all its rows and to read all its multipliers. -/
def C2Fn.pyCost (f : C2Fn K) : PyCost K where
  nx := f.nx
  ndx := f.ndx
  call x := if h : 0 < f.nr then some (f.eval x ⟨0, h⟩) else none
  gradient x := if h : f.nr = 1 then (f.jac x).map fun J j => J (Fin.cast h.symm 0) j else none
  hessian x := if f.nr = 1 then some (f.vhp x fun _ => 1) else none

/-- `LinearFunctionTpl(A, b)` (residuals/linear.hpp:14-40). -/
def linearFn {r n : ℕ} (A : Matrix (Fin r) (Fin n) K) (b : Fin r → K) : C2Fn K where
  nx := n
  ndx := n
  nr := r
  eval x := fun i => A.mulVec x i + b i
  jac _ := some A
  vhp := defaultVhp

/-- `finite_difference_impl::computeJacobian` (finite-difference.hpp:29-44): the loop over the columns with the shared
buffer `ei`. -/
def fdJacobian {X : Type} {n r : ℕ} (integrate : X → (Fin n → K) → X) (f : X → Fin r → K) (eps : K) (x : X)
    (J0 : Matrix (Fin r) (Fin n) K) : Matrix (Fin r) (Fin n) K :=
  ((List.finRange n).foldl (fun (s : (Fin n → K) × Matrix (Fin r) (Fin n) K) i =>
    let ei := Function.update s.1 i eps
    let fp := f (integrate x ei)
    let fm := f (integrate x (fun j => - ei j))
    (Function.update ei i 0, s.2.updateCol i fun k => (fp k - fm k) / (2 * eps))) (fun _ => 0, J0)).2

/-- `finite_difference_impl::vectorHessianProduct` (finite-difference.hpp:46-68). -/
def fdVhp {X : Type} {n r : ℕ} (integrate : X → (Fin n → K) → X) (jac : X → Matrix (Fin r) (Fin n) K) (eps : K) (x : X)
    (v : Fin r → K) (H0 : Matrix (Fin n) (Fin n) K) : Matrix (Fin n) (Fin n) K :=
  ((List.finRange n).foldl (fun (s : (Fin n → K) × Matrix (Fin n) (Fin n) K) i =>
    let ei := Function.update s.1 i eps
    let Jp := jac (integrate x ei)
    let Jm := jac (integrate x (fun j => - ei j))
    (Function.update ei i 0,
      s.2.updateCol i fun k => ∑ l, (Jp l k - Jm l k) / (2 * eps) * v l)) (fun _ => 0, H0)).2

/-! ### Quadratic residual costs -/

/-- The residual function used by a quadratic cost. function-base.hpp:12-100. -/
structure ResidualFn (X K : Type) (n p : ℕ) where
  eval : X → Fin p → K
  jac : X → Matrix (Fin p) (Fin n) K
  vhp : X → (Fin p → K) → Matrix (Fin n) (Fin n) K

/-- `QuadraticResidualCostTpl` (quadratic-residual.hpp:23-76): parameters and the mutable buffers that survive a call
(`Jres`, `JtW`, `H` are always overwritten before being read, so only `err` and `tmp_w_err` are kept). -/
structure QuadCost (X K : Type) (n p : ℕ) where
  residual : ResidualFn X K n p
  weights : Matrix (Fin p) (Fin p) K
  slope : Fin p → K
  constant : K
  gaussNewton : Bool
  err : Fin p → K
  tmpWErr : Fin p → K

variable {X : Type} {n p : ℕ}

/-- The constructor (quadratic-residual.hxx:8-21). -/
def QuadCost.new (r : ResidualFn X K n p) (W : Matrix (Fin p) (Fin p) K) (b : Fin p → K) (c : K) : QuadCost X K n p :=
  { residual := r, weights := W, slope := b, constant := c, gaussNewton := true, err := fun _ => 0, tmpWErr := fun _ => 0 }

/-- `call(x)` (quadratic-residual.hxx:23-35). -/
def QuadCost.call (q : QuadCost X K n p) (x : X) : QuadCost X K n p × K :=
  let err := q.residual.eval x
  let w := q.weights.mulVec err
  ({ q with err := err, tmpWErr := w }, 1 / 2 * (∑ i, err i * w i) + (∑ i, err i * q.slope i) + q.constant)

/-- `computeGradient(x, out)` (quadratic-residual.hxx:37-45): uses the stored `err`. -/
def QuadCost.gradient (q : QuadCost X K n p) (x : X) : QuadCost X K n p × (Fin n → K) :=
  let J := q.residual.jac x
  (q, fun j => (J.transpose * q.weights).mulVec q.err j + J.transpose.mulVec q.slope j)

/-- `computeHessian(x, out)` (quadratic-residual.hxx:47-64): uses the stored `err`. -/
def QuadCost.hessian (q : QuadCost X K n p) (x : X) : QuadCost X K n p × Matrix (Fin n) (Fin n) K :=
  let w := fun i => q.weights.mulVec q.err i + q.slope i
  let out := if !q.gaussNewton then q.residual.vhp x w else 0
  let J := q.residual.jac x
  ({ q with tmpWErr := w }, out + (J.transpose * q.weights) * J)

/-- `computeJacobian(x, Jout)` of the cost as a function with one output (cost-function.hpp:70-74): uses the stored `err`. -/
def QuadCost.jacobian (q : QuadCost X K n p) (x : X) : Matrix (Fin 1) (Fin n) K := Matrix.of fun _ => (q.gradient x).2

/-- Calls a user can make on a quadratic cost; `setResidual` is `updateTarget` of a quadratic distance cost
(squared-distance.hpp:44-46), `setGaussNewton`/`setWeights`/`setSlope` assignments to the public members. -/
inductive QuadOp (X K : Type) (n p : ℕ) where
  | call (x : X)
  | gradient (x : X)
  | hessian (x : X)
  | setResidual (r : ResidualFn X K n p)
  | setGaussNewton (b : Bool)
  | setWeights (W : Matrix (Fin p) (Fin p) K)
  | setSlope (b : Fin p → K)

/-- effect of a call on the object (not in the code: a history of the calls of
quadratic-residual.hxx:22-60) -/
def QuadCost.apply (q : QuadCost X K n p) : QuadOp X K n p → QuadCost X K n p
  | .call x => (q.call x).1
  | .gradient x => (q.gradient x).1
  | .hessian x => (q.hessian x).1
  | .setResidual r => { q with residual := r }
  | .setGaussNewton b => { q with gaussNewton := b }
  | .setWeights W => { q with weights := W }
  | .setSlope b => { q with slope := b }

/-- effect of a history (not in the code: a history of the calls of quadratic-residual.hxx:22-60) -/
def QuadCost.run (q : QuadCost X K n p) (ops : List (QuadOp X K n p)) : QuadCost X K n p := ops.foldl QuadCost.apply q

/-- Residual of a distance cost: `ManifoldDifferenceToPoint` (residuals/state-residual.hpp:33-49). -/
def diffResidual (difference : X → X → Fin n → K) (jdiff1 : X → X → Matrix (Fin n) (Fin n) K) (target : X) :
    ResidualFn X K n n where
  eval x := difference target x
  jac x := jdiff1 target x
  vhp _ _ := 0

end ProxNLP
