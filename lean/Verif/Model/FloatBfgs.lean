import Verif.Model.Rounding
import Verif.Model.Bfgs

/-!
`BFGSStrategy::update` (bfgs-strategy.hpp:45-81) in rounded arithmetic.  Mirrors `Model/Bfgs.lean`; every operation on scalars is
rounded, and the order in which the scalar product and the entries of the two matrix products are accumulated is a parameter.
-/

set_option linter.unusedSectionVars false
namespace ProxNLP

variable {K : Type} [Field K] [LinearOrder K] {n : ℕ}

/-- Orders of summation: of `s.dot(y)`, of the entries of `V * hessian` and of `VMinv *
V.transpose()`. The products and sums of bfgs-strategy.hpp:45-81. -/
structure BfgsOrders (n : ℕ) where
  dot : SumTree (Fin n)
  left : Fin n → Fin n → SumTree (Fin n)
  right : Fin n → Fin n → SumTree (Fin n)

/-- `xx_transpose.noalias() = ...` (bfgs-strategy.hpp:60,65): each product is rounded when stored -/
def flBfgsXX (R : Rounding K) (ty : BFGSType) (s y : Fin n → K) (i j : Fin n) : K :=
  match ty with
  | .inverseHessian => R.rnd (s i * s j)
  | .hessian => R.rnd (y i * y j)

/-- `xy_transpose.noalias() = ...` (bfgs-strategy.hpp:61,66) -/
def flBfgsXY (R : Rounding K) (ty : BFGSType) (s y : Fin n → K) (i j : Fin n) : K :=
  match ty with
  | .inverseHessian => R.rnd (s i * y j)
  | .hessian => R.rnd (y i * s j)

/-- `V.noalias() = MatrixXs::Identity(...) - xy_transpose / sy` (bfgs-strategy.hpp:69) -/
def flBfgsV (R : Rounding K) (ty : BFGSType) (s y : Fin n → K) (sy : K) (i j : Fin n) : K :=
  R.rnd ((if i = j then 1 else 0) - R.rnd (flBfgsXY R ty s y i j / sy))

/-- `VMinv.noalias() = V * hessian` (bfgs-strategy.hpp:70) -/
def flBfgsVM (R : Rounding K) (q : BfgsOrders n) (V H : Fin n → Fin n → K) (i j : Fin n) : K :=
  (q.left i j).eval R 0 fun k => (V i k, H k j)

/-- `VMinvVt.noalias() = VMinv * V.transpose()` (bfgs-strategy.hpp:71) -/
def flBfgsVMV (R : Rounding K) (q : BfgsOrders n) (V M : Fin n → Fin n → K) (i j : Fin n) : K :=
  (q.right i j).eval R 0 fun k => (M i k, V j k)

/-- the new matrix (bfgs-strategy.hpp:55-72), `hessian.noalias() = VMinvVt + xx_transpose / sy` -/
def flBfgsMatrix (R : Rounding K) (q : BfgsOrders n) (ty : BFGSType) (s y : Fin n → K) (sy : K) (H : Fin n → Fin n → K) (i j : Fin n) : K :=
  let V := flBfgsV R ty s y sy
  R.rnd (flBfgsVMV R q V (flBfgsVM R q V H) i j + R.rnd (flBfgsXX R ty s y i j / sy))

/-- `update(x, g, hessian)` (bfgs-strategy.hpp:45-81) -/
def flBfgsUpdate (R : Rounding K) (q : BfgsOrders n) (ty : BFGSType) (b : Bfgs K n) (x g : Fin n → K) (H : Fin n → Fin n → K) :
    Option (Bfgs K n × (Fin n → Fin n → K)) :=
  if b.isInit = false then (b.init x g).map fun b' => (b', H)
  else
    let s := fun i => R.rnd (x i - b.xPrev i)
    let y := fun i => R.rnd (g i - b.gPrev i)
    let sy := q.dot.eval R 0 fun i => (s i, y i)
    if 0 < sy then some ({ b with isPsd := true, xPrev := x, gPrev := g }, flBfgsMatrix R q ty s y sy H)
    else some ({ b with isPsd := false, xPrev := x, gPrev := g }, H)

/-- a sequence of updates on one matrix (not in the code: repeated calls of `update`,
bfgs-strategy.hpp:45-81) -/
def flBfgsRun (R : Rounding K) (q : BfgsOrders n) (ty : BFGSType) : List ((Fin n → K) × (Fin n → K)) → Bfgs K n → (Fin n → Fin n → K) →
    Option (Bfgs K n × (Fin n → Fin n → K))
  | [], b, H => some (b, H)
  | (x, g) :: l, b, H => (flBfgsUpdate R q ty b x g H).bind fun r => flBfgsRun R q ty l r.1 r.2

end ProxNLP
