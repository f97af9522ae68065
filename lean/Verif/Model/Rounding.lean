import Mathlib.Algebra.Order.Field.Basic
import Mathlib.Algebra.Order.Floor.Ring
import Mathlib.Data.Int.Log
import Mathlib.Algebra.Order.Archimedean.Basic
import Mathlib.Data.Fintype.Basic

/-!
Rounded arithmetic, for the model of the solver loop in `Model/FloatSolver.lean`.

`Scalar` is `double` in every instantiation of the library (include/proxsuite-nlp/context.hpp:9): each operation
returns the rounded exact result.  Overflow and NaN are not modelled here (see `Model/ExtSolver.lean`); underflow is.
-/

namespace ProxNLP

section
variable {K : Type} [Field K] [LinearOrder K]

/-- The standard model of rounding: relative error at most `u`, and absolute error at most `eta`
for results in the underflow range. Not in the code: the arithmetic of `double` and Eigen's sums,
as used in gemmt.hpp:18-208. -/
structure Rounding (K : Type) [Field K] [LinearOrder K] where
  rnd : K → K
  u : K
  eta : K
  u_nonneg : 0 ≤ u
  u_lt_one : u < 1
  eta_nonneg : 0 ≤ eta
  err : ∀ x, |rnd x - x| ≤ u * |x| + eta

/-- The order in which a sum `g + Σ_i a_i b_i` is accumulated, and which of its operations are fused.  Eigen chooses it by size,
alignment and instruction set (`data_jacobians.transpose() * lams` added to a gradient, prox-solver.hxx:356-358).
* `zero`: an accumulator that starts at 0; `init`: the entry the product is added to; `prod i`: the rounded product `a_i b_i`;
* `add`: a rounded sum; `fma i t`: `a_i b_i + t`, rounded once. -/
inductive SumTree (I : Type) where
  | zero
  | init
  | prod (i : I)
  | add (s t : SumTree I)
  | fma (i : I) (t : SumTree I)

/-- The number computed in this order. Not in the code: the arithmetic of `double` and Eigen's
sums, as used in gemmt.hpp:18-208. -/
def SumTree.eval {I : Type} (R : Rounding K) (g : K) (f : I → K × K) : SumTree I → K
  | zero => 0
  | init => g
  | prod i => R.rnd ((f i).1 * (f i).2)
  | add s t => R.rnd (s.eval R g f + t.eval R g f)
  | fma i t => R.rnd ((f i).1 * (f i).2 + t.eval R g f)

/-- The terms that are added: `none` is the initial entry. Not in the code: the arithmetic of
`double` and Eigen's sums, as used in gemmt.hpp:18-208. -/
def SumTree.terms {I : Type} : SumTree I → List (Option I)
  | zero => []
  | init => [none]
  | prod i => [some i]
  | add s t => s.terms ++ t.terms
  | fma i t => some i :: t.terms

/-- the largest number of roundings a term goes through (not in the code: the arithmetic of
`double` and Eigen's sums, as used in gemmt.hpp:18-208) -/
def SumTree.depth {I : Type} : SumTree I → ℕ
  | zero => 0
  | init => 0
  | prod _ => 1
  | add s t => max s.depth t.depth + 1
  | fma _ t => t.depth + 1

/-- the number of roundings (not in the code: the arithmetic of `double` and Eigen's sums, as used
in gemmt.hpp:18-208) -/
def SumTree.count {I : Type} : SumTree I → ℕ
  | zero => 0
  | init => 0
  | prod _ => 1
  | add s t => s.count + t.count + 1
  | fma _ t => t.count + 1

end

/-! ### IEEE 754 rounding to nearest, ties to even -/

/-- the integer nearest to `y`, the even one of two (not in the code: the arithmetic of `double`
and Eigen's sums, as used in gemmt.hpp:18-208) -/
def nearestEven (y : ℚ) : ℤ :=
  let f := ⌊y⌋
  if y - f < 1 / 2 then f else if 1 / 2 < y - f then f + 1 else if f % 2 = 0 then f else f + 1

/-- exponent of the unit in the last place of `x`, with `p` bits and smallest exponent `emin` (Not
in the code: the arithmetic of `double` and Eigen's sums, as used in gemmt.hpp:18-208) -/
def ulpExp (p : ℕ) (emin : ℤ) (x : ℚ) : ℤ := max (Int.log 2 |x| - p + 1) emin

/-- rounding to the nearest floating-point number with `p` bits (no overflow) (not in the code:
the arithmetic of `double` and Eigen's sums, as used in gemmt.hpp:18-208) -/
def ieeeRnd (p : ℕ) (emin : ℤ) (x : ℚ) : ℚ := nearestEven (x / 2 ^ ulpExp p emin x) * 2 ^ ulpExp p emin x

end ProxNLP
