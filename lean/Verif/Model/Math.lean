import Mathlib.Algebra.Order.Field.Basic
import Mathlib.Data.Fintype.Basic
import Mathlib.Data.List.OfFn

/-!
Model of the numeric helpers in `math.hpp`.
-/

namespace ProxNLP

variable {K : Type*} [Field K] [LinearOrder K]

/-- `math::infty_norm(std::vector<...>)` loop and Eigen's `lpNorm<Infinity>` on a list of nonnegative
values: running maximum started at 0 (math.hpp:60-67). -/
def maxFold (l : List K) : K := l.foldl max 0

/-- `math::infty_norm(z)` for a vector of size `n`: 0 when empty, else the largest absolute value
(math.hpp:50-57).  (The running maximum may start at 0 because absolute values are nonnegative.) -/
def inftyNorm {n : ℕ} (z : Fin n → K) : K := maxFold (List.ofFn fun i => |z i|)

/-- `math::infty_norm` of a vector of vectors (math.hpp:59-67). -/
def inftyNormList (zs : List (Σ n, Fin n → K)) : K := maxFold (zs.map fun z => inftyNorm z.2)

/-- Scalars that may be NaN or infinite, for the finite-value checks only. math.hpp:69-93. -/
inductive ExtScalar (K : Type*) where
  | fin (x : K)
  | nan
  | posInf
  | negInf

/-- `check_scalar(value)`: `isnan(value) || isinf(value)` (math.hpp:70-72). -/
def checkScalar : ExtScalar K → Bool
  | .nan => true
  | .posInf => true
  | .negInf => true
  | .fin _ => false

/-- `std::isnan` (math.hpp:69-93) -/
def ExtScalar.isNaN : ExtScalar K → Bool
  | .nan => true
  | _ => false

/-- `std::isfinite` (math.hpp:69-93) -/
def ExtScalar.isFinite : ExtScalar K → Bool
  | .fin _ => true
  | _ => false

/-- `check_value(x)` on a matrix/vector: `x.hasNaN() || !x.allFinite()` (math.hpp:90-93). -/
def checkValue (x : List (ExtScalar K)) : Bool := x.any ExtScalar.isNaN || !(x.all ExtScalar.isFinite)

/-- `scalar_close(a, b, prec)` (math.hpp:78-82). -/
def scalarClose (a b prec : K) : Bool := decide (|a - b| < prec * (1 + max |a| |b|))

end ProxNLP
