import Verif.Model.CostSum
import Mathlib.Algebra.BigOperators.Fin
import Mathlib.Algebra.Module.Pi
import Mathlib.Algebra.Order.Field.Basic

/-!
# Sums of distances, as a user thinks of them

`QuadraticDistanceCost(space, target, W)` on a vector space (modelling/costs/squared-distance.hpp, C87), and the weights with which
given costs occur in an expression. No object memory occurs here.
-/

namespace ProxNLP.Spec

variable {K : Type} [Field K] {n : ℕ}

/-- `dᵀ W d` -/
def quadForm (W : Fin n → Fin n → K) (d : Fin n → K) : K := ∑ a, d a * ∑ b, W a b * d b

/-- `½ (x - t)ᵀ W (x - t)`, the distance of `x` to the target `t` -/
def distValue (W : Fin n → Fin n → K) (t x : Fin n → K) : K := 1 / 2 * quadForm W (x - t)

/-- its gradient `W (x - t)` (for symmetric `W`) -/
def distGrad (W : Fin n → Fin n → K) (t x : Fin n → K) : Fin n → K := fun a => ∑ b, W a b * (x b - t b)

/-- The factor with which the cost `j` occurs in an expression. -/
def weightIn (j : ℕ) : CostExpr K → K
  | .var id => if id = j then 1 else 0
  | .add l r => weightIn j l + weightIn j r
  | .addMove l r => weightIn j l + weightIn j r
  | .smul a e => a * weightIn j e
  | .mulSum e a => a * weightIn j e
  | .neg e => -weightIn j e

/-- the sum of all factors, for the first `N` costs -/
def totalWeight (N : ℕ) (e : CostExpr K) : K := ∑ j ∈ Finset.range N, weightIn j e

/-- The weighted mean of the targets. -/
def barycentre (N : ℕ) (t : ℕ → Fin n → K) (e : CostExpr K) : Fin n → K :=
  fun a => (∑ j ∈ Finset.range N, weightIn j e * t j a) / totalWeight N e

end ProxNLP.Spec
