import Verif.Spec.ConvexRun
import Verif.Spec.Composite

/-!
Specification for C85: strongly convex problems with affine constraints in equality, nonpositive-orthant and box sets, a solution with
its multipliers, and the settings for which the solver is proved to reach it.
-/

namespace ProxNLP.Spec

variable {K : Type} [Field K] [LinearOrder K] {n m : ℕ}

/-- optimality conditions of `min f(x)  s.t.  A x - b` in the sets: stationarity, feasibility, and the multiplier of every row is normal
to its set at the constraint value -/
structure KktPoint (grad : (Fin n → K) → Fin n → K) (A : Fin m → Fin n → K) (b : Fin m → K) (leaf : Fin m → LeafSet K × ℕ)
    (xs : Fin n → K) (ls : Fin m → K) : Prop where
  stationary : ∀ j, grad xs j + ∑ i, A i j * ls i = 0
  feasible : Feasible leaf (affine A b xs)
  normal : ∀ i y, rowMem (leaf i).1 (leaf i).2 y → ls i * (y - affine A b xs i) ≤ 0

/-- the gradient is strongly monotone with constant `h` -/
structure StronglyMonotone (grad : (Fin n → K) → Fin n → K) (h : K) : Prop where
  pos : 0 < h
  bound : ∀ x y, h * ∑ j, (x j - y j) ^ 2 ≤ ∑ j, (grad x j - grad y j) * (x j - y j)

/-- no row is an L1 penalty -/
def OnlySets (leaf : Fin m → LeafSet K × ℕ) : Prop := ∀ i, (leaf i).1 ≠ .l1

/-- Settings for which convergence is proved, for initial multipliers at distance at most `R0` of a solution.  `theta` is the ratio of the
inner tolerance to the penalty, `levels` the number of penalty reductions down to `mu_lower`, `rounds` the number of tolerance
reductions down to the smallest tolerance, `beta` bounds the error one accepted multiplier update adds, `R` bounds the distance of all
accepted multipliers to the solution. -/
structure ConvexConvergence (S : Settings K) (A : Fin m → Fin n → K) (h theta beta R0 R : K) (levels rounds : ℕ) : Prop where
  newton : S.mode = .newton
  target : S.innerTolMin < S.targetTol
  factor_nonneg : 0 ≤ S.muUpdateFactor
  /-- the inner tolerance is at most `theta` times the penalty -/
  theta0 : 0 ≤ theta
  accuracy : ∀ mu, S.muLower ≤ mu → mu ≤ S.muInit → S.innerTol0 * S.pow mu S.dualAlpha ≤ theta * mu
  accuracyMin : S.innerTolMin ≤ theta * S.muLower
  /-- initial tolerances are bounded and shrink on success, below the smallest ones after `rounds` reductions -/
  shrink : ∃ M q, 0 ≤ M ∧ 0 ≤ q ∧ q ≤ 1 ∧ M * q ^ rounds ≤ S.innerTolMin ∧ ∀ mu, S.muLower ≤ mu → mu ≤ S.muInit →
    S.innerTol0 * S.pow mu S.dualAlpha ≤ M ∧ S.primTol0 * S.pow mu S.primAlpha ≤ M ∧
    S.pow (mu / S.muUpper) S.dualBeta ≤ q ∧ S.pow (mu / S.muUpper) S.primBeta ≤ q
  /-- `levels` reductions bring the penalty to its lower bound -/
  reach : S.muInit * S.muUpdateFactor ^ levels ≤ S.muLower
  beta0 : 0 ≤ beta
  growth : theta ^ 2 * (n * S.muInit + 4 * frob A * m / S.muLower) / h ≤ beta ^ 2
  R0_nonneg : 0 ≤ R0
  radius : R0 + (levels + 1) * (rounds + 1) * (beta + 2 * m * theta) ≤ R
  /-- at the smallest penalty the target tolerance is within reach -/
  room : 2 * S.muLower * (2 * R + theta) < S.targetTol

end ProxNLP.Spec
