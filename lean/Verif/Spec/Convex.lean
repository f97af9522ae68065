import Verif.Model.Step
import Verif.Spec.Sets
import Verif.Spec.Kkt

/-!
Specification for C83: smooth convex costs with affine constraints in arbitrary built-in sets, and the settings of the line
search for which every inner loop is proved to end.
-/

namespace ProxNLP.Spec

variable {K : Type} [Field K] [LinearOrder K] {n m : ℕ}

/-- The matrix lies between `lo` and `hi` times the identity. -/
structure Between (H : Matrix (Fin n) (Fin n) K) (lo hi : K) : Prop where
  symm : H.IsSymm
  lower : ∀ v, lo * ∑ j, v j ^ 2 ≤ quad H v
  upper : ∀ v, quad H v ≤ hi * ∑ j, v j ^ 2

/-- Constants of a problem: smoothness of the cost, bounds of the Hessian blocks, lower bound of the cost. -/
structure ConvexConst (K : Type) where
  /-- the cost lies below its tangent plus `L/2 |d|²` -/
  L : K
  /-- the Hessians used in the KKT matrix lie between `lo` and `hi` -/
  lo : K
  hi : K
  /-- lower bound of the cost -/
  low : K

/-- The problem handed to the solver is `min f(x)  s.t.  A x - b ∈ S₁ × ... ` on a vector space, the sets being equality, nonpositive
orthant, (nonempty) box or L1 penalty, in any number and order; the primal-dual KKT system is used, with the identity, the
Gauss-Newton or the exact Hessian. -/
structure IsConvex (C : StepCfg (Fin n → K) K n m) (f : (Fin n → K) → K) (A : Fin m → Fin n → K) (b : Fin m → K)
    (leaf : Fin m → LeafSet K × ℕ) (k : ConvexConst K) : Prop where
  eval : ∀ x, C.eval x = some (f x, fun i => ∑ j, A i j * x j - b i)
  jac : ∀ x, C.jac x = A
  smooth : ∀ x d, f (x + d) ≤ f x + ∑ j, C.grad x j * d j + k.L / 2 * ∑ j, d j ^ 2
  below : ∀ x, k.low ≤ f x
  L0 : 0 ≤ k.L
  lo0 : 0 < k.lo
  hess : (C.approx = .identity ∧ k.lo ≤ 1 ∧ 1 ≤ k.hi) ∨
    ((C.approx = .exact ∨ C.approx = .gaussNewton) ∧ ∀ x, Between (C.objHess x) k.lo k.hi)
  vhp : ∀ x l, ∀ p ∈ C.cstrVhp x l, p.2 = 0
  integrate : ∀ x d, C.integrate x d = x + d
  sets : C.sets = StackedSet.ofLeaves leaf
  boxes : ∀ i lo hi, (leaf i).1 = .box lo hi → lo (leaf i).2 ≤ hi (leaf i).2
  beta : C.beta = 1 / 2
  kkt : C.kkt = .primalDual
  prox : ∀ t x, C.proxVal 0 t x = 0

/-- sum of the squares of the entries -/
def frob (A : Fin m → Fin n → K) : K := ∑ i, ∑ j, A i j ^ 2

/-- the merit function along a search direction lies below `M + slope a + kappa |slope| a²` -/
def ConvexConst.kappa (k : ConvexConst K) (A : Fin m → Fin n → K) (mu : K) : K := (k.L / 2 + 2 * frob A / mu) / k.lo + 3 / 2

/-- every component of the residual is at most the root of `gain * |slope|` -/
def ConvexConst.gain (k : ConvexConst K) (A : Fin m → Fin n → K) (mu : K) : K := 2 * k.hi + 4 * frob A / mu + 2 * mu

/-- all steps up to this one satisfy the Armijo condition -/
def ConvexConst.abar (k : ConvexConst K) (A : Fin m → Fin n → K) (c1 mu : K) : K := (1 - c1) / k.kappa A mu

/-- The budgets of the line search allow to reach the steps that satisfy the Armijo condition, and the inner tolerance is not
below what the threshold on the slope lets the line search see. -/
structure SearchBudget (o : LSOptions K) (k : ConvexConst K) (A : Fin m → Fin n → K) (mu tol : K) : Prop where
  c1pos : 0 < o.armijoC1
  c1 : o.armijoC1 < 1
  half_lo : o.contractionMin ≤ 1 / 2
  half_hi : 1 / 2 ≤ o.contractionMax
  thresh : 0 < o.dphiThresh
  alphaMin : o.alphaMin ≤ o.contractionMin * k.abar A o.armijoC1 mu
  steps : ∃ t, o.contractionMax ^ t ≤ k.abar A o.armijoC1 mu ∧ 2 * t + 1 ≤ o.maxNumSteps
  tol : k.gain A mu * o.dphiThresh ≤ tol ^ 2

/-- least decrease of the merit function in a step from a point whose residual exceeds `tol` -/
def ConvexConst.decrease (k : ConvexConst K) (A : Fin m → Fin n → K) (o : LSOptions K) (mu tol : K) : K :=
  o.armijoC1 * min 1 (o.contractionMin * k.abar A o.armijoC1 mu) * (tol ^ 2 / k.gain A mu)

end ProxNLP.Spec
