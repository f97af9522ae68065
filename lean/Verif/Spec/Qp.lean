import Verif.Model.Step

/-!
Specification for C80: equality-constrained convex quadratic programs `min ½ xᵀHx + gᵀx  s.t.  Ax = b`, what it means for the
problem given to the solver to be one, and the hypotheses on problem and settings of the convergence theorem.
-/

namespace ProxNLP.Spec

variable {K : Type} [Field K] [LinearOrder K] {n m : ℕ}

/-- the data of a quadratic program -/
structure Qp (K : Type) (n m : ℕ) where
  H : Matrix (Fin n) (Fin n) K
  g : Fin n → K
  A : Fin m → Fin n → K
  b : Fin m → K

namespace Qp

/-- the cost `½ xᵀHx + gᵀx` -/
def cost (q : Qp K n m) (x : Fin n → K) : K := 1 / 2 * ∑ j, x j * ∑ k, q.H j k * x k + ∑ j, q.g j * x j

/-- its gradient `Hx + g` -/
def gradient (q : Qp K n m) (x : Fin n → K) : Fin n → K := fun j => ∑ k, q.H j k * x k + q.g j

/-- constraint values `Ax - b` -/
def residual (q : Qp K n m) (x : Fin n → K) : Fin m → K := fun i => ∑ j, q.A i j * x j - q.b i

/-- gradient of the Lagrangian `Hx + g + Aᵀ lam` -/
def lagrangian (q : Qp K n m) (x : Fin n → K) (lam : Fin m → K) : Fin n → K := fun j => q.gradient x j + ∑ i, q.A i j * lam i

/-- strict convexity: `H` symmetric and `vᵀHv ≥ h |v|²` with `h > 0` (over the reals: `H` positive definite) -/
structure StronglyConvex (q : Qp K n m) (h : K) : Prop where
  pos : 0 < h
  symm : q.H.IsSymm
  bound : ∀ v : Fin n → K, h * ∑ j, v j ^ 2 ≤ ∑ j, v j * ∑ k, q.H j k * v k

/-- the constraints are independent: `A` has the right inverse `B` -/
def Independent (q : Qp K n m) (B : Fin n → Fin m → K) : Prop :=
  ∀ i i', ∑ j, q.A i j * B j i' = if i = i' then 1 else 0

/-- the optimality conditions of the program -/
def Optimal (q : Qp K n m) (x : Fin n → K) (lam : Fin m → K) : Prop :=
  (∀ j, q.lagrangian x lam j = 0) ∧ ∀ i, q.residual x i = 0

/-- the optimality conditions of the augmented Lagrangian subproblem with penalty `mu` and multiplier estimate `prev` -/
def SubOptimal (q : Qp K n m) (mu : K) (prev : Fin m → K) (x : Fin n → K) (lam : Fin m → K) : Prop :=
  (∀ j, q.lagrangian x lam j = 0) ∧ ∀ i, q.residual x i + mu * (prev i - lam i) = 0

end Qp

/-- The problem handed to the solver is the quadratic program `q` with equality constraints on a vector space (any number of
constraint objects); exact or Gauss-Newton Hessians; no proximal term for `rho = 0`. -/
structure IsQp (C : StepCfg (Fin n → K) K n m) (q : Qp K n m) : Prop where
  eval : ∀ x, C.eval x = some (q.cost x, q.residual x)
  grad : ∀ x, C.grad x = q.gradient x
  jac : ∀ x, C.jac x = q.A
  hess : ∀ x, C.objHess x = q.H
  vhp : ∀ x l, ∀ p ∈ C.cstrVhp x l, p.2 = 0
  integrate : ∀ x d, C.integrate x d = x + d
  sets : C.sets = StackedSet.ofLeaves fun _ => (.equality, 0)
  approx : C.approx = .exact ∨ C.approx = .gaussNewton
  beta : C.beta = 1 / 2
  prox : ∀ t x, C.proxVal 0 t x = 0

/-- Settings for which convergence is proved; `R` bounds twice the distance from the initial multipliers to the optimal ones.
With the default values (`mu_init = 1e-2`, `mu_lower = 1e-9`, exponents .1, .9, 1, 1, `inner_tol_min = 1e-9`) these are met for
every `target_tol > 1e-9` and `R ≤ 1e8`. -/
structure ConvergentSettings (S : Settings K) (R : K) : Prop where
  newton : S.mode = .newton
  beta : S.pdalBeta = 1 / 2
  rho : S.rhoInit = 0
  target : S.innerTolMin < S.targetTol
  tolMin : 0 ≤ S.innerTolMin
  lower : 0 < S.muLower
  lower_le : S.muLower ≤ S.muInit
  factor_nonneg : 0 ≤ S.muUpdateFactor
  factor_lt : S.muUpdateFactor < 1
  /-- the inner tolerance starts nonnegative, below the primal tolerance, and is bounded -/
  start : ∃ M, ∀ mu, S.muLower ≤ mu → mu ≤ S.muInit → 0 ≤ S.innerTol0 * S.pow mu S.dualAlpha ∧
    S.innerTol0 * S.pow mu S.dualAlpha < S.primTol0 * S.pow mu S.primAlpha ∧ S.innerTol0 * S.pow mu S.dualAlpha ≤ M
  /-- on success the inner tolerance shrinks by a factor bounded away from one, and at least as fast as the primal one -/
  shrink : ∃ r < 1, ∀ mu, S.muLower ≤ mu → mu ≤ S.muInit → 0 ≤ S.pow (mu / S.muUpper) S.dualBeta ∧
    S.pow (mu / S.muUpper) S.dualBeta ≤ r ∧ S.pow (mu / S.muUpper) S.dualBeta ≤ S.pow (mu / S.muUpper) S.primBeta ∧
    0 < S.pow (mu / S.muUpper) S.primBeta
  /-- at the smallest penalty parameter the initial primal tolerance can be reached -/
  room : max (S.innerTol0 * S.pow S.muLower S.dualAlpha) S.innerTolMin + S.muLower * R < S.primTol0 * S.pow S.muLower S.primAlpha

/-- the point and the multipliers satisfy the optimality conditions up to `tol` -/
def Qp.Approx (q : Qp K n m) (tol : K) (x : Fin n → K) (lam : Fin m → K) : Prop :=
  (∀ i, |q.residual x i| ≤ tol) ∧ ∀ j, |q.lagrangian x lam j| ≤ tol

end ProxNLP.Spec
