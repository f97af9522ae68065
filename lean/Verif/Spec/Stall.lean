import Verif.Spec.Qp

/-!
Specification for C93: quadratic programs `min ½ xᵀHx + gᵀx  s.t.  Ax ≤ b`, their augmented Lagrangian merit function and the Newton
system of the classic formulation.
-/

namespace ProxNLP.Spec

variable {K : Type} [Field K] [LinearOrder K] {n m : ℕ}

/-- The problem handed to the solver is the quadratic program `min cost  s.t.  Ax - b ≤ 0` on a vector space, solved with the classic
KKT system; exact or Gauss-Newton Hessians; no proximal term for `rho = 0`. -/
structure IsIneqQp (C : StepCfg (Fin n → K) K n m) (q : Qp K n m) : Prop where
  eval : ∀ x, C.eval x = some (q.cost x, q.residual x)
  grad : ∀ x, C.grad x = q.gradient x
  jac : ∀ x, C.jac x = q.A
  hess : ∀ x, C.objHess x = q.H
  vhp : ∀ x l, ∀ p ∈ C.cstrVhp x l, p.2 = 0
  integrate : ∀ x d, C.integrate x d = x + d
  sets : C.sets = StackedSet.ofLeaves fun _ => (.negOrthant, 0)
  approx : C.approx = .exact ∨ C.approx = .gaussNewton
  beta : C.beta = 1 / 2
  prox : ∀ t x, C.proxVal 0 t x = 0
  classic : C.kkt = .classic

namespace Qp

/-- the point is feasible for `Ax ≤ b` -/
def FeasibleIneq (q : Qp K n m) (x : Fin n → K) : Prop := ∀ i, q.residual x i ≤ 0

/-- the optimality (Karush-Kuhn-Tucker) conditions for `Ax ≤ b` -/
def OptimalIneq (q : Qp K n m) (x : Fin n → K) (lam : Fin m → K) : Prop :=
  (∀ j, q.lagrangian x lam j = 0) ∧ q.FeasibleIneq x ∧ ∀ i, 0 ≤ lam i ∧ lam i * q.residual x i = 0

/-- constraint value shifted by the multiplier estimate; the row enters the Newton system when this is positive -/
def shifted (q : Qp K n m) (mu : K) (prev : Fin m → K) (x : Fin n → K) (i : Fin m) : K := q.residual x i + mu * prev i

/-- Newton system of the classic formulation at `(x, lam)`: stationarity of the Lagrangian, and per row `max (c + mu prev, 0) = mu lam` -/
def ClassicNewton (q : Qp K n m) (mu : K) (prev : Fin m → K) (x : Fin n → K) (lam : Fin m → K) (d : Fin n → K) (dl : Fin m → K) : Prop :=
  (∀ j, ∑ k, q.H j k * d k + ∑ i, q.A i j * dl i = -q.lagrangian x lam j) ∧
  ∀ i, if 0 < q.shifted mu prev x i then ∑ j, q.A i j * d j - mu * dl i = -(q.shifted mu prev x i - mu * lam i) else dl i = -lam i

/-- the primal-dual augmented Lagrangian `f + (1/mu) |max(c + mu prev - mu/2 lam, 0)|² + (mu/4) |lam|²` -/
def merit (q : Qp K n m) (mu : K) (prev : Fin m → K) (x : Fin n → K) (lam : Fin m → K) : K :=
  q.cost x + ∑ i, (1 / mu * max (q.shifted mu prev x i - 1 / 2 * mu * lam i) 0 ^ 2 + mu / 4 * lam i ^ 2)

/-- its slope in direction `(d, dl)` -/
def slope (q : Qp K n m) (mu : K) (prev : Fin m → K) (x : Fin n → K) (lam : Fin m → K) (d : Fin n → K) (dl : Fin m → K) : K :=
  ∑ j, q.gradient x j * d j +
    ∑ i, (2 / mu * max (q.shifted mu prev x i - 1 / 2 * mu * lam i) 0 * (∑ j, q.A i j * d j - mu / 2 * dl i) + mu / 2 * lam i * dl i)

end Qp

/-- Line-search options covered by C93: first contraction by one half, second by at most four fifths (the defaults), Armijo constant at
most one, smallest step at most one; `sqrt` is a square root. -/
structure HalvingLS (o : LSOptions K) (sqrt : K → K) : Prop where
  cmin : o.contractionMin = 1 / 2
  cmax_lo : 1 / 2 ≤ o.contractionMax
  cmax_hi : o.contractionMax ≤ 4 / 5
  c1 : o.armijoC1 ≤ 1
  amin : 0 < o.alphaMin
  amin_le : o.alphaMin ≤ 1
  sqrt : ∀ y, 0 ≤ y → 0 ≤ sqrt y ∧ sqrt y ^ 2 = y

/-- the step that is left when all trials are rejected -/
def lastStep (o : LSOptions K) : K := max ((1 / 2) ^ o.maxNumSteps) o.alphaMin

end ProxNLP.Spec
