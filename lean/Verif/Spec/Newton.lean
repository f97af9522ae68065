import Verif.Props.Backends

/-!
Specification for C115: programs `min f(x)  s.t.  Ax = b` with a smooth cost, regularity of the cost on a ball around the starting point
(strong convexity and the Taylor estimates that a Lipschitz continuous Hessian gives), and the lengths of Newton's steps.
-/

namespace ProxNLP.Spec

variable {K : Type} [Field K] [LinearOrder K] {n m : ℕ}

/-- the data of a program with a smooth cost and affine equality constraints -/
structure SmoothProgram (K : Type) (n m : ℕ) where
  f : (Fin n → K) → K
  grad : (Fin n → K) → Fin n → K
  hess : (Fin n → K) → Matrix (Fin n) (Fin n) K
  A : Fin m → Fin n → K
  b : Fin m → K

namespace SmoothProgram

/-- constraint values `Ax - b` -/
def residual (P : SmoothProgram K n m) (x : Fin n → K) : Fin m → K := fun i => ∑ j, P.A i j * x j - P.b i

/-- gradient of the Lagrangian `∇f(x) + Aᵀ lam` -/
def lagrangian (P : SmoothProgram K n m) (x : Fin n → K) (lam : Fin m → K) : Fin n → K := fun j => P.grad x j + ∑ i, P.A i j * lam i

/-- the second block of the optimality conditions of the augmented Lagrangian subproblem with penalty `mu` and estimate `prev` -/
def shifted (P : SmoothProgram K n m) (mu : K) (prev : Fin m → K) (x : Fin n → K) (lam : Fin m → K) : Fin m → K :=
  fun i => P.residual x i + mu * (prev i - lam i)

end SmoothProgram

/-- the point `y` is at distance at most `r` from `x` -/
def InBall (x : Fin n → K) (r : K) (y : Fin n → K) : Prop := ∑ j, (y j - x j) ^ 2 ≤ r ^ 2

/-- On the ball of radius `r` around `x0` the Hessian is symmetric with eigenvalues at least `h`, and the Taylor estimates of a function
with `L`-Lipschitz Hessian hold (all norms are Euclidean, squared to stay in an ordered field). -/
structure RegularOn (P : SmoothProgram K n m) (x0 : Fin n → K) (r h L : K) : Prop where
  pos : 0 < h
  lip : 0 ≤ L
  symm : ∀ x, InBall x0 r x → (P.hess x).IsSymm
  bound : ∀ x, InBall x0 r x → ∀ v : Fin n → K, h * ∑ j, v j ^ 2 ≤ ∑ j, v j * ∑ k, P.hess x j k * v k
  taylor1 : ∀ x d, InBall x0 r x → InBall x0 r (x + d) →
    ∑ j, (P.grad (x + d) j - P.grad x j - ∑ k, P.hess x j k * d k) ^ 2 ≤ (L / 2) ^ 2 * (∑ j, d j ^ 2) ^ 2
  taylor2 : ∀ x d, InBall x0 r x → InBall x0 r (x + d) →
    (P.f (x + d) - P.f x - ∑ j, P.grad x j * d j - 1 / 2 * ∑ j, d j * ∑ k, P.hess x j k * d k) ^ 2 ≤
      (L / 6) ^ 2 * (∑ j, d j ^ 2) ^ 3

/-- The problem handed to the solver is the program `P` on a vector space (any number of constraint objects); exact or Gauss-Newton
Hessians; no proximal term for `rho = 0`. -/
structure IsSmooth (C : StepCfg (Fin n → K) K n m) (P : SmoothProgram K n m) : Prop where
  eval : ∀ x, C.eval x = some (P.f x, P.residual x)
  grad : ∀ x, C.grad x = P.grad x
  jac : ∀ x, C.jac x = P.A
  hess : ∀ x, C.objHess x = P.hess x
  vhp : ∀ x l, ∀ p ∈ C.cstrVhp x l, p.2 = 0
  integrate : ∀ x d, C.integrate x d = x + d
  sets : C.sets = StackedSet.ofLeaves fun _ => (.equality, 0)
  approx : C.approx = .exact ∨ C.approx = .gaussNewton
  beta : C.beta = 1 / 2
  prox : ∀ t x, C.proxVal 0 t x = 0

/-- A solver whose steps near a solution are full Newton steps: one of the library's linear solvers, admissible parameters of the
regularisation loop, a line search that may take the full step. -/
structure NewtonSolver (C : StepCfg (Fin n → K) K n m) : Prop where
  params : GoodParams C.inertia
  deltaInit : C.inertia.deltaInit = 0
  deltaMax : 0 ≤ C.inertia.deltaMax
  backend : LibraryBackend C.backend
  alphaMin : C.ls.alphaMin ≤ 1

/-- Bound on the length of the `k`-th Newton step when the first one is at most `δ`: `δ_{k+1} = L/(2h) δ_k²`, so that the number of
correct digits doubles with every step. -/
def newtonLength (h L δ : K) : ℕ → K
  | 0 => δ
  | k + 1 => L / (2 * h) * newtonLength h L δ k ^ 2

/-- The start is in the region of fast convergence: `δ` bounds the first Newton step (squared: `|∇L|²/h² + |c + mu (prev - lam)|²/(2 mu h)`),
and is small compared with `h / L` and with what the Armijo constant `c1` leaves. -/
structure FastStart (P : SmoothProgram K n m) (h L δ c1 mu : K) (prev : Fin m → K) (x : Fin n → K) (lam : Fin m → K) : Prop where
  nonneg : 0 ≤ δ
  first : (∑ j, P.lagrangian x lam j ^ 2) / h ^ 2 + (∑ i, P.shifted mu prev x lam i ^ 2) / (2 * mu * h) ≤ δ ^ 2
  small : L * δ ≤ h
  armijo : L * δ ≤ 6 * h * (1 / 2 - c1)

/-- the inner tolerance after `j` successful outer iterations with penalty `mu_init` -/
def innerTolAfter (S : Settings K) : ℕ → K
  | 0 => max (S.innerTol0 * S.pow S.muInit S.dualAlpha) S.innerTolMin
  | j + 1 => max (innerTolAfter S j * S.pow (S.muInit / S.muUpper) S.dualBeta) S.innerTolMin

end ProxNLP.Spec
