import Verif.Spec.Convex
import Verif.Props.Backends

/-!
Specification for C83, second part: the solver and its settings.
-/

namespace ProxNLP.Spec

variable {K : Type} [Field K] [LinearOrder K] [IsStrictOrderedRing K] {n m : ℕ}

/-- A solver on a problem of the class: one of the library's linear solvers, admissible parameters of the regularisation loop and of
the line search (`sing`: what the interpolation yields on a singular system stays in the contraction interval or is NaN). -/
structure ConvexSolver (C : StepCfg (Fin n → K) K n m) (f : (Fin n → K) → K) (A : Fin m → Fin n → K) (b : Fin m → K)
    (leaf : Fin m → LeafSet K × ℕ) (k : ConvexConst K) : Prop where
  convex : IsConvex C f A b leaf k
  hi0 : 0 ≤ k.hi
  params : GoodParams C.inertia
  deltaInit : C.inertia.deltaInit = 0
  deltaMax : 0 ≤ C.inertia.deltaMax
  backend : LibraryBackend C.backend
  ls : GoodLS C.ls
  sing : InRange C.sing

/-- Settings: default weight of the merit function, primal-dual KKT system, no proximal term, penalties between `mu_lower` and
`mu_init`, and for all these penalties a line search that can see the steps it needs. -/
structure ConvexSettings (S : Settings K) (o : LSOptions K) (k : ConvexConst K) (A : Fin m → Fin n → K) : Prop where
  beta : S.pdalBeta = 1 / 2
  kkt : S.kkt = .primalDual
  rho : S.rhoInit = 0
  lower : 0 < S.muLower
  lower_le : S.muLower ≤ S.muInit
  factor_le : S.muUpdateFactor ≤ 1
  tolMin : 0 < S.innerTolMin
  search : ∀ mu, S.muLower ≤ mu → mu ≤ S.muInit → SearchBudget o k A mu S.innerTolMin

end ProxNLP.Spec
