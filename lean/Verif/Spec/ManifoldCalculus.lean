import Verif.Spec.Manifold
import Verif.Spec.Calculus

/-! Specification for C86: what the Jacobians of a manifold are the derivatives of. -/

open Filter Topology

namespace ProxNLP.Spec

/-- `B` is the derivative at zero of the map from vectors of size `n` to vectors of size `p` whose graph is `F`; the map
has to be defined near zero. -/
def HasListJacobian (n p : ℕ) (F : List ℝ → List ℝ → Prop) (B : ℕ → ℕ → ℝ) : Prop :=
  ∃ f : (Fin n → ℝ) → Fin p → ℝ, (∀ᶠ d in 𝓝 0, F (List.ofFn d) (List.ofFn (f d))) ∧
    HasJacobian f (Matrix.of fun i j => B i j) 0

/-- The result `r` of `difference(x0, x1)` when its first (`arg = 0`) or second (`arg = 1`) argument is moved
along the tangent vector `d`. -/
def MovedDifference (M : Manifold ℝ) (x0 x1 : List ℝ) (arg : ℤ) (d r : List ℝ) : Prop :=
  (arg = 0 ∧ ∃ y, IntTo M x0 d y ∧ DiffTo M y x1 r) ∨ (arg = 1 ∧ ∃ y, IntTo M x1 d y ∧ DiffTo M x0 y r)

/-- The displacement `r` of `integrate(x, v)` when `x` is moved along the tangent vector `d` (`arg = 0`) or when `d` is added
to `v` (`arg = 1`). -/
def MovedIntegrate (M : Manifold ℝ) (x v : List ℝ) (arg : ℤ) (d r : List ℝ) : Prop :=
  (arg = 0 ∧ ∃ z w y, IntTo M x v z ∧ IntTo M x d w ∧ IntTo M w v y ∧ DiffTo M z y r) ∨
  (arg = 1 ∧ ∃ z y, IntTo M x v z ∧ IntTo M x (List.zipWith (· + ·) v d) y ∧ DiffTo M z y r)

/-- `Jdifference(x0, x1, J, arg)` overwrites `J` with the derivative of `difference` with respect to that argument. -/
def TrueJdifference (M : Manifold ℝ) (x0 x1 : List ℝ) (arg : ℤ) : Prop :=
  ∀ J, ∃ B, M.Jdifference x0 x1 J arg = .ok B ∧ HasListJacobian M.ndx M.ndx (MovedDifference M x0 x1 arg) B

/-- `Jintegrate(x, v, J, arg)` overwrites `J` with the derivative of `integrate` with respect to that argument. -/
def TrueJintegrate (M : Manifold ℝ) (x v : List ℝ) (arg : ℤ) : Prop :=
  ∀ J, ∃ B, M.Jintegrate x v J arg = .ok B ∧ HasListJacobian M.ndx M.ndx (MovedIntegrate M x v arg) B

end ProxNLP.Spec
