import Verif.Spec.ManifoldCalculus
import Verif.Model.LieGroup
import Mathlib.Algebra.BigOperators.Ring.Finset

/-! Specification for C88 (transport) and C89 (wrapped Lie groups). -/

namespace ProxNLP.Spec

/-- `JintegrateTransport(x, v, J, arg)` replaces `J` by the product of the matrix that `Jintegrate(x, v, ., arg)` returns with `J`. -/
def TransportIsProduct {K : Type} [Field K] (M : Manifold K) (x v : List K) (arg : ℤ) : Prop :=
  ∀ J0 J, ∃ B R, M.Jintegrate x v J0 arg = .ok B ∧ M.transport x v J arg = .ok R ∧
    ∀ i j, i < M.ndx → R i j = ∑ k ∈ Finset.range M.ndx, B i k * J k j

/-- What is asked of a Pinocchio group: `integrate`, `difference`, `interpolate` are total on points and obey the laws, `neutral` is a
point, and `isNormalized` accepts exactly the points among vectors of the right size. -/
structure GroupLaws {K : Type} [Field K] (G : PinGroup K) (point : List K → Prop) (dom : List K → List K → Prop) : Prop where
  point_len : ∀ x, point x → x.length = G.nq
  dom_len : ∀ x v, dom x v → v.length = G.nv
  neutral : point G.neutral
  normalized : ∀ x, x.length = G.nq → ∃ b, G.isNormalized x = .ok b ∧ (b = true ↔ point x)
  integrate : ∀ x v, point x → v.length = G.nv → ∃ y, point y ∧ ∀ out, out.length = G.nq → G.integrate x v out = .ok y
  difference : ∀ x y, point x → point y → ∃ d, d.length = G.nv ∧ (∀ out, out.length = G.nv → G.difference x y out = .ok d) ∧
    ∀ out, out.length = G.nq → G.integrate x d out = .ok y
  integrate_zero : ∀ x out, point x → out.length = G.nq → G.integrate x (List.replicate G.nv 0) out = .ok x
  difference_self : ∀ x out, point x → out.length = G.nv → G.difference x x out = .ok (List.replicate G.nv 0)
  difference_integrate : ∀ x v y out out', point x → dom x v → out.length = G.nq → out'.length = G.nv → G.integrate x v out = .ok y →
    G.difference x y out' = .ok v
  interpolate : ∀ x y out, point x → point y → out.length = G.nq → G.interpolate x y 0 out = .ok x ∧ G.interpolate x y 1 out = .ok y

/-- `dDifference` at position `arg` is the derivative of `difference` with respect to that argument, both taken from Pinocchio. -/
def PinTrueDDifference (G : PinGroup ℝ) (x0 x1 : List ℝ) (arg : ℤ) : Prop :=
  ∀ J, ∃ B, G.dDifference x0 x1 J arg = .ok B ∧ HasListJacobian G.nv G.nv
    (fun d r => (arg = 0 ∧ ∃ y, (∀ out, out.length = G.nq → G.integrate x0 d out = .ok y) ∧
        ∀ out, out.length = G.nv → G.difference y x1 out = .ok r) ∨
      (arg = 1 ∧ ∃ y, (∀ out, out.length = G.nq → G.integrate x1 d out = .ok y) ∧
        ∀ out, out.length = G.nv → G.difference x0 y out = .ok r)) B

/-- `dIntegrate` at position `arg` is the derivative of `integrate` with respect to that argument. -/
def PinTrueDIntegrate (G : PinGroup ℝ) (x v : List ℝ) (arg : ℤ) : Prop :=
  ∀ J, ∃ B, G.dIntegrate x v J arg = .ok B ∧ HasListJacobian G.nv G.nv
    (fun d r => (arg = 0 ∧ ∃ z w y, (∀ out, out.length = G.nq → G.integrate x v out = .ok z) ∧
        (∀ out, out.length = G.nq → G.integrate x d out = .ok w) ∧ (∀ out, out.length = G.nq → G.integrate w v out = .ok y) ∧
        ∀ out, out.length = G.nv → G.difference z y out = .ok r) ∨
      (arg = 1 ∧ ∃ z y, (∀ out, out.length = G.nq → G.integrate x v out = .ok z) ∧
        (∀ out, out.length = G.nq → G.integrate x (List.zipWith (· + ·) v d) out = .ok y) ∧
        ∀ out, out.length = G.nv → G.difference z y out = .ok r)) B

end ProxNLP.Spec
