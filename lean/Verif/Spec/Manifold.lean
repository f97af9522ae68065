import Verif.Model.Manifold
import Mathlib.Data.List.Forall2

/-! Specification of manifold laws (C43-C49). -/

namespace ProxNLP.Spec

variable {K : Type} [Field K]

/-- `integrate(x, v)` gives `y`, whatever was in the output vector. -/
def IntTo (M : Manifold K) (x v y : List K) : Prop := ∀ out, out.length = M.nx → M.integrate x v out = .ok y

/-- `difference(x, y)` gives `d`, whatever was in the output vector. -/
def DiffTo (M : Manifold K) (x y d : List K) : Prop := ∀ out, out.length = M.ndx → M.difference x y out = .ok d

/-- `interpolate(x, y, u)` gives `z`, whatever was in the output vector. -/
def InterpTo (M : Manifold K) (x y : List K) (u : K) (z : List K) : Prop :=
  ∀ out, out.length = M.nx → M.interpolate x y u out = .ok z

/-- A manifold together with its set of points and, for each point, the set of tangent vectors on which `integrate` is
inverted by `difference` (all vectors for a vector space, a ball for rotations). -/
structure Space (K : Type) where
  M : Manifold K
  valid : List K → Prop
  dom : List K → List K → Prop

/-- The manifold laws. -/
structure Lawful (S : Space K) : Prop where
  valid_len : ∀ x, S.valid x → x.length = S.M.nx
  dom_len : ∀ x v, S.dom x v → v.length = S.M.ndx
  /-- the neutral element is a point -/
  neutral : ∃ e, S.M.neutral = .ok e ∧ S.valid e
  /-- integrating from a point gives a point -/
  integrate_valid : ∀ x v, S.valid x → v.length = S.M.ndx → ∃ y, S.valid y ∧ IntTo S.M x v y
  /-- the difference of two points is a tangent vector -/
  difference_len : ∀ x y, S.valid x → S.valid y → ∃ d, d.length = S.M.ndx ∧ DiffTo S.M x y d
  integrate_zero : ∀ x, S.valid x → IntTo S.M x (List.replicate S.M.ndx 0) x
  difference_self : ∀ x, S.valid x → DiffTo S.M x x (List.replicate S.M.ndx 0)
  integrate_difference : ∀ x y d, S.valid x → S.valid y → DiffTo S.M x y d → IntTo S.M x d y
  difference_integrate : ∀ x v y, S.valid x → S.dom x v → IntTo S.M x v y → DiffTo S.M x y v

/-- Interpolation joins its end points. -/
def Joins (S : Space K) : Prop :=
  ∀ x y, S.valid x → S.valid y → InterpTo S.M x y 0 x ∧ InterpTo S.M x y 1 y

/-- The vector space of dimension `n`: all vectors of that size, all tangent vectors. -/
def vectorSpace (n : ℕ) : Space K := ⟨ProxNLP.vectorSpace n, fun x => x.length = n, fun _ v => v.length = n⟩

/-- The Cartesian product: points and tangent vectors are concatenations of those of the components, in order. -/
def product (Ss : List (Space K)) : Space K :=
  ⟨cartesianProduct (Ss.map (·.M)),
   fun x => ∃ xs, List.Forall₂ (fun S b => S.valid b) Ss xs ∧ x = xs.flatten,
   fun x v => ∃ bs : List (List K × List K), List.Forall₂ (fun S b => S.valid b.1 ∧ S.dom b.1 b.2) Ss bs ∧
     x = (bs.map (·.1)).flatten ∧ v = (bs.map (·.2)).flatten⟩

/-- The tangent bundle: pairs of a point and a tangent vector. -/
def bundle (S : Space K) : Space K :=
  ⟨tangentBundle S.M,
   fun x => ∃ p t, S.valid p ∧ t.length = S.M.ndx ∧ x = p ++ t,
   fun x v => ∃ p t dp dt, S.valid p ∧ t.length = S.M.ndx ∧ x = p ++ t ∧ S.dom p dp ∧ dt.length = S.M.ndx ∧ v = dp ++ dt⟩

/-- Block-diagonal matrix with the given blocks (sizes and entries). -/
def blockDiag : List (ℕ × (ℕ → ℕ → K)) → ℕ → ℕ → K
  | [], _, _ => 0
  | (n, B) :: rest, i, j =>
    if i < n ∧ j < n then B i j else if n ≤ i ∧ n ≤ j then blockDiag rest (i - n) (j - n) else 0

end ProxNLP.Spec
