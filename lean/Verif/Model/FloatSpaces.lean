import Verif.Model.Rounding

/-!
Vector spaces and their products in rounded arithmetic.
-/

namespace ProxNLP

variable {K : Type} [Field K] [LinearOrder K] {n : ℕ}

/-- `VectorSpaceTpl::integrate_impl` (vector-space.hpp:39-42), every operation rounded.  In a Cartesian product of vector spaces every
coordinate is treated like this (cartesian-product.hxx:97-115). -/
def flIntegrate (R : Rounding K) (x v : Fin n → K) : Fin n → K := fun i => R.rnd (x i + v i)

/-- `VectorSpaceTpl::difference_impl` (vector-space.hpp:54-57), every operation rounded; products as for `flIntegrate`
(cartesian-product.hxx:117-135). -/
def flDifference (R : Rounding K) (x0 x1 : Fin n → K) : Fin n → K := fun i => R.rnd (x1 i - x0 i)

/-- The compiler may fuse one of the two products in `u * x1 + (1 - u) * x0` (vector-space.hpp:75) with the addition. -/
inductive Contraction where
  | none
  | first
  | second

/-- `VectorSpaceTpl::interpolate_impl` (vector-space.hpp:73-76), every operation rounded. -/
def flInterpolate (R : Rounding K) (f : Contraction) (x0 x1 : Fin n → K) (u : K) : Fin n → K := fun i =>
  let w := R.rnd (1 - u)
  match f with
  | .none => R.rnd (R.rnd (u * x1 i) + R.rnd (w * x0 i))
  | .first => R.rnd (u * x1 i + R.rnd (w * x0 i))
  | .second => R.rnd (R.rnd (u * x1 i) + w * x0 i)

/-- The default `interpolate_impl` (manifold-base.hpp:121-126) of a Cartesian product of vector spaces, every operation rounded: the product
`u * difference(x0, x1)` is stored before `integrate` is called. -/
def flInterpolateProduct (R : Rounding K) (x0 x1 : Fin n → K) (u : K) : Fin n → K :=
  flIntegrate R x0 fun i => R.rnd (u * flDifference R x0 x1 i)

end ProxNLP
