import Verif.Model.Rounding
import Mathlib.Data.Matrix.Basic
import Mathlib.LinearAlgebra.Matrix.RowCol

/-! Finite differences on a vector space in rounded arithmetic. -/

namespace ProxNLP

variable {K : Type} [Field K] [LinearOrder K]

/-- `finite_difference_impl::computeJacobian` (finite-difference.hpp:29-44) on a `VectorSpace` (vector-space.hpp:39-42) with rounded
operations: both points, the difference of the values, the denominator and the quotient are rounded.  `F` is the function as computed. -/
def flFdJacobian (R : Rounding K) {n r : ℕ} (F : (Fin n → K) → Fin r → K) (eps : K) (x : Fin n → K) (J0 : Matrix (Fin r) (Fin n) K) :
    Matrix (Fin r) (Fin n) K :=
  ((List.finRange n).foldl (fun (s : (Fin n → K) × Matrix (Fin r) (Fin n) K) i =>
    let ei := Function.update s.1 i eps
    let fp := F fun j => R.rnd (x j + ei j)
    let fm := F fun j => R.rnd (x j + - ei j)
    (Function.update ei i 0, s.2.updateCol i fun k => R.rnd (R.rnd (fp k - fm k) / R.rnd (2 * eps)))) (fun _ => 0, J0)).2

end ProxNLP
