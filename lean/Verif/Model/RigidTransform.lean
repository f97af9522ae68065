import Verif.Model.Functions
import Mathlib.LinearAlgebra.Matrix.Notation
import Mathlib.Data.Fin.VecNotation

/-!
Model of the action of a rigid transformation on a point (modelling/residuals/rigid-transform-point.hpp).  Points of
SE(3) are `(translation, quaternion)` with the quaternion stored as `x, y, z, w` (Eigen order).
-/

namespace ProxNLP

variable {K : Type} [Field K]

/-- Eigen's `Quaternion::matrix()` (used at rigid-transform-point.hpp:28, 37, 38), coefficients `x, y, z, w`. -/
def quatMatrix (x y z w : K) : Matrix (Fin 3) (Fin 3) K :=
  let tx := 2 * x
  let ty := 2 * y
  let tz := 2 * z
  let twx := tx * w
  let twy := ty * w
  let twz := tz * w
  let txx := tx * x
  let txy := ty * x
  let txz := tz * x
  let tyy := ty * y
  let tyz := tz * y
  let tzz := tz * z
  !![1 - (tyy + tzz), txy - twz, txz + twy;
     txy + twz, 1 - (txx + tzz), tyz - twx;
     txz - twy, tyz + twx, 1 - (txx + tyy)]

/-- `pin::skew(point)` (rigid-transform-point.hpp:24). -/
def skewMatrix (p : Fin 3 → K) : Matrix (Fin 3) (Fin 3) K :=
  !![0, -p 2, p 1; p 2, 0, -p 0; -p 1, p 0, 0]

/-- `q.matrix()` for the last four coordinates of a point (rigid-transform-point.hpp:27-28, 35). -/
def rotationOf (x : Fin 7 → K) : Matrix (Fin 3) (Fin 3) K := quatMatrix (x 3) (x 4) (x 5) (x 6)

/-- `RigidTransformationPointActionTpl(point)` (rigid-transform-point.hpp:10-46): `operator()` applies
`M.actOnEigenObject`, i.e. rotation times point plus translation; the vector-Hessian product is inherited from the base
class. -/
def rigidPointFn (point : Fin 3 → K) : C2Fn K where
  nx := 7
  ndx := 6
  nr := 3
  eval x := fun i => (rotationOf x).mulVec point i + ![x 0, x 1, x 2] i
  jac x := some (Matrix.of fun i (j : Fin 6) =>
    if h : j.val < 3 then rotationOf x i ⟨j.val, h⟩
    else -(rotationOf x * skewMatrix point) i ⟨j.val - 3, by omega⟩)
  vhp := defaultVhp

end ProxNLP
