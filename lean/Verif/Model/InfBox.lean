import Verif.Model.ExtSolver

/-!
`BoxConstraint` with bounds that may be infinite, NaN or in the wrong order, on finite vectors.

The row operators `ExtSet.proj` and `ExtSet.normal` are in `Model/ExtSolver.lean`; here are the active set and the masks, and the
operators on vectors.
-/

namespace ProxNLP

open ExtScalar

variable {K : Type} [Field K] [LinearOrder K]

/-- One row of `computeActiveSet` (equality-constraint.hpp:53-56, negative-orthant.hpp:41-44, box-constraint.hpp:40-44,
l1-penalty.hpp:49-52). -/
def ExtSet.active (s : ExtSet K) (mu : K) (z : ExtScalar K) : Bool :=
  match s with
  | .equality => true
  | .negOrthant => lt (fin 0) z
  | .box lo hi => lt hi z || lt z lo
  | .l1 => le (ExtScalar.abs z) (fin mu)

/-- `BoxConstraint(lower, upper)` (box-constraint.hpp:19-25): the bounds are stored as given, without any check. -/
structure ExtBox (K : Type) (n : ℕ) where
  lower : Fin n → ExtScalar K
  upper : Fin n → ExtScalar K

variable {n : ℕ}

/-- `projection(z, zout)` (box-constraint.hpp:28-34) -/
def ExtBox.projection (b : ExtBox K n) (z : Fin n → K) : Fin n → ExtScalar K :=
  fun i => (ExtSet.box (b.lower i) (b.upper i)).proj 0 (fin (z i))

/-- `normalConeProjection(z, zout)` (box-constraint.hpp:36-38) -/
def ExtBox.normal (b : ExtBox K n) (z : Fin n → K) : Fin n → ExtScalar K :=
  fun i => (ExtSet.box (b.lower i) (b.upper i)).normal 0 (fin (z i))

/-- `computeActiveSet(z, out)` (box-constraint.hpp:40-44) -/
def ExtBox.active (b : ExtBox K n) (z : Fin n → K) : Fin n → Bool :=
  fun i => (ExtSet.box (b.lower i) (b.upper i)).active 0 (fin (z i))

/-- `applyProjectionJacobian(z, J)` (constraint-set.hxx:10-23): rows of active coordinates are set to zero. -/
def ExtBox.applyProjectionJacobian (b : ExtBox K n) {C : Type} (z : Fin n → K) (J : Fin n → C → K) : Fin n → C → K :=
  fun i c => if b.active z i then 0 else J i c

/-- `applyNormalConeProjectionJacobian(z, J)` (constraint-set.hxx:26-38): rows of inactive coordinates are set to zero. -/
def ExtBox.applyNormalJacobian (b : ExtBox K n) {C : Type} (z : Fin n → K) (J : Fin n → C → K) : Fin n → C → K :=
  fun i c => if b.active z i then J i c else 0

end ProxNLP
