import Verif.Model.Manifold

/-!
Model of the wrappers around Pinocchio: Lie groups (modelling/spaces/pinocchio-groups.hpp) and configuration spaces of
multibody systems (modelling/spaces/multibody.hpp).

Pinocchio itself is not part of the repository: its functions are parameters.  A function that writes to an output argument takes
its old contents and returns the new ones, as in `Model/Manifold.lean`.
-/

namespace ProxNLP

/-- The functions of a Pinocchio Lie group (`LieGroupBase`), or of a Pinocchio model (`joint-configuration.hpp`), that the wrappers call.
The last argument of `dDifference`, `dIntegrate` and `dIntegrateTransport` is the `ArgumentPosition` (`ARG0 = 0`, `ARG1 = 1`). -/
structure PinGroup (K : Type) where
  nq : ℕ
  nv : ℕ
  neutral : List K
  isNormalized : List K → Except Fault Bool
  integrate : List K → List K → List K → Except Fault (List K)
  difference : List K → List K → List K → Except Fault (List K)
  interpolate : List K → List K → K → List K → Except Fault (List K)
  dIntegrate : List K → List K → (ℕ → ℕ → K) → ℤ → Except Fault (ℕ → ℕ → K)
  dIntegrateTransport : List K → List K → (ℕ → ℕ → K) → ℤ → Except Fault (ℕ → ℕ → K)
  dDifference : List K → List K → (ℕ → ℕ → K) → ℤ → Except Fault (ℕ → ℕ → K)

variable {K : Type}

/-- `PinocchioLieGroup<LieGroup>` (pinocchio-groups.hpp:18-98).  `dIntegrate_dq` and `dIntegrate_dv` are `dIntegrate` at `ARG0` and
`ARG1`.  The two `switch` statements have no default case: other values of `arg` leave the output as it was. -/
def pinocchioLieGroup (G : PinGroup K) : Manifold K where
  nx := G.nq
  ndx := G.nv
  neutral := .ok G.neutral
  isNormalized x := if x.length < G.nq then .ok false else G.isNormalized x
  integrate x v out := G.integrate x v out
  difference x0 x1 out := G.difference x0 x1 out
  Jintegrate x v J arg :=
    if arg = 0 then G.dIntegrate x v J 0
    else if arg = 1 then G.dIntegrate x v J 1
    else .ok J
  Jdifference x0 x1 J arg :=
    if arg = 0 then G.dDifference x0 x1 J 0
    else if arg = 1 then G.dDifference x0 x1 J 1
    else .ok J
  transport x v J arg := G.dIntegrateTransport x v J arg
  interpolate x0 x1 u out := G.interpolate x0 x1 u out

/-- `MultibodyConfiguration` (multibody.hpp:19-107): the same calls on a model; no size check in `isNormalized` (40-42), and
`JintegrateTransport` has a `switch` (64-76). -/
def multibodyConfiguration (G : PinGroup K) : Manifold K where
  nx := G.nq
  ndx := G.nv
  neutral := .ok G.neutral
  isNormalized x := G.isNormalized x
  integrate x v out := G.integrate x v out
  difference x0 x1 out := G.difference x0 x1 out
  Jintegrate x v J arg :=
    if arg = 0 then G.dIntegrate x v J 0
    else if arg = 1 then G.dIntegrate x v J 1
    else .ok J
  Jdifference x0 x1 J arg :=
    if arg = 0 then G.dDifference x0 x1 J 0
    else if arg = 1 then G.dDifference x0 x1 J 1
    else .ok J
  transport x v J arg :=
    if arg = 0 then G.dIntegrateTransport x v J 0
    else if arg = 1 then G.dIntegrateTransport x v J 1
    else .ok J
  interpolate x0 x1 u out := G.interpolate x0 x1 u out

/-- `MultibodyPhaseSpace` (multibody.hpp:116-131): the tangent bundle of the configuration space. -/
def multibodyPhaseSpace [Field K] (G : PinGroup K) : Manifold K := tangentBundle (multibodyConfiguration G)

/-- The allocating versions of `Jintegrate` and `Jdifference` offered to Python (bindings/python/expose-manifold.cpp:76-84, 90-98):
`MatrixXs Jout(m.ndx(), m.ndx())` is not initialised; `mem` is what happens to be in that memory. -/
def pyJintegrate (M : Manifold K) (mem : ℕ → ℕ → K) (x v : List K) (arg : ℤ) : Except Fault (ℕ → ℕ → K) := M.Jintegrate x v mem arg
/-- see `pyJintegrate` (bindings/python/expose-manifold.cpp:76-92) -/
def pyJdifference (M : Manifold K) (mem : ℕ → ℕ → K) (x0 x1 : List K) (arg : ℤ) : Except Fault (ℕ → ℕ → K) := M.Jdifference x0 x1 mem arg

end ProxNLP
