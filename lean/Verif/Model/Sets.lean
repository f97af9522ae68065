import Mathlib.Algebra.Order.Field.Basic
import Mathlib.Algebra.BigOperators.Fin
import Mathlib.Data.Fintype.Basic

/-!
Model of the built-in constraint sets (`modelling/constraints/*.hpp`) and of the base class
(`constraint-set.hpp`, `constraint-set.hxx`).

Scalars: any linearly ordered field `K` (no rounding, no NaN).  Vectors of size `n`: `Fin n → K`.
-/

namespace ProxNLP

variable {K : Type*} [Field K] [LinearOrder K]

/-- The built-in leaf constraint sets.  `box` keeps its two bound vectors as functions of the coordinate
index; only the first `n` entries are read when the set is used on vectors of size `n`
(Simplification: Eigen's size check `lower.size() == z.size()` is an assertion, not modelled).
box-constraint.hpp:18-22, equality-constraint.hpp:18, negative-orthant.hpp:19, l1-penalty.hpp:18. -/
inductive LeafSet (K : Type*) where
  | equality
  | negOrthant
  | box (lower upper : ℕ → K)
  | l1

/-- `math`/Eigen `sign`: -1, 0 or 1 (math.hpp:95-98, Eigen's array `sign()` used in l1-penalty.hpp:37). -/
def signK (x : K) : K := if 0 < x then 1 else if x < 0 then -1 else 0

/-- One coordinate of `projection`.
* equality-constraint.hpp:34-36 `zout.setZero()`
* negative-orthant.hpp:32-34 `z.cwiseMin(0)`
* box-constraint.hpp:28-30 `z.cwiseMin(upper).cwiseMax(lower)`
* l1-penalty.hpp:36-39 `sign(z) * (|z| - mu).max(0)`, `mu_` being the parameter of the set object. -/
def LeafSet.projAt (s : LeafSet K) (mu : K) (i : ℕ) (z : K) : K :=
  match s with
  | .equality => 0
  | .negOrthant => min z 0
  | .box lo hi => max (min z (hi i)) (lo i)
  | .l1 => signK z * max (|z| - mu) 0

/-- One coordinate of `normalConeProjection`.
* equality-constraint.hpp:38-41 `zout = z`
* negative-orthant.hpp:36-38 `z.cwiseMax(0)`
* box-constraint.hpp:36-38 `z - projection_impl(z)`
* l1-penalty.hpp:45-47 `z - projection_impl(z)` -/
def LeafSet.normalAt (s : LeafSet K) (mu : K) (i : ℕ) (z : K) : K :=
  match s with
  | .equality => z
  | .negOrthant => max z 0
  | .box lo hi => z - max (min z (hi i)) (lo i)
  | .l1 => z - signK z * max (|z| - mu) 0

/-- One coordinate of `computeActiveSet`.
* equality-constraint.hpp:53-56 `true`
* negative-orthant.hpp:41-44 `z > 0`
* box-constraint.hpp:40-44 `(z > upper) || (z < lower)`
* l1-penalty.hpp:49-52 `|z| <= mu` -/
def LeafSet.activeAt (s : LeafSet K) (mu : K) (i : ℕ) (z : K) : Bool :=
  match s with
  | .equality => true
  | .negOrthant => decide (0 < z)
  | .box lo hi => decide (hi i < z) || decide (z < lo i)
  | .l1 => decide (|z| ≤ mu)

/-- `evaluate(zproj)`: 0 for indicator sets (constraint-set.hpp:33), the 1-norm for the L1 penalty
(l1-penalty.hpp:32-34). -/
def LeafSet.evaluate (s : LeafSet K) {n : ℕ} (z : Fin n → K) : K :=
  match s with
  | .l1 => ∑ i, |z i|
  | _ => 0

/-- `projection(z, zout)` on a vector. modelling/constraints/*.hpp: box 28-34, equality 34-36, l1
36-43, negative-orthant 32-34. -/
def LeafSet.projection (s : LeafSet K) (mu : K) {n : ℕ} (z : Fin n → K) : Fin n → K :=
  fun i => s.projAt mu i (z i)

/-- `normalConeProjection(z, zout)` on a vector. modelling/constraints/*.hpp: box 36-38, equality
38-41, l1 45-47, negative-orthant 36-39. -/
def LeafSet.normalConeProjection (s : LeafSet K) (mu : K) {n : ℕ} (z : Fin n → K) : Fin n → K :=
  fun i => s.normalAt mu i (z i)

/-- `computeActiveSet(z, out)` on a vector. modelling/constraints/*.hpp: box 40-44, equality
53-56, l1 49-53, negative-orthant 41-44. -/
def LeafSet.computeActiveSet (s : LeafSet K) (mu : K) {n : ℕ} (z : Fin n → K) : Fin n → Bool :=
  fun i => s.activeAt mu i (z i)

/-- `applyProjectionJacobian(z, Jout)`: rows of active coordinates are set to zero
(constraint-set.hxx:10-23); the equality set overrides it by `Jout.setZero()`
(equality-constraint.hpp:43-46). -/
def LeafSet.applyProjectionJacobian (s : LeafSet K) (mu : K) {n : ℕ} {C : Type*} (z : Fin n → K)
    (J : Fin n → C → K) : Fin n → C → K :=
  match s with
  | .equality => fun _ _ => 0
  | s => fun i c => if s.computeActiveSet mu z i then 0 else J i c

/-- `applyNormalConeProjectionJacobian(z, Jout)`: rows of inactive coordinates are set to zero
(constraint-set.hxx:25-38); the equality set overrides it by doing nothing
(equality-constraint.hpp:48-51). -/
def LeafSet.applyNormalConeProjectionJacobian (s : LeafSet K) (mu : K) {n : ℕ} {C : Type*}
    (z : Fin n → K) (J : Fin n → C → K) : Fin n → C → K :=
  match s with
  | .equality => J
  | s => fun i c => if !(s.computeActiveSet mu z i) then 0 else J i c

/-- A set object: the set together with its mutable members `mu_` (initially 0) and `mu_inv_`
(initially indeterminate, `none`).  constraint-set.hpp:113-115. -/
structure SetObj (K : Type*) where
  kind : LeafSet K
  mu : K
  muInv : Option K

/-- Freshly constructed set object (constraint-set.hpp:24,114-115). -/
def SetObj.new (s : LeafSet K) : SetObj K := { kind := s, mu := 0, muInv := none }

/-- `setProxParameter(mu)` (constraint-set.hpp:70-73). -/
def SetObj.setProxParameter (o : SetObj K) (mu : K) : SetObj K :=
  { o with mu := mu, muInv := some (1 / mu) }

/-- `evaluateMoreauEnvelope(zin, zproj)` (constraint-set.hpp:95-100); `none` is the read of the
indeterminate member `mu_inv_` (undefined behaviour). -/
def SetObj.evaluateMoreauEnvelope (o : SetObj K) {n : ℕ} (zin zproj : Fin n → K) : Option K :=
  o.muInv.map fun muInv =>
    o.kind.evaluate (fun i => zin i - zproj i) + (1 / 2) * muInv * ∑ i, zproj i ^ 2

/-- `computeMoreauEnvelope(zin, zprojout)` (constraint-set.hpp:104-108): returns the value and the
vector written to `zprojout`. -/
def SetObj.computeMoreauEnvelope (o : SetObj K) {n : ℕ} (zin : Fin n → K) :
    Option (K × (Fin n → K)) :=
  let zproj := o.kind.normalConeProjection o.mu zin
  (o.evaluateMoreauEnvelope zin zproj).map fun v => (v, zproj)

end ProxNLP
