import Verif.Model.Blocks
import Verif.Model.Sets

/-!
Model of `ConstraintSetProductTpl` (constraint-set-product.hpp) on top of an abstract constraint set
interface (the virtual functions of `ConstraintSetTpl`, constraint-set.hpp:28-78).
-/

namespace ProxNLP

/-- An operation writing a block of `α`s given the input block `z` (the output block is passed with its
previous contents, as the C++ passes a reference); `none` is an out-of-range access.
constraint-set-product.hpp:64-106. -/
abbrev BlockOp (K α : Type) := (n : ℕ) → (Fin n → K) → (Fin n → α) → Option (Fin n → α)

/-- The virtual functions of `ConstraintSetTpl` (constraint-set.hpp:33-78).  Matrices are families of rows. -/
structure SetOps (K : Type) where
  evaluate : (n : ℕ) → (Fin n → K) → Option K
  projection : BlockOp K K
  normalConeProjection : BlockOp K K
  applyProjectionJacobian : (ncols : ℕ) → BlockOp K (Fin ncols → K)
  applyNormalConeProjectionJacobian : (ncols : ℕ) → BlockOp K (Fin ncols → K)
  computeActiveSet : BlockOp K Bool

/-- A constraint-set object: dynamic type (`vt`, the virtual functions as a function of the member `mu_`)
and the base-class members `mu_`, `mu_inv_` (constraint-set.hpp:113-115). -/
structure VSet (K : Type) where
  vt : K → SetOps K
  mu : K
  muInv : Option K

/-- the virtual call on an object (constraint-set.hpp:28-80) -/
def VSet.ops {K : Type} (o : VSet K) : SetOps K := o.vt o.mu

variable {K : Type} [Field K] [LinearOrder K]

/-- Virtual functions of a leaf set, see `Model/Sets.lean`. constraint-set.hpp:28-80. -/
def LeafSet.ops (s : LeafSet K) (mu : K) : SetOps K where
  evaluate _ z := some (s.evaluate z)
  projection _ z _ := some (s.projection mu z)
  normalConeProjection _ z _ := some (s.normalConeProjection mu z)
  applyProjectionJacobian _ _ z J := some (s.applyProjectionJacobian mu z J)
  applyNormalConeProjectionJacobian _ _ z J := some (s.applyNormalConeProjectionJacobian mu z J)
  computeActiveSet _ z _ := some (s.computeActiveSet mu z)

/-- fresh leaf object (constraint-set.hpp:28-80) -/
def VSet.leaf (s : LeafSet K) : VSet K := { vt := s.ops, mu := 0, muInv := none }

/-- `setProxParameter`, a NON-virtual member of the base class: only touches the members of the object
it is called on (constraint-set.hpp:70-73). -/
def VSet.setProxParameter (o : VSet K) (mu : K) : VSet K := { o with mu := mu, muInv := some (1 / mu) }

/-- The common loop of the product operations: for each component, take the input block and the output
block, call the component operation, write the output block
(constraint-set-product.hpp:65-69, 74-78, 83-87, 92-96, 101-105). -/
def blockLoop {α : Type} (ops : List (BlockOp K α)) (sizes : List ℕ) (n : ℕ) (z : Fin n → K)
    (out : Fin n → α) : Option (Fin n → α) :=
  (List.range ops.length).foldlM (m := Option) (fun out i => do
    let op ← ops[i]?
    let size ← sizes[i]?
    let inblock ← readBlock z (startIdx sizes i) size
    let outblock ← readBlock out (startIdx sizes i) size
    let res ← op size inblock outblock
    pure (writeBlock out (startIdx sizes i) size res)) out

/-- The same loop when the caller passes one buffer both as input and output (the solver projects in place,
prox-solver.hxx:257-261): every iteration reads the buffer as left by the earlier ones. -/
def blockLoopInPlace (ops : List (BlockOp K K)) (sizes : List ℕ) (n : ℕ) (z : Fin n → K) :
    Option (Fin n → K) :=
  (List.range ops.length).foldlM (m := Option) (fun buf i => do
    let op ← ops[i]?
    let size ← sizes[i]?
    let inblock ← readBlock buf (startIdx sizes i) size
    let outblock ← readBlock buf (startIdx sizes i) size
    let res ← op size inblock outblock
    pure (writeBlock buf (startIdx sizes i) size res)) z

/-- `evaluate` of a product: sum of the component values (constraint-set-product.hpp:55-62). -/
def prodEvaluate (comps : List (VSet K)) (sizes : List ℕ) (n : ℕ) (z : Fin n → K) : Option K :=
  (List.range comps.length).foldlM (m := Option) (fun res i => do
    let c ← comps[i]?
    let size ← sizes[i]?
    let zblock ← readBlock z (startIdx sizes i) size
    let v ← c.ops.evaluate size zblock
    pure (res + v)) 0

/-- Virtual functions of `ConstraintSetProductTpl` (constraint-set-product.hpp:55-106).  Each component is
called with its own members; the product's own `mu_` is not consulted. -/
def prodOps (comps : List (VSet K)) (sizes : List ℕ) : SetOps K where
  evaluate := prodEvaluate comps sizes
  projection := blockLoop (comps.map fun c => c.ops.projection) sizes
  normalConeProjection := blockLoop (comps.map fun c => c.ops.normalConeProjection) sizes
  applyProjectionJacobian m := blockLoop (comps.map fun c => c.ops.applyProjectionJacobian m) sizes
  applyNormalConeProjectionJacobian m :=
    blockLoop (comps.map fun c => c.ops.applyNormalConeProjectionJacobian m) sizes
  computeActiveSet := blockLoop (comps.map fun c => c.ops.computeActiveSet) sizes

/-- Constructor (constraint-set-product.hpp:41-48): throws unless as many sizes as components. -/
def VSet.product (comps : List (VSet K)) (sizes : List ℕ) : Except String (VSet K) :=
  if comps.length ≠ sizes.length then
    .error "Number of components and corresponding block sizes should be the same."
  else .ok { vt := fun _ => prodOps comps sizes, mu := 0, muInv := none }

/-- `computeMoreauEnvelope` for any set object (constraint-set.hpp:95-108): non-virtual, uses the object's
own `mu_inv_`. -/
def VSet.computeMoreauEnvelope (o : VSet K) {n : ℕ} (zin zout : Fin n → K) :
    Option (K × (Fin n → K)) := do
  let zproj ← o.ops.normalConeProjection n zin zout
  let muInv ← o.muInv
  let v ← o.ops.evaluate n (fun i => zin i - zproj i)
  pure (v + (1 / 2) * muInv * ∑ i, zproj i ^ 2, zproj)

end ProxNLP
