import Verif.Model.Manifold
import Mathlib.Algebra.BigOperators.Group.Finset.Basic

/-!
Model of `ManifoldDifferenceToPoint` (modelling/residuals/state-residual.hpp) and of `QuadraticDistanceCostTpl`
(modelling/costs/squared-distance.hpp) with its base `QuadraticResidualCostTpl` (modelling/costs/quadratic-residual.hxx), as
objects in memory: a cost holds its residual through a `shared_ptr`.

Simplified: matrices are functions of two indices with their sizes beside them; `slope_`, `constant_` and `gauss_newton_` keep
the values given by the constructors (zero, zero, true), see `QuadCost` for their effect; spaces are values, as
`polymorphic<Manifold>` copies them.
-/

namespace ProxNLP

variable {K : Type} [Field K]

open Finset

/-- `ManifoldDifferenceToPoint` (state-residual.hpp:29-30): the members `space_` and `target_`. -/
structure StateResidual (K : Type) where
  space : Manifold K
  target : List K

/-- The constructor (state-residual.hpp:32-41): throws when the space says that the target is not one of its elements. -/
def StateResidual.new (M : Manifold K) (target : List K) : Except Fault (StateResidual K) := do
  let b ← M.isNormalized target
  if b then pure ⟨M, target⟩ else .error .throws

/-- `operator()(x)` (state-residual.hpp:43-45), with the allocating `difference` (manifold-base.hpp:86-91). -/
def StateResidual.eval (r : StateResidual K) (x : List K) : Except Fault (List K) :=
  r.space.difference r.target x (freshVec r.space.ndx)

/-- `computeJacobian(x, Jout)` (state-residual.hpp:47-49). -/
def StateResidual.jac (r : StateResidual K) (x : List K) (J : ℕ → ℕ → K) : Except Fault (ℕ → ℕ → K) :=
  r.space.Jdifference r.target x J 1

/-- `QuadraticDistanceCostTpl`: the members of its base (quadratic-residual.hpp:36-45, 71-75) that matter here. `residual` is the
address held by the `shared_ptr`. -/
structure DistCost (K : Type) where
  residual : ℕ
  rows : ℕ
  cols : ℕ
  weights : ℕ → ℕ → K
  err : List K

/-- memory: the residual objects and the cost objects, by address (the members of
squared-distance.hpp and state-residual.hpp:20-30 (memory of a program holding such objects)) -/
structure DistState (K : Type) where
  residuals : List (StateResidual K)
  costs : List (DistCost K)

/-- Constructor from a space, a target and weights (squared-distance.hpp:27-30, quadratic-residual.hxx:8-21). `err` is zeroed. -/
def DistState.new (s : DistState K) (M : Manifold K) (target : List K) (rows cols : ℕ) (W : ℕ → ℕ → K) :
    Except Fault (DistState K) := do
  let r ← StateResidual.new M target
  pure { residuals := s.residuals ++ [r]
         costs := s.costs ++ [⟨s.residuals.length, rows, cols, W, List.replicate M.ndx 0⟩] }

/-- Constructor from a space and a target (squared-distance.hpp:32-35): identity weights. -/
def DistState.newUnit (s : DistState K) (M : Manifold K) (target : List K) : Except Fault (DistState K) :=
  s.new M target M.ndx M.ndx idMat

/-- Constructor from a space (squared-distance.hpp:37-38): the target is the neutral element. -/
def DistState.newNeutral (s : DistState K) (M : Manifold K) : Except Fault (DistState K) := do
  let e ← M.neutral
  s.newUnit M e

/-- The implicit copy constructor: a memberwise copy, the `shared_ptr` included. Implicit in
squared-distance.hpp, quadratic-residual.hpp:36-45. -/
def DistState.copy (s : DistState K) (i : ℕ) : Except Fault (DistState K) :=
  match s.costs[i]? with
  | none => .error .undefined
  | some c => .ok { s with costs := s.costs ++ [c] }

/-- The implicit copy assignment `costs[i] = costs[j]`. Implicit in squared-distance.hpp,
quadratic-residual.hpp:36-45. -/
def DistState.assign (s : DistState K) (i j : ℕ) : Except Fault (DistState K) :=
  match s.costs[j]? with
  | none => .error .undefined
  | some c => if i < s.costs.length then .ok { s with costs := s.costs.set i c } else .error .undefined

/-- `getTarget()` (squared-distance.hpp:40-42). -/
def DistState.getTarget (s : DistState K) (i : ℕ) : Except Fault (List K) :=
  match s.costs[i]? with
  | none => .error .undefined
  | some c => match s.residuals[c.residual]? with
    | none => .error .undefined
    | some r => .ok r.target

/-- `updateTarget(x)` (squared-distance.hpp:44-46): assigns without any check. -/
def DistState.updateTarget (s : DistState K) (i : ℕ) (x : List K) : Except Fault (DistState K) :=
  match s.costs[i]? with
  | none => .error .undefined
  | some c => match s.residuals[c.residual]? with
    | none => .error .undefined
    | some r => .ok { s with residuals := s.residuals.set c.residual { r with target := x } }

/-- `call(x)` (quadratic-residual.hxx:23-35); products of mismatched sizes are undefined. `slope_` has as many entries as the
residual. -/
def DistState.call (s : DistState K) (i : ℕ) (x : List K) : Except Fault (DistState K × K) :=
  match s.costs[i]? with
  | none => .error .undefined
  | some c => match s.residuals[c.residual]? with
    | none => .error .undefined
    | some r => do
      let err ← r.eval x
      if err.length = r.space.ndx ∧ c.rows = err.length ∧ c.cols = err.length then
        pure ({ s with costs := s.costs.set i { c with err := err } },
          1 / 2 * ∑ a ∈ range c.rows, err.getD a 0 * ∑ b ∈ range c.cols, c.weights a b * err.getD b 0)
      else .error .undefined

/-- `computeGradient(x, out)` (quadratic-residual.hxx:37-45): uses the stored `err`; the vector written to `out`. `J0` is
what an earlier call left in the buffer `Jres`, which is not cleared. -/
def DistState.gradient (s : DistState K) (i : ℕ) (x : List K) (J0 : ℕ → ℕ → K) : Except Fault (List K) :=
  match s.costs[i]? with
  | none => .error .undefined
  | some c => match s.residuals[c.residual]? with
    | none => .error .undefined
    | some r => do
      let J ← r.jac x J0
      if c.rows = r.space.ndx ∧ c.cols = c.err.length then
        pure ((List.range r.space.ndx).map fun j =>
          ∑ b ∈ range c.cols, (∑ a ∈ range c.rows, J a j * c.weights a b) * c.err.getD b 0)
      else .error .undefined

/-- What a program does with distance costs. Not in the code: a history of calls of
squared-distance.hpp:27-35, state-residual.hpp:32-49, quadratic-residual.hxx:8-40. -/
inductive DistOp (K : Type) where
  | new (M : Manifold K) (target : List K) (rows cols : ℕ) (W : ℕ → ℕ → K)
  | newUnit (M : Manifold K) (target : List K)
  | newNeutral (M : Manifold K)
  | copy (i : ℕ)
  | assign (i j : ℕ)
  | updateTarget (i : ℕ) (x : List K)
  | call (i : ℕ) (x : List K)

/-- one operation; an exception leaves the memory as it was (not in the code: a history of calls
of squared-distance.hpp:27-35, state-residual.hpp:32-49, quadratic-residual.hxx:8-40) -/
def DistState.step (s : DistState K) (op : DistOp K) : Except Fault (DistState K) :=
  let r : Except Fault (DistState K) := match op with
    | .new M t rows cols W => s.new M t rows cols W
    | .newUnit M t => s.newUnit M t
    | .newNeutral M => s.newNeutral M
    | .copy i => s.copy i
    | .assign i j => s.assign i j
    | .updateTarget i x => s.updateTarget i x
    | .call i x => (s.call i x).map fun p => p.1
  match r with
  | .error .throws => .ok s
  | r => r

/-- a program (not in the code: a history of calls of squared-distance.hpp:27-35,
state-residual.hpp:32-49, quadratic-residual.hxx:8-40) -/
def DistState.run (s : DistState K) : List (DistOp K) → Except Fault (DistState K)
  | [] => .ok s
  | op :: ops => do
    let s ← s.step op
    s.run ops

/-- no objects (the members of squared-distance.hpp and state-residual.hpp:20-30 (memory of a
program holding such objects)) -/
def DistState.empty : DistState K := ⟨[], []⟩

end ProxNLP
