import Mathlib.Algebra.Field.Basic
import Mathlib.Data.List.Basic

/-!
Model of moving a solver object (prox-solver.hpp:45-286).  `ProxNLPSolverTpl` declares no destructor, copy or move
operation; `unique_ptr` members forbid copies, so the implicit move constructor is what `std::vector::push_back`, growth
of a vector, `std::make_unique<...>(std::move(s))` or returning a named solver use.  Move assignment does not exist
(`merit_fun` has reference members, pdal.hpp:40-43).

Only what the dual penalty weight reaches is kept: the member `pdal_beta_` and the reference to it in `merit_fun`.
Solver objects are numbered in order of construction.
-/

namespace ProxNLP

/-- One solver object.  `betaOf`: the object whose `pdal_beta_` the member `merit_fun.beta_` refers to (a C++ reference,
pdal.hpp:42).  `ready`: `workspace_` and `results_` are not null. -/
structure SolverObj (K : Type) where
  beta : K
  betaOf : ℕ
  ready : Bool
  deriving DecidableEq, Repr

/-- Memory: `none` for a destroyed object. prox-solver.hpp:45-286 (memory of a program holding
solvers). -/
abbrev SolverMem (K : Type) := List (Option (SolverObj K))

variable {K : Type} [Field K]

/-- Operations of the program on its solver objects. Not in the code: a history of uses of
prox-solver.hpp:45-286 and its implicit move. -/
inductive SolverOp (K : Type) where
  /-- `ProxNLPSolver s(problem, ...)` -/
  | construct
  /-- `ProxNLPSolver t(std::move(s))` -/
  | move (i : ℕ)
  /-- `s.setup()` -/
  | setup (i : ℕ)
  /-- `s.setDualPenalty(beta)` -/
  | setBeta (i : ℕ) (b : K)
  /-- end of the object's life -/
  | destroy (i : ℕ)
  deriving DecidableEq, Repr

/-- One operation; `none`: the program is ill-formed (uses an object that does not exist).
* constructor (prox-solver.hxx:15-30): `merit_fun(*problem_, pdal_beta_)`, `pdal_beta_ = 0.5` (prox-solver.hpp:101);
* move constructor: scalars are copied, references refer to what they referred to, the `unique_ptr`s of the source
  become null;
* `setup` (prox-solver.hpp:147-163); `setDualPenalty` (prox-solver.hpp:204). -/
def SolverMem.step (s : SolverMem K) : SolverOp K → Option (SolverMem K)
  | .construct => some (s ++ [some ⟨1 / 2, s.length, false⟩])
  | .move i => match s[i]? with
    | some (some o) => some (s.set i (some { o with ready := false }) ++ [some o])
    | _ => none
  | .setup i => match s[i]? with
    | some (some o) => some (s.set i (some { o with ready := true }))
    | _ => none
  | .setBeta i b => match s[i]? with
    | some (some o) => some (s.set i (some { o with beta := b }))
    | _ => none
  | .destroy i => match s[i]? with
    | some (some _) => some (s.set i none)
    | _ => none

/-- A sequence of operations. Not in the code: a history of uses of prox-solver.hpp:45-286 and its
implicit move. -/
def SolverMem.run (s : SolverMem K) : List (SolverOp K) → Option (SolverMem K)
  | [] => some s
  | op :: l => (s.step op).bind fun s' => SolverMem.run s' l

/-- Outcome of a use of the solver. Outcomes of prox-solver.hxx:51-127, 169-204. -/
inductive MoveOut (α : Type) where
  /-- no such object -/
  | illFormed
  /-- exception "Call setup() first." (prox-solver.hxx:57-60) -/
  | notReady
  /-- read of a destroyed `pdal_beta_` -/
  | undefined
  | value (a : α)
  deriving DecidableEq, Repr

/-- The part of the merit gradient with respect to one multiplier that the line search slope uses:
`beta_ * mu * (lam - lam_pdal)` (pdal.hxx:40-41), read through the reference, for the solver `i`. -/
def SolverMem.dualGradient (s : SolverMem K) (i : ℕ) (mu lam lamPdal : K) : MoveOut K :=
  match s[i]? with
  | some (some o) =>
    if o.ready then
      match s[o.betaOf]? with
      | some (some p) => .value (p.beta * mu * (lam - lamPdal))
      | _ => .undefined
    else .notReady
  | _ => .illFormed

/-- The primal-dual multiplier `lams_pdal` uses the member itself: `mu_inv_ / pdal_beta_` times the projected value
(prox-solver.hxx:192), for the solver `i`. -/
def SolverMem.pdalFactor (s : SolverMem K) (i : ℕ) (muInv : K) : MoveOut K :=
  match s[i]? with
  | some (some o) => if o.ready then .value (muInv / o.beta) else .notReady
  | _ => .illFormed

end ProxNLP
