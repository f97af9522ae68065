import Verif.Model.SolverMove

/-!
A solver object as a value (C95): its dual penalty weight is what was set on it last, and moving hands the weight over.
-/

namespace ProxNLP.Spec

variable {K : Type} [Field K]

/-- each living object: its own weight, whether it is set up, whether it was obtained by a move -/
abbrev SolverValues (K : Type) := List (Option (K × Bool × Bool))

/-- one operation on values -/
def solverStep (s : SolverValues K) : SolverOp K → Option (SolverValues K)
  | .construct => some (s ++ [some (1 / 2, false, false)])
  | .move i => match s[i]? with
    | some (some (b, r, m)) => some (s.set i (some (b, false, m)) ++ [some (b, r, true)])
    | _ => none
  | .setup i => match s[i]? with
    | some (some (b, _, m)) => some (s.set i (some (b, true, m)))
    | _ => none
  | .setBeta i b => match s[i]? with
    | some (some (_, r, m)) => some (s.set i (some (b, r, m)))
    | _ => none
  | .destroy i => match s[i]? with
    | some (some _) => some (s.set i none)
    | _ => none

/-- a sequence of operations on values -/
def solverRun (s : SolverValues K) : List (SolverOp K) → Option (SolverValues K)
  | [] => some s
  | op :: l => (solverStep s op).bind fun s' => solverRun s' l

/-- the dual gradient a solver with weight `b` should compute -/
def dualGradientOf (o : Option (Option (K × Bool × Bool))) (mu lam lamPdal : K) : MoveOut K :=
  match o with
  | some (some (b, r, _)) => if r then .value (b * mu * (lam - lamPdal)) else .notReady
  | _ => .illFormed

end ProxNLP.Spec
