import Verif.Model.Lifetimes

/-!
The rules a Python program has to follow so that nothing is used after its destruction (C94).
-/

namespace ProxNLP.Spec

/-- the C++ pointers and references an object holds -/
def pointers : PyObj → List PyPtr
  | .fd sp f => [sp, f]
  | .solver p _ => [p]
  | .ref t _ => [t]
  | _ => []

/-- no existing object designates this part of object `i` -/
def Unreferenced (s : LtState) (i : ℕ) (slot : PySlot) : Prop :=
  ∀ (p : ℕ) (o : PyObj), s.objs[p]? = some o → s.alive p = true → ∀ q ∈ pointers o, q.obj = i → q.slot ≠ slot

/-- the variable a statement assigns -/
def assigned : LtStmt → Option ℕ
  | .newSpace v => some v
  | .newFunc v => some v
  | .newFd v _ _ => some v
  | .newProblem v _ _ => some v
  | .newSolver v _ => some v
  | .bind v _ => some v
  | .solverProblem v _ => some v
  | .solverManifold v _ => some v
  | .solverResults v _ => some v
  | .problemManifold v _ => some v
  | .xopt v _ => some v
  | .del _ => none
  | .setManifold _ _ => none
  | .setup _ => none
  | .call _ => none

/-- `keep` are variables that the program assigns once and never deletes.  Rules for one statement:
* what is passed to `FiniteDifferenceHelper` and `ProxNLPSolver` is held by such a variable;
* `setup()` is not called while results of the same solver, or arrays taken from them, are held;
* `problem.manifold` is not assigned while the old manifold of the same problem is held. -/
structure Careful (keep : ℕ → Bool) (s : LtState) (st : LtStmt) : Prop where
  once : ∀ v, assigned st = some v → keep v = true → s.look v = none
  never : ∀ v, st = .del v → keep v = false
  fd : ∀ v sp f, st = .newFd v sp f → keep sp = true ∧ keep f = true
  solver : ∀ v p, st = .newSolver v p → keep p = true
  setup : ∀ v i p n, st = .setup v → s.solverArg v = some (i, p, n) → Unreferenced s i .results
  manifold : ∀ v sp p, st = .setManifold v sp → s.problemArg v = some p → Unreferenced s p.obj .manifold

/-- every statement of the program follows the rules in the state it is executed in -/
def CarefulRun (keep : ℕ → Bool) : LtState → List LtStmt → Prop
  | _, [] => True
  | s, st :: l => Careful keep s st ∧
    match s.step st with
    | .ok s' => CarefulRun keep s' l
    | .error => CarefulRun keep s l
    | .dangling => True

end ProxNLP.Spec
