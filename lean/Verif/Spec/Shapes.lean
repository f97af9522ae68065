/-
What it means to use a problem and its solver in order, from the user's side: only the calls made
so far are looked at, never the workspace.
-/
import Verif.Model.Shapes

namespace ProxNLP
namespace Spec

/-- What the user knows: the dimensions they built the problem with, the constraints added so
far, whether `setup()` has been called at all, whether it has been called since the last
`addConstraint`, whether BFGS is selected, and whether some `setup()` ran with BFGS selected. -/
structure UserView where
  nx : ℕ
  ndx : ℕ
  nrs : List ℕ
  everSetup : Bool
  ready : Bool
  bfgs : Bool
  strategy : Bool
  deriving DecidableEq, Repr

/-- A new problem and its new solver. -/
def UserView.start (nx ndx : ℕ) (nrs : List ℕ) : UserView :=
  ⟨nx, ndx, nrs, false, false, false, false⟩

/-- The call is in order. -/
def UserView.allowed (v : UserView) : UserOp → Prop
  | .addConstraint _ => True
  | .setup => v.bfgs = true → v.ndx = v.nx
  | .useBfgs _ => True
  | .useLdlt _ => True
  | .solve x0 _ _ => v.ready = true ∧ x0 = v.nx ∧ (v.bfgs = true → v.strategy = true)
  | .solveBlocks x0 l _ =>
    v.ready = true ∧ x0 = v.nx ∧ l = v.nrs ∧ (v.bfgs = true → v.strategy = true)
  | .editConstraints _ => False
  | .setManifold _ _ => False

/-- What the user knows after the call. -/
def UserView.after (v : UserView) : UserOp → UserView
  | .addConstraint nr => { v with nrs := v.nrs ++ [nr], ready := false }
  | .setup => { v with everSetup := true, ready := true, strategy := v.strategy || v.bfgs }
  | .useBfgs b => { v with bfgs := b }
  | _ => v

/-- Every call of the history is in order. -/
def UserView.inOrder (v : UserView) : List UserOp → Prop
  | [] => True
  | o :: os => v.allowed o ∧ (v.after o).inOrder os

/-- What the user knows after the history. -/
def UserView.afterAll (v : UserView) : List UserOp → UserView
  | [] => v
  | o :: os => (v.after o).afterAll os

/-- The results have one live view of the right length for each of the constraints `nrs`, lying
one after the other inside a multiplier vector of the total length, and a point of the manifold. -/
structure ResultsFit (nx : ℕ) (nrs : List ℕ) (r : RShape) : Prop where
  point : r.xOpt = nx
  total : r.lams.len = nrs.sum
  count : r.lams.views.length = nrs.length
  live : nrs ≠ [] → r.lams.live = true
  lengths : ∀ i (h : i < nrs.length), r.lams.view i = some nrs[i]
  starts : ∀ i < nrs.length, (r.lams.views[i]?).map Prod.fst = some ((nrs.take i).sum)
  active : r.active = nrs
  violations : r.viol = nrs.length

end Spec
end ProxNLP
