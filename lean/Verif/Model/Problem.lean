import Verif.Model.Blocks
import Mathlib.Algebra.Field.Basic

/-!
Model of `ProblemTpl` (problem-base.hpp) and of the stacked constraint buffers of `WorkspaceTpl`
(workspace.hpp).  `X` is the type of points, `ndx` the tangent dimension.
-/

namespace ProxNLP

/-- One constraint function with its dimension (`nr()`), value and Jacobian (rows).
function-base.hpp:12-100. -/
structure CstrFun (X K : Type) (ndx : ℕ) where
  nr : ℕ
  value : X → Fin nr → K
  jac : X → Fin nr → Fin ndx → K

/-- `ProblemTpl`: constraint list and the three cached dimension members (problem-base.hpp:29, 107-111). -/
structure Problem (X K : Type) (ndx : ℕ) where
  constraints : List (CstrFun X K ndx)
  ncTotal : ℕ
  ncs : List ℕ
  indices : List ℕ

variable {X K : Type} {ndx : ℕ}

/-- `reset_constraint_dim_vars()` (problem-base.hpp:114-127): loop with a running cursor. -/
def Problem.resetConstraintDimVars (p : Problem X K ndx) : Problem X K ndx :=
  let r := p.constraints.foldl
    (fun (acc : List ℕ × List ℕ × ℕ) cstr =>
      let nr := cstr.nr
      (acc.1 ++ [nr], acc.2.1 ++ [acc.2.2], acc.2.2 + nr)) ([], [], 0)
  { p with ncs := r.1, indices := r.2.1, ncTotal := r.2.2 }

/-- Constructor (problem-base.hpp:34-40). -/
def Problem.new (cs : List (CstrFun X K ndx)) : Problem X K ndx :=
  ({ constraints := cs, ncTotal := 0, ncs := [], indices := [] } : Problem X K ndx).resetConstraintDimVars

/-- `addConstraint` (problem-base.hpp:59-62). -/
def Problem.addConstraint (p : Problem X K ndx) (c : CstrFun X K ndx) : Problem X K ndx :=
  ({ p with constraints := p.constraints ++ [c] } : Problem X K ndx).resetConstraintDimVars

/-- `getNumConstraints()` (problem-base.hpp:48) -/
def Problem.getNumConstraints (p : Problem X K ndx) : ℕ := p.constraints.length
/-- `getTotalConstraintDim()` (problem-base.hpp:50) -/
def Problem.getTotalConstraintDim (p : Problem X K ndx) : ℕ := p.ncTotal
/-- `getConstraintDim(i)` (problem-base.hpp:53); `none`: out of range -/
def Problem.getConstraintDim (p : Problem X K ndx) (i : ℕ) : Option ℕ := p.ncs[i]?
/-- `getIndex(i)` (problem-base.hpp:74); `none`: out of range -/
def Problem.getIndex (p : Problem X K ndx) (i : ℕ) : Option ℕ := p.indices[i]?

/-- The stacked buffers and their per-constraint views (workspace.hpp:74-76, 89, 92).  A view is
(start, size), fixed when the workspace is created. -/
structure CstrWs (K : Type) (ndx : ℕ) where
  numdual : ℕ
  views : List (ℕ × ℕ)
  data : Fin numdual → K
  jac : Fin numdual → Fin ndx → K

/-- Workspace constructor, part on constraint buffers: zero data, views from `createConstraintWiseView`
(problem-base.hpp:132-153, workspace.hpp:158-159, 185-195). -/
def CstrWs.new [Zero K] (p : Problem X K ndx) : Option (CstrWs K ndx) := do
  let views ← (List.range p.getNumConstraints).mapM fun i => do
    let s ← p.getIndex i
    let d ← p.getConstraintDim i
    if s + d ≤ p.getTotalConstraintDim then some (s, d) else none
  pure { numdual := p.getTotalConstraintDim, views := views, data := fun _ => 0, jac := fun _ _ => 0 }

/-- one iteration of the loop in `evaluate` (problem-base.hpp:79-82): assign the view; a missing view or a
size mismatch is undefined behaviour (`none`). -/
def writeView {α : Type} {n : ℕ} (views : List (ℕ × ℕ)) (buf : Fin n → α) (i nr : ℕ) (v : Fin nr → α) :
    Option (Fin n → α) := do
  let view ← views[i]?
  if view.2 = nr ∧ view.1 + view.2 ≤ n then some (writeBlock buf view.1 nr v) else none

/-- `ProblemTpl::evaluate`, constraint part (problem-base.hpp:76-83). -/
def Problem.evaluate (p : Problem X K ndx) (x : X) (ws : CstrWs K ndx) : Option (CstrWs K ndx) := do
  let data ← (List.range p.getNumConstraints).foldlM (m := Option) (fun buf i => do
    let c ← p.constraints[i]?
    writeView ws.views buf i c.nr (c.value x)) ws.data
  pure { ws with data := data }

/-- `ProblemTpl::computeDerivatives`, constraint part (problem-base.hpp:85-92). -/
def Problem.computeDerivatives (p : Problem X K ndx) (x : X) (ws : CstrWs K ndx) : Option (CstrWs K ndx) := do
  let jac ← (List.range p.getNumConstraints).foldlM (m := Option) (fun buf i => do
    let c ← p.constraints[i]?
    writeView ws.views buf i c.nr (c.jac x)) ws.jac
  pure { ws with jac := jac }

/-- Operations after construction, for histories. Not in the code: repeated calls of
problem-base.hpp:59-62. -/
def Problem.addAll (p : Problem X K ndx) : List (CstrFun X K ndx) → Problem X K ndx :=
  List.foldl Problem.addConstraint p

end ProxNLP
