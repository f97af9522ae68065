import Verif.Model.Sharing

/-!
# Comparing constraints, and looking for a constraint in a list

On top of the objects of `Model/Sharing.lean`. A constraint is named either by the object the user made, or by its place in a problem
(`getConstraint(i)`), which holds a copy.
-/

set_option linter.unusedSectionVars false

namespace ProxNLP

/-- The constraint objects a program can name: those it made (constraint-set.hpp:140-142), and the copies in a problem
(`getConstraint(i)`, problem-base.hpp:42-45). -/
inductive ConRef where
  | own (c : ℕ)
  | inProblem (p i : ℕ)
  deriving DecidableEq

/-- The set objects a program can name: those it made, and those stored in a constraint (`set_`, constraint-set.hpp:129). -/
inductive SetRef where
  | own (s : ℕ)
  | stored (c : ConRef)
  deriving DecidableEq

section
variable {K : Type} [Field K]

/-- The constraint object behind a name. problem-base.hpp:42-45 -/
def Objects.conAt (o : Objects K) : ConRef → Option (ConObj K)
  | .own c => o.cons[c]?
  | .inProblem p i => (o.probs[p]?).bind fun q => q.constraints[i]?

/-- `a == b` of constraint objects: the same function *pointer*. constraint-set.hpp:144-146 -/
def ConObj.same (a b : ConObj K) : Bool := a.func == b.func

/-- `a == b` for the constraints named; `none` when one does not exist. constraint-set.hpp:144-146 -/
def Objects.conEq (o : Objects K) (a b : ConRef) : Option Bool :=
  (o.conAt a).bind fun x => (o.conAt b).map fun y => x.same y

/-- The set object behind a name. constraint-set.hpp:129 -/
def Objects.setAt (o : Objects K) : SetRef → Option (UserSet K)
  | .own s => o.sets[s]?
  | .stored c => (o.conAt c).map ConObj.set

/-- `a == b` of sets: the same object in memory (`this == &rhs`). constraint-set.hpp:82. Different names denote different objects, as
sets are copied whenever they are stored. -/
def Objects.setEq (o : Objects K) (a b : SetRef) : Option Bool :=
  (o.setAt a).bind fun _ => (o.setAt b).map fun _ => decide (a = b)

/-- `c in list` for a list of constraint objects: the search for an equal element (`std::find`). The list type is exposed in
bindings/python/expose-constraint.cpp:96-97; the search itself is in Boost.Python's indexing suite and not in this repository. -/
def Objects.conIn (o : Objects K) (c : ConRef) : List ConRef → Option Bool
  | [] => some false
  | r :: rest => (o.conEq r c).bind fun b => if b then some true else o.conIn c rest

/-- The value of the constraint function, `c.func_->operator()(x)`. constraint-set.hpp:128, 131 -/
def Objects.conValue (o : Objects K) (c : ConRef) (x : List K) : Option (List K) := (o.conAt c).bind fun y => o.value y.func x

end

end ProxNLP
