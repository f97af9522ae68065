import Verif.Model.ConEquality
import Verif.Spec.Sharing

/-!
# Which constraint a name stands for

Read off the text of the program.
-/

set_option linter.unusedSectionVars false

namespace ProxNLP.Spec

variable {K : Type} [Field K]

/-- The name stands for (a copy of) the constraint that was made as number `c`. -/
def StandsFor (hist : List (Stmt K)) : ConRef → ℕ → Prop
  | .own k, c => k = c
  | .inProblem p i, c => ConstraintAt hist p i c

/-- The constraint named was made from the function object `f`. -/
def MadeFrom (hist : List (Stmt K)) (r : ConRef) (f : ℕ) : Prop :=
  ∃ c pre s, StandsFor hist r c ∧ Made makesCon hist c pre (.newConstraint f s)

/-- membership of a value in an equality or inequality set, coordinate by coordinate -/
def SetHolds [LinearOrder K] : UserSet K → List K → Prop
  | .equality, z => ∀ a ∈ z, a = 0
  | .negOrthant, z => ∀ a ∈ z, a ≤ 0
  | .l1, _ => True
  | .box lo hi, z => z.length = lo.length ∧ z.length = hi.length ∧ ∀ (i : ℕ) (a l u : K), z[i]? = some a → lo[i]? = some l → hi[i]? = some u → l ≤ a ∧ a ≤ u

end ProxNLP.Spec
