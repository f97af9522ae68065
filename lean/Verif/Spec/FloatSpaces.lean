import Verif.Spec.FloatSets

/-!
Specification vocabulary of C112.
-/

namespace ProxNLP

variable {n : ℕ}

open Spec in
/-- a vector of doubles -/
def Spec.Doubles (x : Fin n → ℚ) : Prop := ∀ i, IsDouble (x i)

end ProxNLP
