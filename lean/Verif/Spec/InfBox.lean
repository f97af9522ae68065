import Verif.Model.InfBox

/-! Specification for C99: the box of vectors between bounds that may be infinite. -/

namespace ProxNLP.Spec

open ExtScalar

variable {K : Type} [Field K] [LinearOrder K] {n : ℕ}

/-- `a` is a lower bound of `q`: a number below, or `-∞` -/
def BelowOf : ExtScalar K → K → Prop
  | fin a, q => a ≤ q
  | negInf, _ => True
  | _, _ => False

/-- `a` is an upper bound of `q`: a number above, or `+∞` -/
def AboveOf : ExtScalar K → K → Prop
  | fin a, q => q ≤ a
  | posInf, _ => True
  | _, _ => False

/-- the box: all vectors between the bounds -/
def InBox (b : ExtBox K n) (q : Fin n → K) : Prop := ∀ i, BelowOf (b.lower i) (q i) ∧ AboveOf (b.upper i) (q i)

end ProxNLP.Spec
