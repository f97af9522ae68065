import Verif.Model.Sets

/-! What an entry of the reported active set says about a multiplier. -/

namespace ProxNLP.Spec

variable {K : Type} [Field K] [LinearOrder K]

/-- Meaning of one entry of the active set for a multiplier `lam` of that row.
* equality rows are always active;
* for an inequality row the multiplier is nonnegative and the row is active exactly when it is positive;
* for a two-sided bound the row is active exactly when the multiplier is not zero;
* for the L1 penalty the multiplier lies in `[-1, 1]` and is `1` or `-1` on inactive rows (where the penalised
  quantity is not zero). -/
def ActiveMeans (s : LeafSet K) (active : Bool) (lam : K) : Prop :=
  match s with
  | .equality => active = true
  | .negOrthant => 0 ≤ lam ∧ (active = true ↔ 0 < lam)
  | .box _ _ => active = true ↔ lam ≠ 0
  | .l1 => |lam| ≤ 1 ∧ (active = false → |lam| = 1)

end ProxNLP.Spec
