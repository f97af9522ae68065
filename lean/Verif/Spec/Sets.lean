import Mathlib.Algebra.Order.Field.Basic
import Mathlib.Algebra.BigOperators.Fin
import Verif.Model.Sets

/-!
Specification of what the sets are, independent of how the operators compute.
Only the names of the sets (`LeafSet`) come from the model.
-/

namespace ProxNLP.Spec

variable {K : Type*} [Field K] [LinearOrder K]

/-- Membership in the constraint set described by `s` (the L1 penalty is a penalty on the whole space). -/
def Mem (s : LeafSet K) {n : ℕ} (y : Fin n → K) : Prop :=
  match s with
  | .equality => ∀ i, y i = 0
  | .negOrthant => ∀ i, y i ≤ 0
  | .box lo hi => ∀ i : Fin n, lo i ≤ y i ∧ y i ≤ hi i
  | .l1 => True

/-- The set is a proper constraint set (an indicator) in dimension `n`: not the L1 penalty, and a box has
`lower ≤ upper` on the coordinates in use. -/
def IsIndicator (s : LeafSet K) (n : ℕ) : Prop :=
  match s with
  | .box lo hi => ∀ i < n, lo i ≤ hi i
  | .l1 => False
  | _ => True

/-- The same, L1 penalty allowed. -/
def Valid (s : LeafSet K) (n : ℕ) : Prop :=
  match s with
  | .box lo hi => ∀ i < n, lo i ≤ hi i
  | _ => True

/-- squared Euclidean distance -/
def distSq {n : ℕ} (x y : Fin n → K) : K := ∑ i, (x i - y i) ^ 2

/-- inner product -/
def inner {n : ℕ} (x y : Fin n → K) : K := ∑ i, x i * y i

/-- 1-norm -/
def norm1 {n : ℕ} (x : Fin n → K) : K := ∑ i, |x i|

/-- `p` is a nearest point of the set to `z`. -/
def IsNearest (s : LeafSet K) {n : ℕ} (z p : Fin n → K) : Prop :=
  Mem s p ∧ ∀ y, Mem s y → distSq z p ≤ distSq z y

/-- `l` is in the normal cone of the set at `c` -/
def NormalCone (s : LeafSet K) {n : ℕ} (c l : Fin n → K) : Prop :=
  ∀ y, Mem s y → inner l (fun i => y i - c i) ≤ 0

/-- `l` is a subgradient of the 1-norm at `c` -/
def SubgradL1 {n : ℕ} (c l : Fin n → K) : Prop :=
  ∀ y : Fin n → K, norm1 c + inner l (fun i => y i - c i) ≤ norm1 y

/-- The nonsmooth term: 0 on members of an indicator set, 1-norm for L1 (non-members of an indicator set
have value `+∞`, which is expressed by restricting to members). -/
def penalty (s : LeafSet K) {n : ℕ} (y : Fin n → K) : K :=
  match s with
  | .l1 => norm1 y
  | _ => 0

/-- First-order optimality of the pair (constraint value, multiplier): membership and normal cone for an
indicator set, subgradient for the L1 penalty. -/
def Complementary (s : LeafSet K) {n : ℕ} (c l : Fin n → K) : Prop :=
  match s with
  | .l1 => SubgradL1 c l
  | s => Mem s c ∧ NormalCone s c l

end ProxNLP.Spec
