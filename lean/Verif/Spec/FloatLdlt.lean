import Verif.Model.FloatLdlt
import Verif.Model.BlockPerm

/-! Specification for the rounded dense LDLT factorisation. -/

set_option linter.unusedSectionVars false
namespace ProxNLP.Spec

variable {K : Type} [Field K] [LinearOrder K]

/-- `t` adds the initial entry and `m` products, each once, in some order; every term goes through at most `d` roundings -/
def SumsTo (t : SumTree ℕ) (m d : ℕ) : Prop :=
  t.terms.Perm (none :: (List.range m).map some) ∧ t.depth ≤ d

/-- every sum of a factorisation and solve of size `n` is complete, with at most `d` roundings per term -/
structure OrdersSum (q : LdltOrders) (n d : ℕ) : Prop where
  pivot : ∀ o m j, m ≤ n → j < m → SumsTo (q.pivot o m j) j d
  column : ∀ o m j i, m ≤ n → j < i → i < m → SumsTo (q.column o m j i) j d
  right : ∀ o m i c, m ≤ n → c < (m + 1) / 2 → i < m → SumsTo (q.right o m i c) c d
  schur : ∀ o m i c, m ≤ n → c ≤ i → i < m → SumsTo (q.schur o m i c) ((m + 1) / 2) d
  fwd : ∀ i < n, SumsTo (q.fwd i) i d
  bwd : ∀ i < n, SumsTo (q.bwd i) (n - 1 - i) d

/-- `(|L| |D| |Lᵀ|) i j` for the factors stored in `M` -/
def absLdl (n : ℕ) (M : ℕ → ℕ → K) (i j : ℕ) : K :=
  ∑ k ∈ Finset.range n, |unitLower M i k| * |M k k| * |unitLower M j k|

/-- `(L D Lᵀ) i j` for the factors stored in `M` -/
def prodLdl (n : ℕ) (M : ℕ → ℕ → K) (i j : ℕ) : K :=
  ∑ k ∈ Finset.range n, unitLower M i k * M k k * unitLower M j k

/-- rounding to `p` bits without underflow: the exponent is unbounded -/
def roundBits (p : ℕ) (x : ℚ) : ℚ :=
  nearestEven (x / 2 ^ (Int.log 2 |x| - p + 1)) * 2 ^ (Int.log 2 |x| - p + 1)

end ProxNLP.Spec
