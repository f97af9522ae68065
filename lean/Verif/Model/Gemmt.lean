import Verif.Model.BlockKind
import Mathlib.Algebra.Field.Basic
import Mathlib.Algebra.BigOperators.Ring.Finset

/-!
Model of the block products `/repo/include/proxsuite-nlp/linalg/gemmt.hpp`: `dst += alpha * lhs * rhs^T`, `lhs` of size
`m × k`, `rhs` of size `n × k`, `dst` of size `m × n`.

Simplifications: exact arithmetic; blocks are functions of their indices; the values computed are those of a build without
Eigen's assertions, where an element-wise operation on expressions of different lengths runs over the entries of the
destination; `gemmtChecked` adds the length checks of a build with assertions. Out-of-range entries of `dst` are left alone.
-/

set_option linter.unusedSectionVars false
namespace ProxNLP

open BlockKind

variable {K : Type} [Field K]

/-- the view `lhs.triangularView<Eigen::Lower>()` as a matrix (gemmt.hpp:33-48, 76-125) -/
def lowerView (A : ℕ → ℕ → K) : ℕ → ℕ → K := fun r c => if c ≤ r then A r c else 0

/-- the view `lhs.triangularView<Eigen::Upper>()` as a matrix (gemmt.hpp:50-66, 128-176) -/
def upperView (A : ℕ → ℕ → K) : ℕ → ℕ → K := fun r c => if r ≤ c then A r c else 0

/-- `GemmT<Diag, Diag>` (gemmt.hpp:23-31) -/
def gemmtDiagDiag (m k : ℕ) (alpha : K) (lhs rhs dst : ℕ → ℕ → K) : ℕ → ℕ → K := fun r c =>
  if r = c ∧ r < m ∧ r < k then dst r c + alpha * (lhs r r * rhs r r) else dst r c

/-- `GemmT<Diag, TriL>` (gemmt.hpp:33-48): `dst.col(j).head(j + 1) += alpha * lhs.diagonal().cwiseProduct(…)` -/
def gemmtDiagTriL (n : ℕ) (alpha : K) (lhs rhs dst : ℕ → ℕ → K) : ℕ → ℕ → K := fun r c =>
  if c < n ∧ r ≤ c then dst r c + alpha * (lhs r r * rhs c r) else dst r c

/-- `GemmT<Diag, TriU>` (gemmt.hpp:50-66): `dst.col(j).tail(m - j) += alpha * lhs.diagonal().cwiseProduct(…tail(m - j))`;
entry `t` of the tail is multiplied with entry `t` (not `j + t`) of the diagonal -/
def gemmtDiagTriU (m n : ℕ) (alpha : K) (lhs rhs dst : ℕ → ℕ → K) : ℕ → ℕ → K := fun r c =>
  if c < n ∧ c ≤ r ∧ r < m then dst r c + alpha * (lhs (r - c) (r - c) * rhs c r) else dst r c

/-- `GemmT<Diag, Dense>` (gemmt.hpp:68-74) -/
def gemmtDiagDense (m n : ℕ) (alpha : K) (lhs rhs dst : ℕ → ℕ → K) : ℕ → ℕ → K := fun r c =>
  if r < m ∧ c < n then dst r c + alpha * (lhs r r * rhs c r) else dst r c

/-- `GemmT<TriL, Diag>` (gemmt.hpp:76-91) -/
def gemmtTriLDiag (m n : ℕ) (alpha : K) (lhs rhs dst : ℕ → ℕ → K) : ℕ → ℕ → K := fun r c =>
  if c < n ∧ c ≤ r ∧ r < m then dst r c + (alpha * rhs c c) * lhs r c else dst r c

/-- `GemmT<TriU, Diag>` (gemmt.hpp:128-142) -/
def gemmtTriUDiag (n : ℕ) (alpha : K) (lhs rhs dst : ℕ → ℕ → K) : ℕ → ℕ → K := fun r c =>
  if c < n ∧ r ≤ c then dst r c + (alpha * rhs c c) * lhs r c else dst r c

/-- `dst += alpha * (lhs * rhs.transpose())` for full matrices (gemmt.hpp:202-208) -/
def gemmtFull (m k n : ℕ) (alpha : K) (lhs rhs dst : ℕ → ℕ → K) : ℕ → ℕ → K := fun r c =>
  if r < m ∧ c < n then dst r c + alpha * ∑ p ∈ Finset.range k, lhs r p * rhs c p else dst r c

/-- `dst.triangularView<Lower>() += alpha * …` (gemmt.hpp:33-66, 76-90, 128-142) -/
def gemmtOnLower (m k n : ℕ) (alpha : K) (lhs rhs dst : ℕ → ℕ → K) : ℕ → ℕ → K := fun r c =>
  if c ≤ r then gemmtFull m k n alpha lhs rhs dst r c else dst r c

/-- `dst.triangularView<Upper>() += alpha * …` (gemmt.hpp:33-66, 76-90, 128-142) -/
def gemmtOnUpper (m k n : ℕ) (alpha : K) (lhs rhs dst : ℕ → ℕ → K) : ℕ → ℕ → K := fun r c =>
  if r ≤ c then gemmtFull m k n alpha lhs rhs dst r c else dst r c

/-- `GemmT<Dense, Diag>` (gemmt.hpp:179-184) -/
def gemmtDenseDiag (m n : ℕ) (alpha : K) (lhs rhs dst : ℕ → ℕ → K) : ℕ → ℕ → K := fun r c =>
  if r < m ∧ c < n then dst r c + alpha * (lhs r c * rhs c c) else dst r c

/-- `gemmt` (gemmt.hpp:209-313): the dispatch on the two kinds, with the bodies of the remaining specialisations
(gemmt.hpp:18-21, 94-128, 147-207) inlined. The transpose of the lower triangular view of `rhs` is the upper triangular view
of its transpose. -/
def gemmt (lk rk : BlockKind) (m k n : ℕ) (alpha : K) (lhs rhs dst : ℕ → ℕ → K) : ℕ → ℕ → K :=
  match lk, rk with
  | zero, _ => dst
  | diag, zero => dst
  | diag, diag => gemmtDiagDiag m k alpha lhs rhs dst
  | diag, triL => gemmtDiagTriL n alpha lhs rhs dst
  | diag, triU => gemmtDiagTriU m n alpha lhs rhs dst
  | diag, dense => gemmtDiagDense m n alpha lhs rhs dst
  | triL, zero => dst
  | triL, diag => gemmtTriLDiag m n alpha lhs rhs dst
  | triL, triL => gemmtFull m k n alpha lhs (lowerView rhs) dst
  | triL, triU => gemmtOnLower m k n alpha lhs (upperView rhs) dst
  | triL, dense => gemmtFull m k n alpha (lowerView lhs) rhs dst
  | triU, zero => dst
  | triU, diag => gemmtTriUDiag n alpha lhs rhs dst
  | triU, triL => gemmtOnUpper m k n alpha lhs (lowerView rhs) dst
  | triU, triU => gemmtFull m k n alpha lhs (upperView rhs) dst
  | triU, dense => gemmtFull m k n alpha (upperView lhs) rhs dst
  | dense, zero => dst
  | dense, diag => gemmtDenseDiag m n alpha lhs rhs dst
  | dense, triL => gemmtFull m k n alpha lhs (lowerView rhs) dst
  | dense, triU => gemmtFull m k n alpha lhs (upperView rhs) dst
  | dense, dense => gemmtFull m k n alpha lhs rhs dst

/-- Eigen's run-time checks on the lengths of the operands (active unless compiled with `NDEBUG`): element-wise products and
assignments need equal lengths, products equal inner lengths, segments must fit. gemmt.hpp:14-16,
210-315. -/
def gemmtSizes (lk rk : BlockKind) (m k n : ℕ) : Bool :=
  match lk, rk with
  | zero, _ => true
  | _, zero => true
  | diag, diag => decide (min m k = min k n ∧ min m k ≤ min m n)
  -- the diagonal has length `min m k` and is multiplied with a segment of length `j + 1`, for every `j < n`
  | diag, triL => (List.range n).all fun j => decide (j + 1 ≤ m ∧ j + 1 ≤ k ∧ min m k = j + 1)
  -- … with a segment of length `m - j`
  | diag, triU => (List.range n).all fun j => decide (j ≤ m ∧ m - j ≤ k ∧ min m k = m - j)
  | diag, dense => decide (min m k = k ∧ min m k = m)
  | triL, diag => (List.range n).all fun j => decide (j ≤ m ∧ j < k)
  | triU, diag => (List.range n).all fun j => decide (j + 1 ≤ m ∧ j < k)
  | dense, diag => decide (min k n = k ∧ min k n = n)
  | _, _ => true

/-- `gemmt` in a build with assertions: `none` if one fails (gemmt.hpp:14-16, 210-315) -/
def gemmtChecked (lk rk : BlockKind) (m k n : ℕ) (alpha : K) (lhs rhs dst : ℕ → ℕ → K) : Option (ℕ → ℕ → K) :=
  if gemmtSizes lk rk m k n then some (gemmt lk rk m k n alpha lhs rhs dst) else none

end ProxNLP
