import Verif.Model.BlockKind
import Mathlib.Algebra.Order.Field.Basic
import Mathlib.Algebra.BigOperators.Ring.Finset

/-!
Model of the dense LDLT factorisation `/repo/include/proxsuite-nlp/linalg/dense.hpp` and of the part of
`/repo/include/proxsuite-nlp/linalg/ldlt-base.hpp` it uses.

Simplifications: scalars are an ordered field (exact arithmetic; division by zero yields 0, theorems assume that no zero pivot
is divided by); a matrix is a function of its indices together with its size; vector expressions are simultaneous updates,
which is what Eigen evaluates since the operands never overlap the destination (dense.hpp:62-84 reads rows and columns disjoint
from the written ones). Triangular solves of Eigen are modelled by forward and backward substitution.
-/

set_option linter.unusedSectionVars false
namespace ProxNLP

/-- `Eigen::internal::SignMatrix` (the member `m_sign` used in dense.hpp:18-38) -/
inductive SignMat where
  | posSemi | negSemi | zeroSign | indefinite
  deriving DecidableEq, Repr

variable {K : Type} [Field K] [LinearOrder K]

/-- `update_sign_matrix` (dense.hpp:18-38) -/
def updateSign (s : SignMat) (a : K) : SignMat :=
  match s with
  | .posSemi => if a < 0 then .indefinite else s
  | .negSemi => if 0 < a then .indefinite else s
  | .zeroSign => if 0 < a then .posSemi else if a < 0 then .negSemi else s
  | .indefinite => s

/-- `work = l10.transpose().cwiseProduct(d0)` (dense.hpp:63-67): the work vector lives in the last column, above row `j` -/
def ldltWork (n j : ℕ) (A : ℕ → ℕ → K) : ℕ → ℕ → K := fun i c => if i < j ∧ c = n - 1 then A j i * A i i else A i c

/-- `akk -= work.dot(l10)` (dense.hpp:69-70) -/
def ldltPivot (n j : ℕ) (A : ℕ → ℕ → K) : ℕ → ℕ → K := fun i c =>
  if i = j ∧ c = j then A j j - ∑ k ∈ Finset.range j, A k (n - 1) * A j k else A i c

/-- `l21.noalias() -= l20 * work` (dense.hpp:80-83) -/
def ldltColumn (n j : ℕ) (A : ℕ → ℕ → K) : ℕ → ℕ → K := fun i c =>
  if j < i ∧ i < n ∧ c = j then A i j - ∑ k ∈ Finset.range j, A i k * A k (n - 1) else A i c

/-- `l21 *= 1 / akk` (dense.hpp:84) -/
def ldltScale (n j : ℕ) (A : ℕ → ℕ → K) : ℕ → ℕ → K := fun i c =>
  if j < i ∧ i < n ∧ c = j then A i j * (1 / A j j) else A i c

/-- one pass of the loop of `ldlt_in_place_unblocked` (dense.hpp:61-85) -/
def ldltStep (n j : ℕ) (st : (ℕ → ℕ → K) × SignMat) : (ℕ → ℕ → K) × SignMat :=
  let A := ldltPivot n j (ldltWork n j st.1)
  let sign := updateSign st.2 (A j j)
  if j + 1 = n then (A, sign) else (ldltScale n j (ldltColumn n j A), sign)

/-- `ldlt_in_place_unblocked(a, sign)` (dense.hpp:44-87); it always returns `true` -/
def ldltUnblocked (n : ℕ) (A : ℕ → ℕ → K) (sign : SignMat) : (ℕ → ℕ → K) × SignMat :=
  if n ≤ 1 then
    (A, if n = 0 then .zeroSign else if 0 < A 0 0 then .posSemi else if A 0 0 < 0 then .negSemi else .zeroSign)
  else forRange 0 n (ldltStep n) (A, sign)

/-- writes an `n × n` block at position `(o, o)` (dense.hpp:93-124) -/
def writeDiagBlock (o n : ℕ) (A B : ℕ → ℕ → K) : ℕ → ℕ → K := fun i c =>
  if o ≤ i ∧ i < o + n ∧ o ≤ c ∧ c < o + n then B (i - o) (c - o) else A i c

/-- Eigen's solve with the unit lower triangular part of `M`: forward substitution (called in
dense.hpp:104-112 and 128-146) -/
def fwdUnit (n : ℕ) (M : ℕ → ℕ → K) (b : ℕ → K) : ℕ → K :=
  forRange 0 n (fun i x => Function.update x i (x i - ∑ k ∈ Finset.range i, M i k * x k)) b

/-- Eigen's solve with the transpose of the unit lower triangular part of `M`: backward
substitution (called in dense.hpp:104-112 and 128-146) -/
def bwdUnit (n : ℕ) (M : ℕ → ℕ → K) (b : ℕ → K) : ℕ → K :=
  forRange 0 n (fun t x => Function.update x (n - 1 - t)
    (x (n - 1 - t) - ∑ k ∈ Finset.range t, M (n - t + k) (n - 1 - t) * x (n - t + k))) b

/-- `l00.transpose().triangularView<UnitUpper>().solveInPlace<OnTheRight>(l10)` (dense.hpp:112-114): every row `x` of `l10`
is replaced by the solution of `x L00^T = row` -/
def solveRight (n bs : ℕ) (A : ℕ → ℕ → K) : ℕ → ℕ → K := fun i c =>
  if bs ≤ i ∧ i < n ∧ c < bs then fwdUnit bs A (fun c => A i c) c else A i c

/-- `work = l10` (dense.hpp:116-117), in the upper right block, transposed -/
def ldltCopy (n bs : ℕ) (A : ℕ → ℕ → K) : ℕ → ℕ → K := fun i c => if i < bs ∧ bs ≤ c ∧ c < n then A c i else A i c

/-- `l10 = l10 * d0.asDiagonal().inverse()` (dense.hpp:118) -/
def ldltScaleBlock (n bs : ℕ) (A : ℕ → ℕ → K) : ℕ → ℕ → K := fun i c =>
  if bs ≤ i ∧ i < n ∧ c < bs then A i c * (1 / A c c) else A i c

/-- `l11.triangularView<Lower>() -= l10 * work.transpose()` (dense.hpp:120) -/
def ldltSchur (n bs : ℕ) (A : ℕ → ℕ → K) : ℕ → ℕ → K := fun i c =>
  if bs ≤ c ∧ c ≤ i ∧ i < n then A i c - ∑ k ∈ Finset.range bs, A i k * A k c else A i c

/-- `dense_ldlt_in_place(a, sign)` (dense.hpp:93-124), threshold 128 (dense.hpp:89) -/
def denseLdlt (n : ℕ) (A : ℕ → ℕ → K) (sign : SignMat) : (ℕ → ℕ → K) × SignMat :=
  if h : n ≤ 128 then ldltUnblocked n A sign
  else
    let bs := (n + 1) / 2
    let r0 := denseLdlt bs A sign
    let A := writeDiagBlock 0 bs A r0.1
    let A := ldltSchur n bs (ldltScaleBlock n bs (ldltCopy n bs (solveRight n bs A)))
    let r1 := denseLdlt (n - bs) (fun i c => A (bs + i) (bs + c)) r0.2
    (writeDiagBlock bs (n - bs) A r1.1, r1.2)
termination_by n
decreasing_by all_goals omega

/-- the diagonal scaling of `dense_ldlt_solve_in_place` (dense.hpp:134-142); `tiny` is `numeric_limits<Scalar>::min()` -/
def scaleByD (tiny : K) (M : ℕ → ℕ → K) (b : ℕ → K) : ℕ → K := fun i => if tiny < |M i i| then b i / M i i else 0

/-- `dense_ldlt_solve_in_place(mat, b)` (dense.hpp:128-146) for one right-hand side of length `n` -/
def denseSolve (tiny : K) (n : ℕ) (M : ℕ → ℕ → K) (b : ℕ → K) : ℕ → K :=
  bwdUnit n M (scaleByD tiny M (fwdUnit n M b))

/-- entry of the unit lower triangular view of `M` (`LDLT_Traits<...>::getL`) (used in
dense.hpp:104-112, 128-160) -/
def unitLower (M : ℕ → ℕ → K) : ℕ → ℕ → K := fun i k => if i = k then 1 else if k < i then M i k else 0

/-- `dense_ldlt_reconstruct(mat, res)` (dense.hpp:148-160) -/
def denseReconstruct (n : ℕ) (M R : ℕ → ℕ → K) : ℕ → ℕ → K :=
  let R1 := fun i j => ∑ k ∈ Finset.range n, unitLower M k i * R k j
  let R2 := fun i j => M i i * R1 i j
  fun i j => ∑ k ∈ Finset.range n, unitLower M i k * R2 k j

/-- State of a `DenseLDLT` object (dense.hpp:164-217, ldlt-base.hpp:46-49); `info` is `true` for `Success`. -/
structure DenseObj (K : Type) where
  n : ℕ
  mat : ℕ → ℕ → K
  sign : SignMat
  info : Option Bool

/-- `DenseLDLT(size)` (dense.hpp:172-174); `m_info` is not initialised -/
def DenseObj.init (n : ℕ) : DenseObj K := { n, mat := fun _ _ => 0, sign := .zeroSign, info := none }

/-- `compute(mat)` (dense.hpp:182-188) on a matrix of size `n` -/
def DenseObj.compute (o : DenseObj K) (n : ℕ) (A : ℕ → ℕ → K) : DenseObj K :=
  let r := denseLdlt n A o.sign
  { n, mat := r.1, sign := r.2, info := some true }

/-- `solve(rhs)` (dense.hpp:193-202) -/
def DenseObj.solve (tiny : K) (o : DenseObj K) (b : ℕ → K) : ℕ → K := denseSolve tiny o.n o.mat b

/-- `reconstructedMatrix()` (dense.hpp:204-209) -/
def DenseObj.reconstruct (o : DenseObj K) : ℕ → ℕ → K := denseReconstruct o.n o.mat fun i j => if i = j then 1 else 0

/-- `vectorD()` (dense.hpp:211) -/
def DenseObj.vectorD (o : DenseObj K) : ℕ → K := fun i => o.mat i i

end ProxNLP
