import Verif.Model.Rounding
import Verif.Model.DenseLdlt

/-!
The dense LDLT factorisation and its solve in rounded arithmetic.

Mirrors `Model/DenseLdlt.lean` (same storage, same order of the loops and of the recursion); each sum `a - Σ p_k q_k` is accumulated in
an order given as a parameter, because Eigen chooses it by size, alignment and instruction set.  A subtracted product is a product with
one factor negated (rounding to nearest is symmetric).  The running sign is not repeated here.
-/

set_option linter.unusedSectionVars false
namespace ProxNLP

variable {K : Type} [Field K] [LinearOrder K]

/-- Orders of summation.  `o` is the position of the block in the whole matrix and `n` its size: together they tell the call of the
recursion. The products of dense.hpp:44-146. -/
structure LdltOrders where
  pivot : (o n j : ℕ) → SumTree ℕ
  column : (o n j i : ℕ) → SumTree ℕ
  right : (o n i c : ℕ) → SumTree ℕ
  schur : (o n i c : ℕ) → SumTree ℕ
  fwd : (i : ℕ) → SumTree ℕ
  bwd : (i : ℕ) → SumTree ℕ

/-- `work = l10.transpose().cwiseProduct(d0)` (dense.hpp:63-67) -/
def flLdltWork (R : Rounding K) (n j : ℕ) (A : ℕ → ℕ → K) : ℕ → ℕ → K := fun i c =>
  if i < j ∧ c = n - 1 then R.rnd (A j i * A i i) else A i c

/-- `akk -= work.dot(l10)` (dense.hpp:69-70) -/
def flLdltPivot (R : Rounding K) (t : SumTree ℕ) (n j : ℕ) (A : ℕ → ℕ → K) : ℕ → ℕ → K := fun i c =>
  if i = j ∧ c = j then t.eval R (A j j) fun k => (-A k (n - 1), A j k) else A i c

/-- `l21.noalias() -= l20 * work` (dense.hpp:80-83) -/
def flLdltColumn (R : Rounding K) (t : ℕ → SumTree ℕ) (n j : ℕ) (A : ℕ → ℕ → K) : ℕ → ℕ → K := fun i c =>
  if j < i ∧ i < n ∧ c = j then (t i).eval R (A i j) fun k => (-A k (n - 1), A i k) else A i c

/-- `l21 *= 1 / akk` (dense.hpp:84): the reciprocal and each product are rounded -/
def flLdltScale (R : Rounding K) (n j : ℕ) (A : ℕ → ℕ → K) : ℕ → ℕ → K := fun i c =>
  if j < i ∧ i < n ∧ c = j then R.rnd (A i j * R.rnd (1 / A j j)) else A i c

/-- one pass of the loop of `ldlt_in_place_unblocked` (dense.hpp:61-85) -/
def flLdltStep (R : Rounding K) (q : LdltOrders) (o n j : ℕ) (A : ℕ → ℕ → K) : ℕ → ℕ → K :=
  let A := flLdltPivot R (q.pivot o n j) n j (flLdltWork R n j A)
  if j + 1 = n then A else flLdltScale R n j (flLdltColumn R (q.column o n j) n j A)

/-- `ldlt_in_place_unblocked(a, sign)` (dense.hpp:44-87) -/
def flLdltUnblocked (R : Rounding K) (q : LdltOrders) (o n : ℕ) (A : ℕ → ℕ → K) : ℕ → ℕ → K :=
  if n ≤ 1 then A else forRange 0 n (flLdltStep R q o n) A

/-- forward substitution with the unit lower triangular part of `M` (called in dense.hpp:104-112
and 128-146) -/
def flFwdUnit (R : Rounding K) (t : ℕ → SumTree ℕ) (n : ℕ) (M : ℕ → ℕ → K) (b : ℕ → K) : ℕ → K :=
  forRange 0 n (fun i x => Function.update x i ((t i).eval R (x i) fun k => (-M i k, x k))) b

/-- backward substitution with the transpose of the unit lower triangular part of `M` (called in
dense.hpp:104-112 and 128-146) -/
def flBwdUnit (R : Rounding K) (t : ℕ → SumTree ℕ) (n : ℕ) (M : ℕ → ℕ → K) (b : ℕ → K) : ℕ → K :=
  forRange 0 n (fun s x => Function.update x (n - 1 - s)
    ((t (n - 1 - s)).eval R (x (n - 1 - s)) fun k => (-M (n - s + k) (n - 1 - s), x (n - s + k)))) b

/-- `l00.transpose().triangularView<UnitUpper>().solveInPlace<OnTheRight>(l10)` (dense.hpp:112-114) -/
def flSolveRight (R : Rounding K) (t : ℕ → ℕ → SumTree ℕ) (n bs : ℕ) (A : ℕ → ℕ → K) : ℕ → ℕ → K := fun i c =>
  if bs ≤ i ∧ i < n ∧ c < bs then flFwdUnit R (t i) bs A (fun c => A i c) c else A i c

/-- `l10 = l10 * d0.asDiagonal().inverse()` (dense.hpp:118) -/
def flLdltScaleBlock (R : Rounding K) (n bs : ℕ) (A : ℕ → ℕ → K) : ℕ → ℕ → K := fun i c =>
  if bs ≤ i ∧ i < n ∧ c < bs then R.rnd (A i c * R.rnd (1 / A c c)) else A i c

/-- `l11.triangularView<Lower>() -= l10 * work.transpose()` (dense.hpp:120) -/
def flLdltSchur (R : Rounding K) (t : ℕ → ℕ → SumTree ℕ) (n bs : ℕ) (A : ℕ → ℕ → K) : ℕ → ℕ → K := fun i c =>
  if bs ≤ c ∧ c ≤ i ∧ i < n then (t i c).eval R (A i c) fun k => (-A i k, A k c) else A i c

/-- `dense_ldlt_in_place(a, sign)` (dense.hpp:93-124) -/
def flDenseLdlt (R : Rounding K) (q : LdltOrders) (o n : ℕ) (A : ℕ → ℕ → K) : ℕ → ℕ → K :=
  if h : n ≤ 128 then flLdltUnblocked R q o n A
  else
    let bs := (n + 1) / 2
    let A := writeDiagBlock 0 bs A (flDenseLdlt R q o bs A)
    let A := flLdltSchur R (q.schur o n) n bs (flLdltScaleBlock R n bs (ldltCopy n bs (flSolveRight R (q.right o n) n bs A)))
    writeDiagBlock bs (n - bs) A (flDenseLdlt R q (o + bs) (n - bs) fun i c => A (bs + i) (bs + c))
termination_by n
decreasing_by all_goals omega

/-- the diagonal scaling of `dense_ldlt_solve_in_place` (dense.hpp:134-142) -/
def flScaleByD (R : Rounding K) (tiny : K) (M : ℕ → ℕ → K) (b : ℕ → K) : ℕ → K := fun i =>
  if tiny < |M i i| then R.rnd (b i / M i i) else 0

/-- `dense_ldlt_solve_in_place(mat, b)` (dense.hpp:128-146) for one right-hand side of length `n` -/
def flDenseSolve (R : Rounding K) (q : LdltOrders) (tiny : K) (n : ℕ) (M : ℕ → ℕ → K) (b : ℕ → K) : ℕ → K :=
  flBwdUnit R q.bwd n M (flScaleByD R tiny M (flFwdUnit R q.fwd n M b))

end ProxNLP
