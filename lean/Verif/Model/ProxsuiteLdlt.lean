import Verif.Model.DenseLdlt
import Verif.Model.Signature
import Mathlib.Algebra.Group.End
import Mathlib.Data.Fintype.Card

/-!
Model of the wrapper `/repo/include/proxsuite-nlp/linalg/proxsuite-ldlt-wrap.hpp` around ProxSuite's dense LDLT.  The
factorisation itself belongs to another library: it is a parameter, and the theorems state what they need of it.  The
workspace stack (lines 59-71, 78, 96-98) only provides memory and is not modelled.
-/

set_option linter.unusedSectionVars false
namespace ProxNLP

variable {K : Type} [Field K] [LinearOrder K]

/-- The factors held by `dense_linalg::Ldlt` (proxsuite-ldlt-wrap.hpp:54): `ld_col()` holds `L` under and `D` on the
diagonal; `perm i` is the row of the input placed at position `i`, so that `p()` sends position `i` to `perm i`. -/
structure PsFactor (K : Type) (n : ℕ) where
  ld : ℕ → ℕ → K
  perm : Equiv.Perm (Fin n)

/-- `perm * v` (Eigen's permutation matrices): entry `i` moves to `σ i`.
proxsuite-ldlt-wrap.hpp:81-124. -/
def psPerm {n : ℕ} (σ : Equiv.Perm (Fin n)) (v : ℕ → K) : ℕ → K := fun i =>
  if h : i < n then v (σ.symm ⟨i, h⟩) else v i

/-- `solve_impl(ld, rhs)` (proxsuite-ldlt-wrap.hpp:17-38): forward substitution, division by the pivots above `tiny`
(`numeric_limits::min()`) and zero for the others, backward substitution. -/
def psSolveImpl (tiny : K) (n : ℕ) (ld : ℕ → ℕ → K) (rhs : ℕ → K) : ℕ → K :=
  bwdUnit n ld (scaleByD tiny ld (fwdUnit n ld rhs))

/-- `solveInPlace(rhs)` (proxsuite-ldlt-wrap.hpp:81-106) for one column; it always returns `true`. -/
def PsFactor.solve {n : ℕ} (tiny : K) (f : PsFactor K n) (rhs : ℕ → K) : ℕ → K :=
  let work := psPerm f.perm.symm rhs
  let work := psSolveImpl tiny n f.ld work
  psPerm f.perm work

/-- `vectorD()` (proxsuite-ldlt-wrap.hpp:108-110). -/
def PsFactor.vectorD {n : ℕ} (f : PsFactor K n) : ℕ → K := fun k => f.ld k k

/-- `ComputeSignatureVisitor` on `vectorD()` (ldlt-allocator.hpp:183-187). -/
def PsFactor.signature {n : ℕ} (f : PsFactor K n) : List ℤ := (List.range n).map fun k => cwiseSign (f.vectorD k)

/-- `reconstructedMatrix()` (proxsuite-ldlt-wrap.hpp:112-124). -/
def PsFactor.reconstruct {n : ℕ} (f : PsFactor K n) : ℕ → ℕ → K :=
  let r : ℕ → ℕ → K := fun i j => unitLower f.ld j i
  let r : ℕ → ℕ → K := fun i j => f.vectorD i * r i j
  let r : ℕ → ℕ → K := fun i j => ∑ k ∈ Finset.range n, unitLower f.ld i k * r k j
  let r : ℕ → ℕ → K := fun i => psPerm f.perm (r i)
  fun i j => psPerm f.perm (fun i => r i j) i

/-- State of a `ProxSuiteLDLTWrapper` (proxsuite-ldlt-wrap.hpp:54-56, ldlt-base.hpp:46-49). -/
structure PsObj (K : Type) (n : ℕ) where
  factor : Option (PsFactor K n)
  sign : SignMat
  info : Option Bool

/-- `ProxSuiteLDLTWrapper(nr, rhs_max_cols)` (proxsuite-ldlt-wrap.hpp:58-68); `m_info` is not initialised. -/
def PsObj.init (n : ℕ) : PsObj K n := { factor := none, sign := .zeroSign, info := none }

/-- `compute(mat)` (proxsuite-ldlt-wrap.hpp:70-79): the external factorisation, then `m_info = Success`. -/
def PsObj.compute {n : ℕ} (fac : (ℕ → ℕ → K) → PsFactor K n) (o : PsObj K n) (A : ℕ → ℕ → K) : PsObj K n :=
  { o with factor := some (fac A), info := some true }

end ProxNLP
