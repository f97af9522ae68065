import Verif.Model.Step
import Verif.Model.Signature
import Verif.Model.BunchKaufman
import Verif.Model.BlockLdlt
import Verif.Model.ProxsuiteLdlt

/-!
The linear solvers of the library as the `Backend` of a step (workspace.hpp:52-53, ldlt-allocator.hpp:101-195): the
KKT matrix is handed over as one square matrix, primal rows first.
-/

set_option linter.unusedSectionVars false
namespace ProxNLP

variable {K : Type} {n m : ℕ} [Field K] [LinearOrder K]

/-- entries of `workspace.kkt_matrix` (primal rows first, prox-solver.hxx:490-526); zero outside -/
def flatEntries (A : Matrix (Fin n ⊕ Fin m) (Fin n ⊕ Fin m) K) : ℕ → ℕ → K := fun i j =>
  if h : i < n + m ∧ j < n + m then A (finSumFinEquiv.symm ⟨i, h.1⟩) (finSumFinEquiv.symm ⟨j, h.2⟩) else 0

/-- entries of a vector; zero outside (used for the vectors handed over in
prox-solver.hxx:393-431) -/
def padVec {N : ℕ} (b : Fin N → K) : ℕ → K := fun i => if h : i < N then b ⟨i, h⟩ else 0

/-- `LDLTChoice::BUNCHKAUFMAN` (ldlt-allocator.hpp:111-112, 137-177, 189-192): `compute`, signature with threshold `eps` (machine epsilon in the
code) and `solveInPlace` (bunchkaufman.hpp). `o` is the object before `compute`. -/
def bkBackend (alpha eps : K) (o : BkObj K) : Backend K n m where
  sig A := match BkObj.compute alpha o (n + m) (flatEntries A) with
    | some r => r.signature eps
    | none => []
  solve A b := match BkObj.compute alpha o (n + m) (flatEntries A) with
    | some r => fun i => r.solve (padVec b) i
    | none => fun i => b i

/-- `LDLTChoice::DENSE` (ldlt-allocator.hpp:109-110, 183-187), `tiny` is `numeric_limits<Scalar>::min()` -/
def denseBackend (tiny : K) (o : DenseObj K) : Backend K n m where
  sig A := (o.compute (n + m) (flatEntries A)).signature
  solve A b := fun i => (o.compute (n + m) (flatEntries A)).solve tiny (padVec b) i

/-- `LDLTChoice::BLOCKSPARSE` (ldlt-allocator.hpp:113-119, 183-187): the right-hand side is one column -/
def blockBackend (tiny : K) (o : BlockObj K) : Backend K n m where
  sig A := (o.compute (n + m) (flatEntries A)).signature
  solve A b := fun i => ((o.compute (n + m) (flatEntries A)).solve tiny 1 fun r _ => padVec b r).2 i 0

/-- `LDLTChoice::PROXSUITE` (ldlt-allocator.hpp:122-124, 183-187) with the factorisation `fac` of ProxSuite. -/
def psBackend (tiny : K) (fac : (ℕ → ℕ → K) → PsFactor K (n + m)) : Backend K n m where
  sig A := (fac (flatEntries A)).signature
  solve A b := fun i => (fac (flatEntries A)).solve tiny (padVec b) i

end ProxNLP
