import Verif.Model.BlockKind
import Mathlib.Algebra.Field.Basic

/-!
Model of the use of the scalar permutation in `BlockLDLT` (block-ldlt.hpp:322-344, block-ldlt.hxx:60-98): the permuted copy of
the input and the products by Eigen's `PermutationMatrix` with index vector `idx`, `(P v)(idx(i)) = v(i)`.
-/

namespace ProxNLP

variable {K : Type} [Field K]

/-- the index vector as a function (`permIdx`, block-ldlt.hxx:43-58) -/
def idxFn (idx : List ℕ) : ℕ → ℕ := fun i => idx.getD i 0

/-- `mat_coeff` (block-ldlt.hpp:325-327): only the lower half of the input is read -/
def matCoeff (mat : ℕ → ℕ → K) : ℕ → ℕ → K := fun i j => if j ≤ i then mat i j else mat j i

/-- the permuted copy made by `compute(mat)` (block-ldlt.hpp:328-337): only the lower half of `m_matrix` is written -/
def permuteInput (idx : List ℕ) (mat old : ℕ → ℕ → K) : ℕ → ℕ → K := fun i j =>
  if j ≤ i then matCoeff mat (idxFn idx i) (idxFn idx j) else old i j

/-- `permutationP().transpose() * b` (block-ldlt.hxx:76) -/
def permTrMul (idx : List ℕ) (b : ℕ → K) : ℕ → K := fun i => b (idxFn idx i)

/-- `permutationP() * b` (block-ldlt.hxx:96) -/
def permMul (idx : List ℕ) (b : ℕ → K) : ℕ → K := fun r => b (idx.idxOf r)

end ProxNLP
