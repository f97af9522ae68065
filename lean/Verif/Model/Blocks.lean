import Mathlib.Data.Fintype.Basic
import Mathlib.Data.List.Basic
import Mathlib.Algebra.BigOperators.Group.List.Basic

/-!
Block views of stacked vectors: Eigen's `segment(start, size)` / `middleRows(start, size)` used for reading
and as an assignment target.  `none` is the out-of-range access (undefined behaviour / Eigen assertion).
The element type `α` is a scalar for vectors, a row for matrices, `Bool` for active sets.
-/

namespace ProxNLP

variable {α : Type*}

/-- `x.segment(start, size)` read (also `middleRows`). Used by problem-base.hpp:64-70 and
constraint-set-product.hpp:20-28. -/
def readBlock {n : ℕ} (z : Fin n → α) (start size : ℕ) : Option (Fin size → α) :=
  if h : start + size ≤ n then some fun j => z ⟨start + j, by omega⟩ else none

/-- assignment `x.segment(start, size) = b` (also `middleRows`), for an in-range block. Used by
problem-base.hpp:64-70 and constraint-set-product.hpp:20-28. -/
def writeBlock {n : ℕ} (out : Fin n → α) (start size : ℕ) (b : Fin size → α) : Fin n → α :=
  fun k => if h : start ≤ k.1 ∧ k.1 < start + size then b ⟨k - start, by omega⟩ else out k

/-- The loop `for (kk = 0; kk < i; kk++) startIdx += sizes[kk]`
(constraint-set-product.hpp:11-14, 24-27). -/
def startIdx (sizes : List ℕ) (i : ℕ) : ℕ := (sizes.take i).foldl (· + ·) 0

end ProxNLP
