import Verif.Model.BunchKaufman
import Verif.Model.FloatLdlt

/-!
The solve of the Bunch-Kaufman factorisation in rounded arithmetic (bunchkaufman.hpp:447-516): the two triangular solves and the
product with the stored inverse of `D`. Exchanging rows does not round. The factors are those stored in the object; how they
were computed is not part of this file.
-/

set_option linter.unusedSectionVars false
namespace ProxNLP

variable {K : Type} [Field K] [LinearOrder K]

/-- the orders in which Eigen adds up the terms in a solve: both triangular solves (bunchkaufman.hpp:470, 502) and the rows of the
product with a 2x2 block (bunchkaufman.hpp:491-492), where the compiler may fuse a product with the sum -/
structure BkOrders where
  fwd : ℕ → SumTree ℕ
  bwd : ℕ → SumTree ℕ
  diag : ℕ → SumTree ℕ

/-- the two products added in a row of a 2x2 block (bunchkaufman.hpp:491-492) -/
def twoTerms (a b : K × K) : ℕ → K × K := fun i => if i = 0 then a else b

/-- multiplication with the stored inverse of `D` (bunchkaufman.hpp:472-500) -/
def flBkSolveD (R : Rounding K) (t : ℕ → SumTree ℕ) (n : ℕ) (piv : ℕ → ℤ) (mat : ℕ → ℕ → K) (subdiag : ℕ → K) (x : ℕ → K) : ℕ → K :=
  forPivots n piv
    (fun k _ x i => if i = k then (t k).eval R 0 (twoTerms (x k, mat k k) (x (k + 1), subdiag k))
      else if i = k + 1 then (t (k + 1)).eval R 0 (twoTerms (x (k + 1), mat (k + 1) (k + 1)) (x k, subdiag k)) else x i)
    (fun k _ x i => if i = k then R.rnd (x k * mat k k) else x i) 0 x

/-- `bunch_kaufman_solve_in_place` (bunchkaufman.hpp:447-516), `solve`, `solveInPlace` -/
def BkObj.flSolve (R : Rounding K) (q : BkOrders) (o : BkObj K) (b : ℕ → K) : ℕ → K :=
  let x := forPivots o.n o.piv (fun k p x => swapEntries (k + 1) p x) (fun k p x => swapEntries k p x) 0 b
  let x := flFwdUnit R q.fwd o.n o.mat x
  let x := flBkSolveD R q.diag o.n o.piv o.mat o.subdiag x
  let x := flBwdUnit R q.bwd o.n o.mat x
  bkSolveBack o.piv o.n x

end ProxNLP
