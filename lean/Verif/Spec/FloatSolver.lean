import Verif.Model.FloatSolver
import Verif.Spec.Sets
import Mathlib.Algebra.BigOperators.Ring.Finset

/-! Specification for C100: the exact residuals of a point and the size of the rounding errors. -/

namespace ProxNLP.Spec

variable {X K H : Type} {n m : ℕ} [Field K] [LinearOrder K]

/-- exact primal residual of one row: the value minus the exact projection (or proximal point) of the shifted value -/
def exactRow (leaf : LeafSet K × ℕ) (mu c lam : K) : K := c - leaf.1.projAt mu leaf.2 (c + mu * lam)

/-- exact dual residual: gradient of the Lagrangian -/
def exactDual (g : Fin n → K) (J : Fin m → Fin n → K) (lam : Fin m → K) (j : Fin n) : K := g j + ∑ i, J i j * lam i

/-- rounding error of the shifted value and of its projection -/
def rowSlack (R : Rounding K) (mu c lam : K) : K :=
  ((1 + R.u) ^ 3 - 1) * (|c| + |mu * lam| + mu) + 3 * R.eta * (1 + R.u) ^ 3

/-- rounding error of a sum whose terms go through at most `d` of `N` roundings -/
def dualSlack (R : Rounding K) (d N : ℕ) (g : Fin n → K) (J : Fin m → Fin n → K) (lam : Fin m → K) (j : Fin n) : K :=
  ((1 + R.u) ^ d - 1) * (|g j| + ∑ i, |J i j * lam i|) + N * R.eta * (1 + R.u) ^ d

/-- Every order of summation adds the gradient entry and each product exactly once; no term goes through more than `d` roundings, and
there are at most `N` of them. -/
def SumsAll (P : FlCtx X K H n m) (d N : ℕ) : Prop :=
  ∀ h j, (P.order h j).terms.Perm (none :: List.ofFn some) ∧ (P.order h j).depth ≤ d ∧ (P.order h j).count ≤ N

/-- bounds of boxes are in order -/
def RowsValid (P : FlCtx X K H n m) : Prop :=
  ∀ i, match P.sets i with
    | (.box lo hi, k) => lo k ≤ hi k
    | _ => True

/-- the values a row may take: those of a hard constraint, anything for the L1 penalty -/
def rowAllows : LeafSet K × ℕ → K → Prop
  | (.equality, _), y => y = 0
  | (.negOrthant, _), y => y ≤ 0
  | (.box lo hi, k), y => lo k ≤ y ∧ y ≤ hi k
  | (.l1, _), _ => True

end ProxNLP.Spec
