import Verif.Model.FloatRefine
import Mathlib.Algebra.BigOperators.Fin
import Mathlib.Algebra.Order.Ring.Defs

/-! Specification for the rounded iterative refinement. -/

set_option linter.unusedSectionVars false
namespace ProxNLP.Spec

variable {K : Type} [Field K] [LinearOrder K] {N : ℕ}

/-- every row is the initial entry and the `N` products, each once, in some order; every term goes through at most `d` roundings, and
there are at most `c` roundings in all -/
def RowsSum (t : Fin N → SumTree (Fin N)) (d c : ℕ) : Prop :=
  ∀ i, (t i).terms.Perm (none :: List.ofFn some) ∧ (t i).depth ≤ d ∧ (t i).count ≤ c

/-- row `i` of `A s + rhs`, which should vanish -/
def kktRow (A : Fin N → Fin N → K) (rhs s : Fin N → K) (i : Fin N) : K := (∑ j, A i j * s j) + rhs i

/-- the same with absolute values -/
def kktRowAbs (A : Fin N → Fin N → K) (rhs s : Fin N → K) (i : Fin N) : K := (∑ j, |A i j * s j|) + |rhs i|

/-- `α` bounds the row sums of `|A|`, and `ν` its inverse, in the max norm -/
structure CondBounds (A : Fin N → Fin N → K) (α ν : K) : Prop where
  row : ∀ i, ∑ j, |A i j| ≤ α
  inv : ∀ v : Fin N → K, inftyNorm v ≤ ν * inftyNorm fun i => ∑ j, A i j * v j

/-- the new factor of contraction: `(1 + κu)(q + (1 + q)γκ)` -/
def refineRate (u γ κ q : K) : K := (1 + κ * u) * (q + (1 + q) * (γ * κ))

/-- the new term per correction: `(1 + κu)(1 + q)γ(1 + κ) + κu` -/
def refineFloor (u γ κ q : K) : K := (1 + κ * u) * ((1 + q) * (γ * (1 + κ))) + κ * u

end ProxNLP.Spec
