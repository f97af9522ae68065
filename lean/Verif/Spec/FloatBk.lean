import Verif.Model.FloatBk
import Verif.Spec.FloatLdlt
import Verif.Props.BunchKaufman

/-! Specification for the rounded Bunch-Kaufman solve. -/

set_option linter.unusedSectionVars false
namespace ProxNLP.Spec

variable {K : Type} [Field K] [LinearOrder K] [IsStrictOrderedRing K]

/-- the rows of both triangular solves and of the product with a 2x2 block are complete sums, with at most `d` roundings per term -/
structure BkOrdersSum (q : BkOrders) (n d : ℕ) : Prop where
  pos : 1 ≤ d
  fwd : ∀ i < n, SumsTo (q.fwd i) i d
  bwd : ∀ i < n, SumsTo (q.bwd i) (n - 1 - i) d
  diag : ∀ i < n, (q.diag i).terms.Perm [some 0, some 1] ∧ (q.diag i).depth ≤ d

/-- The object holds a factorisation of `A`: its pivots describe interchanges, `A` in the resulting order is `L D Lᵀ` with the
stored `L`, and the stored blocks are the inverse of `D`. -/
structure HoldsFactors (o : BkObj K) (A D : ℕ → ℕ → K) : Prop where
  pivots : PivPath o.n o.piv 0
  factor : IsBunchKaufman o.n A (unitLower o.mat) D (twoAt o.piv) (travPerm o.n o.piv 0)
  inverse : ∀ i < o.n, ∀ j < o.n, ∑ c ∈ Finset.range o.n, D i c * storedBlocks o c j = if i = j then 1 else 0

/-- the off-diagonal entry of every 2x2 block dominates, as the pivot rule of Bunch and Kaufman makes it:
`((1 + sqrt 17) / 8)^2 < 3 / 7` -/
def DominantBlocks (o : BkObj K) (D : ℕ → ℕ → K) : Prop :=
  ∀ c < o.n, twoAt o.piv c = true → 7 * |D c c * D (c + 1) (c + 1)| ≤ 3 * D (c + 1) c ^ 2

/-- `(|L| |D| |Lᵀ|) i j` for the factors stored in `o` -/
def absBk (o : BkObj K) (D : ℕ → ℕ → K) (i j : ℕ) : K :=
  ∑ k ∈ Finset.range o.n, ∑ k' ∈ Finset.range o.n, |unitLower o.mat i k| * |D k k'| * |unitLower o.mat j k'|

end ProxNLP.Spec
