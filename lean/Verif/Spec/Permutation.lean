import Verif.Spec.BlockKind
import Verif.Model.BlockPerm
import Mathlib.Data.List.Lex
import Mathlib.Data.List.Perm.Basic

/-! Specification for block permutations (C52-C54, C77). -/

namespace ProxNLP.Spec

/-- The nonzero count of the symbolic factor of the pattern whose blocks are rearranged by `q` (`none`: the symbolic
factorisation does not succeed). -/
def fillCount (s : Sym) (q : List ℕ) : Option ℕ :=
  if (llt s.n fun i j => s.kinds (q.getD i 0) (q.getD j 0)).1 then
    some (∑ i ∈ Finset.range s.n, ∑ j ∈ Finset.range s.n,
      nnzOf ((llt s.n fun i j => s.kinds (q.getD i 0) (q.getD j 0)).2 i j) (s.lens (q.getD i 0)) (s.lens (q.getD j 0)))
  else none

/-- `best` is the first, in lexicographic order, of the least expensive arrangements among those satisfying `among`. -/
def IsFirstBest (s : Sym) (among : List ℕ → Prop) (best : List ℕ) : Prop :=
  best.Perm (List.range s.n) ∧ among best ∧ ∃ c, fillCount s best = some c ∧
    ∀ q : List ℕ, q.Perm (List.range s.n) → among q → ∃ c', fillCount s q = some c' ∧ c ≤ c' ∧ (q < best → c < c')

/-- The stored structure `t` with row permutation `idx` is valid for matrices of pattern `s`: whenever the symmetrically
permuted matrix `i j ↦ A (idx i) (idx j)` has an `L D L^T` factorisation, `L` has the pattern `t`. -/
def ValidAnalysis (K : Type) [Field K] (s : Sym) (t : Sym) (idx : List ℕ) : Prop :=
  ∀ (A L : ℕ → ℕ → K) (d : ℕ → K), HasPattern s.n s.lens s.kinds A →
    IsLDL (segOffset s.lens s.n) (fun i j => A (idx.getD i 0) (idx.getD j 0)) L d → HasPattern t.n t.lens t.kinds L

end ProxNLP.Spec
