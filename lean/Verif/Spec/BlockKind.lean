import Verif.Model.BlockKind
import Mathlib.Algebra.Field.Basic
import Mathlib.Algebra.BigOperators.Ring.Finset

/-! Specification of block patterns (C50-C54, C67). -/

namespace ProxNLP.Spec

variable {K : Type} [Field K]

/-- The positions of a block of the given kind that may be nonzero. -/
def Allows : BlockKind → ℕ → ℕ → Prop
  | .zero, _, _ => False
  | .diag, r, c => r = c
  | .triL, r, c => c ≤ r
  | .triU, r, c => r ≤ c
  | .dense, _, _ => True

instance (k : BlockKind) (r c : ℕ) : Decidable (Allows k r c) := by cases k <;> simp only [Allows] <;> infer_instance

/-- An `m × n` block has a kind: its entries at other positions vanish. -/
def HasKind (k : BlockKind) (m n : ℕ) (A : ℕ → ℕ → K) : Prop := ∀ r < m, ∀ c < n, ¬ Allows k r c → A r c = 0

/-- first row of block `i` -/
def segOffset (lens : ℕ → ℕ) (i : ℕ) : ℕ := ∑ k ∈ Finset.range i, lens k

/-- A matrix has a block pattern: block `(i, j)` has the kind `kinds i j`. -/
def HasPattern (n : ℕ) (lens : ℕ → ℕ) (kinds : ℕ → ℕ → BlockKind) (A : ℕ → ℕ → K) : Prop :=
  ∀ i < n, ∀ j < n, HasKind (kinds i j) (lens i) (lens j) fun r c => A (segOffset lens i + r) (segOffset lens j + c)

/-- `A = L D L^T` on the first `N` rows and columns, `L` unit lower triangular, with nonzero pivots (but possibly the last
one). -/
structure IsLDL (N : ℕ) (A L : ℕ → ℕ → K) (d : ℕ → K) : Prop where
  unit : ∀ i < N, L i i = 1
  lower : ∀ i < N, ∀ j < N, i < j → L i j = 0
  pivots : ∀ k, k + 1 < N → d k ≠ 0
  eq : ∀ i < N, ∀ j < N, A i j = ∑ k ∈ Finset.range N, L i k * d k * L j k

end ProxNLP.Spec
