import Mathlib.Data.Fintype.Basic

/-! Specification vocabulary for stacked vectors. -/

namespace ProxNLP.Spec

variable {α : Type*}

/-- The `size` consecutive entries of `z` from `off` on are `b` (and they are inside `z`). -/
def IsBlock {n size : ℕ} (z : Fin n → α) (off : ℕ) (b : Fin size → α) : Prop :=
  ∀ j : Fin size, ∃ h : off + j.1 < n, z ⟨off + j.1, h⟩ = b j

/-- offset of block `i` for the given block sizes -/
def offset (sizes : List ℕ) (i : ℕ) : ℕ := (sizes.take i).sum

end ProxNLP.Spec
