import Verif.Model.Math
import Mathlib.Tactic.Linarith

set_option linter.unusedSectionVars false
namespace ProxNLP

variable {K : Type*} [Field K] [LinearOrder K] [IsStrictOrderedRing K]

theorem foldl_max_le_iff (l : List K) (a t : K) : l.foldl max a ≤ t ↔ a ≤ t ∧ ∀ x ∈ l, x ≤ t := by
  induction l generalizing a with
  | nil => simp
  | cons x l ih => simp [ih, and_assoc]

theorem foldl_max_lt_iff (l : List K) (a t : K) : l.foldl max a < t ↔ a < t ∧ ∀ x ∈ l, x < t := by
  induction l generalizing a with
  | nil => simp
  | cons x l ih => simp [ih, and_assoc]

theorem foldl_max_mem (l : List K) (a : K) : l.foldl max a = a ∨ l.foldl max a ∈ l := by
  induction l generalizing a with
  | nil => simp
  | cons x l ih =>
    simp only [List.foldl_cons, List.mem_cons]
    rcases ih (max a x) with h | h
    · rw [h]; rcases max_choice a x with h' | h' <;> simp [h']
    · exact Or.inr (Or.inr h)

theorem maxFold_le_iff (l : List K) (t : K) : maxFold l ≤ t ↔ 0 ≤ t ∧ ∀ x ∈ l, x ≤ t :=
  foldl_max_le_iff l 0 t

theorem maxFold_lt_iff (l : List K) (t : K) : maxFold l < t ↔ 0 < t ∧ ∀ x ∈ l, x < t :=
  foldl_max_lt_iff l 0 t

theorem maxFold_nonneg (l : List K) : 0 ≤ maxFold l := ((maxFold_le_iff l _).1 le_rfl).1

theorem inftyNorm_le_iff {n : ℕ} (z : Fin n → K) (t : K) :
    inftyNorm z ≤ t ↔ 0 ≤ t ∧ ∀ i, |z i| ≤ t := by
  simp [inftyNorm, maxFold_le_iff, List.mem_ofFn]

theorem inftyNorm_lt_iff {n : ℕ} (z : Fin n → K) (t : K) :
    inftyNorm z < t ↔ 0 < t ∧ ∀ i, |z i| < t := by
  simp [inftyNorm, maxFold_lt_iff, List.mem_ofFn]

theorem inftyNorm_nonneg {n : ℕ} (z : Fin n → K) : 0 ≤ inftyNorm z := maxFold_nonneg _

theorem abs_le_inftyNorm {n : ℕ} (z : Fin n → K) (i : Fin n) : |z i| ≤ inftyNorm z :=
  ((inftyNorm_le_iff z _).1 le_rfl).2 i

theorem inftyNorm_eq_zero_iff {n : ℕ} (z : Fin n → K) : inftyNorm z = 0 ↔ ∀ i, z i = 0 := by
  constructor
  · intro h i
    have := abs_le_inftyNorm z i
    rw [h] at this
    exact abs_eq_zero.mp (le_antisymm this (abs_nonneg _))
  · intro h
    refine le_antisymm ((inftyNorm_le_iff z 0).2 ⟨le_rfl, fun i => by simp [h i]⟩) (inftyNorm_nonneg z)

end ProxNLP
