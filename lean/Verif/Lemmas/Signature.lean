import Verif.Lemmas.Sylvester
import Verif.Model.Signature
import Mathlib.Data.Fintype.Fin
import Mathlib.Order.Fin.Basic

/-! Counting the entries of a signature vector; existence of the factorisation of quasi-definite matrices. -/

set_option linter.unusedSectionVars false
namespace ProxNLP

open Spec

variable {K : Type} [Field K] [LinearOrder K] [IsStrictOrderedRing K]

theorem cwiseSign_eq_one (x : K) : cwiseSign x = 1 ↔ 0 < x := by
  rcases lt_trichotomy x 0 with h | h | h <;> simp [cwiseSign, h, h.le, h.not_gt]

theorem cwiseSign_eq_neg (x : K) : cwiseSign x = -1 ↔ x < 0 := by
  rcases lt_trichotomy x 0 with h | h | h <;> simp [cwiseSign, h, h.le, h.not_gt]

theorem cwiseSign_eq_zero (x : K) : cwiseSign x = 0 ↔ x = 0 := by
  rcases lt_trichotomy x 0 with h | h | h
  · simp [cwiseSign, h, h.le, h.not_gt, h.ne]
  · simp [cwiseSign, h]
  · simp [cwiseSign, h, h.le, h.not_gt, h.ne']

theorem cwiseSign_entries (x : K) : cwiseSign x = 1 ∨ cwiseSign x = -1 ∨ cwiseSign x = 0 := by
  rcases lt_trichotomy x 0 with h | h | h
  · exact Or.inr (Or.inl ((cwiseSign_eq_neg x).2 h))
  · exact Or.inr (Or.inr ((cwiseSign_eq_zero x).2 h))
  · exact Or.inl ((cwiseSign_eq_one x).2 h)

/-- the number of occurrences of a value in a tabulated list -/
theorem count_map_range (n : ℕ) (f : ℕ → ℤ) (z : ℤ) :
    ((List.range n).map f).count z = Fintype.card {k : Fin n // f k = z} := by
  induction n with
  | zero => simp
  | succ n ih =>
    rw [List.range_succ, List.map_append, List.count_append, ih]
    rw [Fintype.card_subtype, Fintype.card_subtype, Fin.univ_castSuccEmb, Finset.filter_cons]
    simp only [List.map_cons, List.map_nil]
    have e : (Finset.filter (fun k : Fin (n + 1) => f k = z) (Finset.map Fin.castSuccEmb Finset.univ)).card =
        (Finset.filter (fun k : Fin n => f k = z) Finset.univ).card := by
      rw [Finset.filter_map, Finset.card_map]
      rfl
    split_ifs with h
    · simp only [Fin.val_last] at h
      rw [Finset.card_cons, e]
      simp [h]
    · simp only [Fin.val_last] at h
      rw [e]
      simp [h]

end ProxNLP
