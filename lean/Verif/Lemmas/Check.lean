/-! Helper for concrete runs: a decidable check of the result gives the existence of a result. -/

namespace ProxNLP

theorem exists_of_check {α : Type} (x : Option α) (P : α → Prop) [DecidablePred P]
    (h : x.elim false (fun a => decide (P a)) = true) : ∃ a, x = some a ∧ P a := by
  cases x with
  | none => simp at h
  | some a => exact ⟨a, rfl, of_decide_eq_true h⟩

end ProxNLP
