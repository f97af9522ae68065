import Verif.Lemmas.Overflow
import Verif.Props.ExtSolver

set_option linter.unusedSectionVars false

namespace ProxNLP

open ExtScalar Spec

/-- the sequential norm of Eigen is the largest magnitude of a list without NaN -/
theorem seqNorm_largest {K : Type} [Field K] [LinearOrder K] [IsStrictOrderedRing K] : LargestNorm (seqNorm (K := K)) := by
  have absCase : ∀ e : ExtScalar K, e ≠ nan → (∃ a, 0 ≤ a ∧ ExtScalar.abs e = fin a) ∨ ExtScalar.abs e = posInf := by
    intro e he
    cases e with
    | fin a => exact .inl ⟨|a|, abs_nonneg a, rfl⟩
    | nan => exact absurd rfl he
    | posInf => exact .inr rfl
    | negInf => exact .inr rfl
  have key : ∀ (t : List (ExtScalar K)) (r : ExtScalar K), nan ∉ t → (∃ a, 0 ≤ a ∧ r = fin a) ∨ r = posInf →
      le r (t.foldl (fun r e => stdMax r (ExtScalar.abs e)) r) = true ∧
      (∀ e ∈ t, le (ExtScalar.abs e) (t.foldl (fun r e => stdMax r (ExtScalar.abs e)) r) = true) ∧
      (t.foldl (fun r e => stdMax r (ExtScalar.abs e)) r = r ∨ ∃ e ∈ t, t.foldl (fun r e => stdMax r (ExtScalar.abs e)) r = ExtScalar.abs e) := by
    intro t
    induction t with
    | nil =>
      intro r _ hr
      refine ⟨?_, by simp, .inl rfl⟩
      rcases hr with ⟨a, -, rfl⟩ | rfl <;> simp [le]
    | cons a t ih =>
      intro r hnan hr
      have ha := absCase a (fun h => hnan (h ▸ List.mem_cons_self))
      have hm : ((∃ b, 0 ≤ b ∧ stdMax r (ExtScalar.abs a) = fin b) ∨ stdMax r (ExtScalar.abs a) = posInf) ∧
          le r (stdMax r (ExtScalar.abs a)) = true ∧ le (ExtScalar.abs a) (stdMax r (ExtScalar.abs a)) = true ∧
          (stdMax r (ExtScalar.abs a) = r ∨ stdMax r (ExtScalar.abs a) = ExtScalar.abs a) := by
        unfold stdMax
        by_cases hlt : lt r (ExtScalar.abs a) = true
        · rw [if_pos hlt]
          refine ⟨ha, le_of_lt_ext hlt, ?_, .inr rfl⟩
          rcases ha with ⟨b, -, hb⟩ | hb <;> rw [hb] <;> simp [le]
        · rw [if_neg hlt]
          refine ⟨hr, ?_, ?_, .inl rfl⟩
          · rcases hr with ⟨b, -, hb⟩ | hb <;> rw [hb] <;> simp [le]
          · exact ext_le_of_not_lt hr ha hlt
      obtain ⟨k1, k2, k3⟩ := ih (stdMax r (ExtScalar.abs a)) (fun h => hnan (List.mem_cons_of_mem _ h)) hm.1
      rw [List.foldl_cons]
      refine ⟨ext_le_trans hm.2.1 k1, ?_, ?_⟩
      · intro e he
        rcases List.mem_cons.1 he with rfl | he
        · exact ext_le_trans hm.2.2.1 k1
        · exact k2 e he
      · rcases k3 with k3 | ⟨e, he, k3⟩
        · rcases hm.2.2.2 with h | h
          · exact .inl (k3.trans h)
          · exact .inr ⟨a, List.mem_cons_self, k3.trans h⟩
        · exact .inr ⟨e, List.mem_cons_of_mem _ he, k3⟩
  intro l hl
  cases l with
  | nil => exact ⟨by simp, .inl rfl⟩
  | cons a t =>
    have ha := absCase a (fun h => hl (h ▸ List.mem_cons_self))
    obtain ⟨k1, k2, k3⟩ := key t (ExtScalar.abs a) (fun h => hl (List.mem_cons_of_mem _ h)) ha
    refine ⟨?_, .inr ?_⟩
    · intro e he
      rcases List.mem_cons.1 he with rfl | he
      · exact k1
      · exact k2 e he
    · rcases k3 with k3 | ⟨e, he, k3⟩
      · exact ⟨a, List.mem_cons_self, k3⟩
      · exact ⟨e, List.mem_cons_of_mem _ he, k3⟩

end ProxNLP
