import Verif.Lemmas.Math
import Mathlib.Algebra.Order.Field.Rat
import Mathlib.Tactic.NormNum
import Mathlib.Data.Fin.VecNotation

/-! Property theorems for C66: the max-norm helper and the finite-value checks. -/

set_option linter.unusedSectionVars false
namespace ProxNLP

variable {K : Type*} [Field K] [LinearOrder K] [IsStrictOrderedRing K]

/-- **C66, vectors**: the norm is 0 for an empty vector; otherwise it is the absolute value of some entry and no entry is larger
in absolute value. -/
theorem C66_largest_entry (n : ℕ) (z : Fin n → K) :
    (n = 0 → inftyNorm z = 0) ∧ (0 < n → ∃ i, inftyNorm z = |z i|) ∧ ∀ i, |z i| ≤ inftyNorm z := by
  refine ⟨?_, ?_, abs_le_inftyNorm z⟩
  · rintro rfl
    exact (inftyNorm_eq_zero_iff z).2 fun i => i.elim0
  · intro hn
    rcases foldl_max_mem (List.ofFn fun i => |z i|) 0 with h | h
    · refine ⟨⟨0, hn⟩, ?_⟩
      have h0 : inftyNorm z = 0 := h
      rw [h0, (inftyNorm_eq_zero_iff z).1 h0, abs_zero]
    · obtain ⟨i, hi⟩ := (List.mem_ofFn' _ _).1 h
      exact ⟨i, hi.symm⟩

/-- **C66, norm axioms**: it vanishes only at the zero vector, is absolutely homogeneous and satisfies the triangle inequality. -/
theorem C66_norm (n : ℕ) (z w : Fin n → K) (a : K) :
    (inftyNorm z = 0 ↔ z = 0) ∧ inftyNorm (fun i => a * z i) = |a| * inftyNorm z ∧
    inftyNorm (fun i => z i + w i) ≤ inftyNorm z + inftyNorm w := by
  refine ⟨?_, ?_, ?_⟩
  · rw [inftyNorm_eq_zero_iff]
    exact ⟨funext, fun h i => by rw [h]; rfl⟩
  · apply le_antisymm
    · refine (inftyNorm_le_iff _ _).2 ⟨mul_nonneg (abs_nonneg _) (inftyNorm_nonneg _), fun i => ?_⟩
      rw [abs_mul]
      exact mul_le_mul_of_nonneg_left (abs_le_inftyNorm z i) (abs_nonneg _)
    · by_cases hn : n = 0
      · subst hn
        rw [(C66_largest_entry 0 z).1 rfl, mul_zero]
        exact inftyNorm_nonneg _
      · obtain ⟨i, hi⟩ := (C66_largest_entry n z).2.1 (Nat.pos_of_ne_zero hn)
        rw [hi, ← abs_mul]
        exact abs_le_inftyNorm (fun i => a * z i) i
  · refine (inftyNorm_le_iff _ _).2 ⟨add_nonneg (inftyNorm_nonneg _) (inftyNorm_nonneg _), fun i => ?_⟩
    exact (abs_add_le _ _).trans (add_le_add (abs_le_inftyNorm z i) (abs_le_inftyNorm w i))

/-- **C66, lists of vectors**: no entry of any vector is larger in absolute value; the norm is attained by an entry, or is 0 and
then every entry of every vector vanishes. -/
theorem C66_list (zs : List (Σ n, Fin n → K)) :
    (∀ z ∈ zs, ∀ i, |z.2 i| ≤ inftyNormList zs) ∧
    ((∃ z ∈ zs, ∃ i, inftyNormList zs = |z.2 i|) ∨ inftyNormList zs = 0) ∧
    (inftyNormList zs = 0 ↔ ∀ z ∈ zs, ∀ i, z.2 i = 0) := by
  have hle : ∀ z ∈ zs, inftyNorm z.2 ≤ inftyNormList zs := fun z hz =>
    ((maxFold_le_iff _ _).1 (le_refl (inftyNormList zs))).2 _ (List.mem_map.2 ⟨z, hz, rfl⟩)
  have h1 : ∀ z ∈ zs, ∀ i, |z.2 i| ≤ inftyNormList zs := fun z hz i => (abs_le_inftyNorm z.2 i).trans (hle z hz)
  refine ⟨h1, ?_, ?_⟩
  · rcases foldl_max_mem (zs.map fun z => inftyNorm z.2) 0 with h | h
    · exact Or.inr h
    · obtain ⟨z, hz, he⟩ := List.mem_map.1 h
      have he : inftyNorm z.2 = inftyNormList zs := he
      by_cases hn : z.1 = 0
      · exact Or.inr (by rw [← he]; exact (C66_largest_entry _ z.2).1 hn)
      · obtain ⟨i, hi⟩ := (C66_largest_entry _ z.2).2.1 (Nat.pos_of_ne_zero hn)
        exact Or.inl ⟨z, hz, i, by rw [← he, hi]⟩
  · constructor
    · intro h z hz i
      have := h1 z hz i
      rw [h] at this
      exact abs_eq_zero.1 (le_antisymm this (abs_nonneg _))
    · intro h
      refine le_antisymm ((maxFold_le_iff _ _).2 ⟨le_rfl, fun x hx => ?_⟩) (maxFold_nonneg _)
      obtain ⟨z, hz, rfl⟩ := List.mem_map.1 hx
      exact le_of_eq ((inftyNorm_eq_zero_iff z.2).2 (h z hz))

/-- **C66, splitting**: the norm of the concatenation of two lists is the larger of the norms, so partial residuals may be
combined block by block. -/
theorem C66_append (zs ws : List (Σ n, Fin n → K)) :
    inftyNormList (zs ++ ws) = max (inftyNormList zs) (inftyNormList ws) := by
  refine le_antisymm ?_ ?_
  · refine (maxFold_le_iff _ _).2 ⟨le_max_of_le_left (maxFold_nonneg _), fun x hx => ?_⟩
    rw [List.map_append, List.mem_append] at hx
    rcases hx with hx | hx
    · exact le_max_of_le_left (((maxFold_le_iff _ _).1 le_rfl).2 x hx)
    · exact le_max_of_le_right (((maxFold_le_iff _ _).1 le_rfl).2 x hx)
  · refine max_le ?_ ?_ <;> refine (maxFold_le_iff _ _).2 ⟨maxFold_nonneg _, fun x hx => ?_⟩ <;>
      refine ((maxFold_le_iff _ _).1 le_rfl).2 x ?_ <;> rw [List.map_append, List.mem_append]
    · exact Or.inl hx
    · exact Or.inr hx

/-- **C66, finite-value check**: a vector is flagged exactly when some entry is not a finite number. -/
theorem C66_check (x : List (ExtScalar K)) :
    (checkValue x = true ↔ ∃ e ∈ x, e = .nan ∨ e = .posInf ∨ e = .negInf) ∧
    (checkValue x = false ↔ ∃ v : List K, x = v.map .fin) ∧
    (∀ e : ExtScalar K, checkScalar e = checkValue [e]) := by
  have h1 : checkValue x = true ↔ ∃ e ∈ x, e = .nan ∨ e = .posInf ∨ e = .negInf := by
    simp only [checkValue, Bool.or_eq_true, List.any_eq_true, Bool.not_eq_true', List.all_eq_false]
    constructor
    · rintro (⟨e, he, h⟩ | ⟨e, he, h⟩) <;> refine ⟨e, he, ?_⟩ <;> cases e <;> simp_all [ExtScalar.isNaN, ExtScalar.isFinite]
    · rintro ⟨e, he, h⟩
      exact Or.inr ⟨e, he, by rcases h with rfl | rfl | rfl <;> simp [ExtScalar.isFinite]⟩
  refine ⟨h1, ?_, fun e => by cases e <;> rfl⟩
  rw [← Bool.not_eq_true, h1]
  constructor
  · intro h
    push Not at h
    induction x with
    | nil => exact ⟨[], rfl⟩
    | cons e x ih =>
      obtain ⟨v, rfl⟩ := ih (by
        simp only [checkValue, Bool.or_eq_true, List.any_eq_true, Bool.not_eq_true', List.all_eq_false]
        constructor
        · rintro (⟨e, he, h⟩ | ⟨e, he, h⟩) <;> refine ⟨e, he, ?_⟩ <;> cases e <;> simp_all [ExtScalar.isNaN, ExtScalar.isFinite]
        · rintro ⟨e, he, h⟩
          exact Or.inr ⟨e, he, by rcases h with rfl | rfl | rfl <;> simp [ExtScalar.isFinite]⟩)
        fun e he => h e (List.mem_cons_of_mem _ he)
      have := h e (List.mem_cons_self ..)
      cases e with
      | fin a => exact ⟨a :: v, rfl⟩
      | nan => exact absurd rfl this.1
      | posInf => exact absurd rfl this.2.1
      | negInf => exact absurd rfl this.2.2
  · rintro ⟨v, rfl⟩ ⟨e, he, h⟩
    obtain ⟨a, _, rfl⟩ := List.mem_map.1 he
    rcases h with h | h | h <;> cases h

/-- **C66, closeness**: `scalar_close` is reflexive for a positive precision, symmetric, and never accepts unequal values at
precision 0. -/
theorem C66_close (a b prec : K) :
    (0 < prec → scalarClose a a prec = true) ∧ scalarClose a b prec = scalarClose b a prec ∧ scalarClose a b 0 = false := by
  refine ⟨fun h => ?_, ?_, ?_⟩
  · simp only [scalarClose, sub_self, abs_zero, decide_eq_true_eq]
    exact mul_pos h (add_pos_of_pos_of_nonneg one_pos (le_max_of_le_left (abs_nonneg _)))
  · simp only [scalarClose, abs_sub_comm a b, max_comm |a| |b|]
  · simp [scalarClose, abs_nonneg]

/-- non-vacuity -/
example : inftyNorm (![1, -5, 3] : Fin 3 → ℚ) = 5 ∧ inftyNormList [⟨2, (![1, -5] : Fin 2 → ℚ)⟩, ⟨0, ![]⟩, ⟨1, ![7]⟩] = 7 ∧
    checkValue [ExtScalar.fin (1 : ℚ), .nan] = true ∧ checkValue [ExtScalar.fin (1 : ℚ)] = false := by
  refine ⟨by decide +kernel, by decide +kernel, rfl, rfl⟩

end ProxNLP
