import Verif.Spec.InfBox
import Verif.Props.ExtSolver
import Mathlib.Data.Fin.VecNotation
import Mathlib.Tactic.FinCases
import Mathlib.Tactic.NormNum
import Mathlib.Algebra.Order.BigOperators.Group.Finset

/-! Property theorems for C99: boxes with infinite, crossing or NaN bounds. -/

set_option linter.unusedSectionVars false
namespace ProxNLP

open ExtScalar Spec

section general
variable {K : Type} [Field K] [LinearOrder K] [IsStrictOrderedRing K] {n : ℕ}

theorem belowOf_iff (a : ExtScalar K) (q : K) : BelowOf a q ↔ le a (fin q) = true := by
  cases a <;> simp [BelowOf, le]

theorem aboveOf_iff (a : ExtScalar K) (q : K) : AboveOf a q ↔ le (fin q) a = true := by
  cases a <;> simp [AboveOf, le]

theorem inBox_iff (b : ExtBox K n) (q : Fin n → K) : InBox b q ↔ ∀ i, ExtMem (.box (b.lower i) (b.upper i)) (q i) := by
  simp only [InBox, ExtMem, belowOf_iff, aboveOf_iff]

/-- one row, for a nonempty box -/
theorem infBox_row (b : ExtBox K n) (hne : ∃ q, InBox b q) (z : Fin n → K) : ∃ p : Fin n → K, (b.projection z = fun i => fin (p i)) ∧
    InBox b p ∧ ∀ q, InBox b q → ∀ i, (z i - p i) * (q i - p i) ≤ 0 := by
  obtain ⟨q, hq⟩ := hne
  rw [inBox_iff] at hq
  choose p h1 h2 h3 using fun i => ext_box_proj (b.lower i) (b.upper i) (z i) (q i) (hq i).1 (hq i).2
  exact ⟨p, funext h1, (inBox_iff _ _).2 h2, fun q hq i => h3 i (q i) ((inBox_iff _ _).1 hq i)⟩

/-- **C99, projection**: for a nonempty box whose bounds may be infinite, the projection of every vector is a finite vector of the box,
and it is the nearest one. -/
theorem C99_projection (b : ExtBox K n) (hne : ∃ q, InBox b q) (z : Fin n → K) :
    ∃ p : Fin n → K, (b.projection z = fun i => fin (p i)) ∧ InBox b p ∧
      ∀ q, InBox b q → ∑ i, (z i - p i) ^ 2 + ∑ i, (q i - p i) ^ 2 ≤ ∑ i, (z i - q i) ^ 2 := by
  obtain ⟨p, h1, h2, h3⟩ := infBox_row b hne z
  refine ⟨p, h1, h2, fun q hq => ?_⟩
  rw [← Finset.sum_add_distrib]
  refine Finset.sum_le_sum fun i _ => ?_
  have := h3 q hq i
  nlinarith

/-- **C99, normal cone**: the normal part is the difference to the projection, a finite vector in the normal cone of the box at the
projection; a coordinate without upper (lower) bound has a nonpositive (nonnegative) entry, one without bounds has entry 0. -/
theorem C99_normal (b : ExtBox K n) (hne : ∃ q, InBox b q) (z : Fin n → K) :
    ∃ p v : Fin n → K, (b.projection z = fun i => fin (p i)) ∧ (b.normal z = fun i => fin (v i)) ∧ (∀ i, v i = z i - p i) ∧
      (∀ q, InBox b q → ∑ i, v i * (q i - p i) ≤ 0) ∧
      ∀ i, (b.upper i = posInf → v i ≤ 0) ∧ (b.lower i = negInf → 0 ≤ v i) := by
  obtain ⟨p, h1, h2, h3⟩ := infBox_row b hne z
  refine ⟨p, fun i => z i - p i, h1, ?_, fun i => rfl, fun q hq => Finset.sum_nonpos fun i _ => h3 q hq i, fun i => ?_⟩
  · funext i
    show fin (z i) - b.projection z i = _
    rw [h1, ext_fin_sub]
  · -- move the projection outwards in one coordinate
    have move : ∀ t : K, BelowOf (b.lower i) t → AboveOf (b.upper i) t → (z i - p i) * (t - p i) ≤ 0 := by
      intro t ht1 ht2
      have := h3 (Function.update p i t) (fun j => by
        by_cases hj : j = i
        · subst hj; rw [Function.update_self]; exact ⟨ht1, ht2⟩
        · rw [Function.update_of_ne hj]; exact h2 j) i
      rwa [Function.update_self] at this
    constructor
    · intro hu
      have := move (p i + 1) (by
        have := (h2 i).1
        cases hl : b.lower i <;> rw [hl] at this <;> simp only [BelowOf] at this ⊢
        exact this.trans (by linarith)) (by rw [hu]; trivial)
      simpa using this
    · intro hl
      have := move (p i - 1) (by rw [hl]; trivial) (by
        have := (h2 i).2
        cases hu : b.upper i <;> rw [hu] at this <;> simp only [AboveOf] at this ⊢
        exact le_trans (by linarith) this)
      simp only [sub_sub_cancel_left] at this
      linarith

/-- **C99, active set**: a coordinate is reported active exactly if it is outside its bounds; the masked Jacobians keep the rows
accordingly. -/
theorem C99_active (b : ExtBox K n) (hne : ∃ q, InBox b q) (z : Fin n → K) (i : Fin n) :
    (b.active z i = true ↔ ¬ (BelowOf (b.lower i) (z i) ∧ AboveOf (b.upper i) (z i))) ∧
    ∀ {C : Type} (J : Fin n → C → K) (c : C),
      b.applyProjectionJacobian z J i c + b.applyNormalJacobian z J i c = J i c ∧
      (BelowOf (b.lower i) (z i) ∧ AboveOf (b.upper i) (z i) → b.applyProjectionJacobian z J i c = J i c) ∧
      (¬ (BelowOf (b.lower i) (z i) ∧ AboveOf (b.upper i) (z i)) → b.applyProjectionJacobian z J i c = 0) := by
  obtain ⟨q, hq⟩ := hne
  obtain ⟨hq1, hq2⟩ := hq i
  have key : b.active z i = true ↔ ¬ (BelowOf (b.lower i) (z i) ∧ AboveOf (b.upper i) (z i)) := by
    show (lt (b.upper i) (fin (z i)) || lt (fin (z i)) (b.lower i)) = true ↔ _
    revert hq1 hq2
    cases b.lower i <;> cases b.upper i <;> simp [BelowOf, AboveOf, lt, imp_iff_not_or, or_comm]
  refine ⟨key, fun J c => ⟨?_, ?_, ?_⟩⟩
  · unfold ExtBox.applyProjectionJacobian ExtBox.applyNormalJacobian
    cases b.active z i <;> simp
  · intro h
    have : b.active z i = false := by
      cases ha : b.active z i
      · rfl
      · exact absurd h (key.1 ha)
    simp [ExtBox.applyProjectionJacobian, this]
  · intro h
    simp [ExtBox.applyProjectionJacobian, key.2 h]

/-- **C99, half line**: the box `(-∞, 0]` is the negative orthant, for all operations. -/
theorem C99_half_line (mu : K) (z : ExtScalar K) (hz : z ≠ nan) :
    (ExtSet.box negInf (fin 0)).proj mu z = ExtSet.negOrthant.proj mu z ∧
    (ExtSet.box negInf (fin 0)).active mu z = ExtSet.negOrthant.active mu z ∧
    (z ≠ negInf → (ExtSet.box negInf (fin 0)).normal mu z = ExtSet.negOrthant.normal mu z) := by
  cases z with
  | nan => exact absurd rfl hz
  | posInf => exact ⟨rfl, rfl, fun _ => rfl⟩
  | negInf => exact ⟨rfl, rfl, fun h => absurd rfl h⟩
  | fin a =>
    by_cases h : 0 < a
    · refine ⟨by simp [ExtSet.proj, stdMin, stdMax, lt, h], by simp [ExtSet.active, lt], fun _ => ?_⟩
      have : ¬ a < 0 := not_lt.2 h.le
      simp [ExtSet.normal, stdMin, stdMax, lt, h, this]
    · refine ⟨by simp [ExtSet.proj, stdMin, stdMax, lt, h], by simp [ExtSet.active, lt], fun _ => ?_⟩
      rcases (not_lt.1 h).lt_or_eq with h' | h'
      · simp [ExtSet.normal, stdMin, stdMax, lt, h, h']
      · simp [ExtSet.normal, stdMin, stdMax, lt, h']

/-- **C99, no bounds**: a row with both bounds infinite is no constraint: it is its own projection, has multiplier 0 and is never active. -/
theorem C99_no_bounds (b : ExtBox K n) (z : Fin n → K) (i : Fin n) (hl : b.lower i = negInf) (hu : b.upper i = posInf) :
    b.projection z i = fin (z i) ∧ b.normal z i = fin 0 ∧ b.active z i = false := by
  simp [ExtBox.projection, ExtBox.normal, ExtBox.active, ExtSet.proj, ExtSet.normal, ExtSet.active, hl, hu, stdMin, stdMax, lt]

/-- **C99 is false of crossing bounds**: if lower > upper in one coordinate the box is empty, but the operations are those of the
equality constraint `z = lower`: the upper bound is ignored and nothing is reported. -/
theorem C99_crossed_false (b : ExtBox K n) (z : Fin n → K) (i : Fin n) (l u : K) (hl : b.lower i = fin l) (hu : b.upper i = fin u)
    (h : u < l) : (¬ ∃ q, InBox b q) ∧ b.projection z i = fin l ∧ b.normal z i = fin (z i - l) ∧ b.active z i = true := by
  refine ⟨?_, ?_⟩
  · rintro ⟨q, hq⟩
    have := hq i
    rw [hl, hu] at this
    exact absurd (lt_of_lt_of_le h this.1) (not_lt.2 this.2)
  · have key : stdMax (stdMin (fin (z i)) (fin u)) (fin l) = fin l := by
      by_cases h1 : u < z i
      · simp [stdMin, stdMax, lt, h1, h]
      · have : z i < l := lt_of_le_of_lt (not_lt.1 h1) h
        simp [stdMin, stdMax, lt, h1, this]
    simp only [ExtBox.projection, ExtBox.normal, ExtBox.active, ExtSet.proj, ExtSet.normal, ExtSet.active, hl, hu, key, ext_fin_sub,
      true_and, lt]
    by_cases h1 : u < z i
    · simp [h1]
    · simp [lt_of_le_of_lt (not_lt.1 h1) h]

/-- **C99 is false of NaN bounds**: a NaN bound is silently treated as no bound. -/
theorem C99_nan_bound_false (mu : K) (z : K) (a : ExtScalar K) :
    (ExtSet.box nan a).proj mu (fin z) = (ExtSet.box negInf a).proj mu (fin z) ∧
    (ExtSet.box a nan).proj mu (fin z) = (ExtSet.box a posInf).proj mu (fin z) ∧
    (ExtSet.box nan a).active mu (fin z) = (ExtSet.box negInf a).active mu (fin z) ∧
    (ExtSet.box a nan).active mu (fin z) = (ExtSet.box a posInf).active mu (fin z) := by
  refine ⟨?_, ?_, ?_, ?_⟩
  · cases a <;> simp [ExtSet.proj, stdMin, stdMax, lt]
    split_ifs <;> first | rfl | contradiction
  · simp [ExtSet.proj, stdMin, stdMax, lt]
  · simp [ExtSet.active, lt]
  · simp [ExtSet.active, lt]

/-- **C99, finite data**: on numbers, with finite bounds, the operations are those of the sets of C01-C06. -/
theorem C99_agrees (s : LeafSet K) (i : ℕ) (mu z : K) :
    (extLeaf (s, i)).proj mu (fin z) = fin (s.projAt mu i z) ∧ (extLeaf (s, i)).normal mu (fin z) = fin (s.normalAt mu i z) ∧
    (extLeaf (s, i)).active mu (fin z) = s.activeAt mu i z := by
  refine ⟨ext_leaf_proj (s, i) mu z, ext_leaf_normal (s, i) mu z, ?_⟩
  cases s with
  | equality => rfl
  | negOrthant => rfl
  | box lo hi => rfl
  | l1 =>
    simp only [extLeaf, ExtSet.active, LeafSet.activeAt, ExtScalar.abs, le]

end general

/-! ### Concrete cases -/

deriving instance DecidableEq for ExtScalar

namespace Demo

/-- `0 ≤ x₀`, `x₁ ≤ 2`, `x₂` free, `1 ≤ x₃ ≤ 3` -/
def infBox : ExtBox ℚ 4 := ⟨![fin 0, negInf, negInf, fin 1], ![posInf, fin 2, posInf, fin 3]⟩

end Demo

open Demo

/-- the hypothesis of `C99_projection`, `C99_normal`, `C99_active` is met -/
example : ∃ q, InBox infBox q :=
  ⟨![0, 0, 0, 1], fun i => by fin_cases i <;> simp [infBox, BelowOf, AboveOf]⟩

/-- and the operations on a vector outside: projections, normal parts, active set -/
example : infBox.projection ![-1, 5, 7, 0] = ![fin 0, fin 2, fin 7, fin 1] ∧
    infBox.normal ![-1, 5, 7, 0] = ![fin (-1), fin 3, fin 0, fin (-1)] ∧
    infBox.active ![-1, 5, 7, 0] = ![true, true, false, true] := by
  refine ⟨?_, ?_, ?_⟩ <;> funext i <;> fin_cases i <;> decide +kernel

/-- crossing bounds occur: the constructor accepts `lower = 1`, `upper = 0` -/
example : (⟨fun _ => fin 1, fun _ => fin 0⟩ : ExtBox ℚ 1).projection (fun _ => 5) 0 = fin 1 :=
  (C99_crossed_false ⟨fun _ => fin 1, fun _ => fin 0⟩ (fun _ => 5) 0 1 0 rfl rfl (by norm_num)).2.1

/-- **C99, crossing bounds in a solve**: the problem has no feasible point (lower bound 3, upper bound 1), and `solve` returns
SUCCESS. -/
theorem C99_crossed_success_false : (¬ ∃ q : Fin 1 → ℚ, InBox ⟨fun _ => fin 3, fun _ => fin 1⟩ q) ∧
    ∃ st', extSolve (extConst (fin 0) ![fin 3] fun _ => .box (fin 3) (fin 1)) extSettings (extState 1) () (fun _ => fin 0) = some st' ∧
      st'.converged = .success := by
  refine ⟨(C99_crossed_false ⟨fun _ => fin 3, fun _ => fin 1⟩ (fun _ => 0) 0 3 1 rfl rfl (by norm_num)).1, ?_⟩
  obtain ⟨st', h1, h2, -⟩ := extSolve_first (extConst (fin 0) ![fin 3] fun _ => .box (fin 3) (fin 1)) extSettings (by decide) (by decide)
    (extState 1) () (fun _ => fin 0) _ rfl (by decide +kernel) rfl (by decide +kernel)
  exact ⟨st', h1, h2⟩

end ProxNLP
