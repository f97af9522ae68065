import Verif.Model.ExtSolver
import Mathlib.Data.EReal.Operations

/-! C98: the scalars of `Model/ExtSolver.lean` follow the rules of IEEE 754 for special values, stated through Mathlib's extended reals. -/

namespace ProxNLP

open ExtScalar

namespace Spec

/-- the extended real denoted by a scalar that is not NaN -/
noncomputable def ereal : ExtScalar ℝ → EReal
  | fin a => (a : EReal)
  | posInf => ⊤
  | negInf => ⊥
  | nan => 0

end Spec

open Spec

/-- **C98, arithmetic**: the sum is NaN exactly for a NaN operand or two opposite infinities, the product exactly for a NaN operand or
zero times an infinity; otherwise they are sum and product of extended reals.  A comparison with a NaN is false, the others are those
of extended reals. -/
theorem C98_arithmetic (a b : ExtScalar ℝ) :
    (a + b = nan ↔ a = nan ∨ b = nan ∨ (a = posInf ∧ b = negInf) ∨ (a = negInf ∧ b = posInf)) ∧
    (a + b ≠ nan → ereal (a + b) = ereal a + ereal b) ∧
    (a * b = nan ↔ a = nan ∨ b = nan ∨ (a = fin 0 ∧ (b = posInf ∨ b = negInf)) ∨ ((a = posInf ∨ a = negInf) ∧ b = fin 0)) ∧
    (a * b ≠ nan → ereal (a * b) = ereal a * ereal b) ∧
    a - b = a + -b ∧ (-a = nan ↔ a = nan) ∧ ereal (-a) = -ereal a ∧
    (lt a b = true ↔ a ≠ nan ∧ b ≠ nan ∧ ereal a < ereal b) ∧ (le a b = true ↔ a ≠ nan ∧ b ≠ nan ∧ ereal a ≤ ereal b) ∧
    (ExtScalar.abs a = nan ↔ a = nan) ∧ (a ≠ nan → ereal (ExtScalar.abs a) = max (ereal a) (-ereal a)) := by
  have hadd : a + b = ExtScalar.add a b := rfl
  have hmul : a * b = ExtScalar.mul a b := rfl
  have hneg : -a = ExtScalar.neg a := rfl
  rw [hadd, hmul, hneg]
  refine ⟨?_, ?_, ?_, ?_, rfl, ?_, ?_, ?_, ?_, ?_, ?_⟩
  · cases a <;> cases b <;> simp [ExtScalar.add]
  · cases a <;> cases b <;> simp [ExtScalar.add, ereal]
  · cases a <;> cases b <;> simp [ExtScalar.mul, infTimes] <;> split_ifs <;> simp_all
  · cases a <;> cases b <;> simp [ExtScalar.mul, infTimes, ereal]
    all_goals
      intro h0
      rcases lt_or_gt_of_ne h0 with h | h
      · simp [h0, h, not_lt.2 h.le, EReal.coe_mul_top_of_neg, EReal.coe_mul_bot_of_neg, EReal.top_mul_coe_of_neg, EReal.bot_mul_coe_of_neg]
      · simp [h0, h, not_lt.2 h.le, EReal.coe_mul_top_of_pos, EReal.coe_mul_bot_of_pos, EReal.top_mul_coe_of_pos, EReal.bot_mul_coe_of_pos]
  · cases a <;> simp [ExtScalar.neg]
  · cases a <;> simp [ExtScalar.neg, ereal]
  · cases a <;> cases b <;> simp [lt, ereal]
  · cases a <;> cases b <;> simp [le, ereal]
  · cases a <;> simp [ExtScalar.abs]
  · cases a <;> simp [ExtScalar.abs, ereal]
    rw [abs_eq_max_neg, ← EReal.coe_neg]
    exact EReal.coe_strictMono.monotone.map_max

end ProxNLP
