import Verif.Lemmas.FloatSets

/-!
Rounding is odd, and distinct doubles keep a relative distance.
-/

namespace ProxNLP
open Spec

theorem nearestEven_neg (y : ℚ) : nearestEven (-y) = -nearestEven y := by
  by_cases h : (⌊y⌋ : ℚ) = y
  · rw [← h, nearestEven_int, ← nearestEven_int (-⌊y⌋)]
    push_cast
    rfl
  · have h1 := Int.floor_le y
    have h2 := Int.lt_floor_add_one y
    have h3 : (⌊y⌋ : ℚ) < y := lt_of_le_of_ne h1 h
    have hf : ⌊-y⌋ = -⌊y⌋ - 1 := by
      rw [Int.floor_eq_iff]
      push_cast
      constructor <;> linarith
    unfold nearestEven
    simp only [hf]
    push_cast
    split_ifs <;> first | omega | (exfalso; linarith)

theorem ieeeRnd_neg (p : ℕ) (emin : ℤ) (x : ℚ) : ieeeRnd p emin (-x) = -ieeeRnd p emin x := by
  have : ulpExp p emin (-x) = ulpExp p emin x := by simp [ulpExp]
  unfold ieeeRnd
  rw [this, neg_div, nearestEven_neg]
  push_cast
  ring

theorem b64_neg (x : ℚ) : binary64.rnd (-x) = -binary64.rnd x := ieeeRnd_neg _ _ _

theorem b64_id {x : ℚ} (h : IsDouble x) : binary64.rnd x = x := ieeeRnd_float 53 (by norm_num) _ h

theorem b64_double (x : ℚ) : IsDouble (binary64.rnd x) := ieeeRnd_isFloat 53 (by norm_num) _ x

theorem b64_mono {x y : ℚ} (h : x ≤ y) : binary64.rnd x ≤ binary64.rnd y := ieeeRnd_mono 53 (by norm_num) _ h

/-- sum of two doubles -/
theorem b64_add {x y : ℚ} (hx : IsDouble x) (hy : IsDouble y) : |binary64.rnd (x + y) - (x + y)| ≤ (1 / 2) ^ 53 * |x + y| := by
  have := (b64_sub hx (isFloat_neg hy)).1
  rwa [sub_neg_eq_add] at this

/-- distinct doubles are at least the relative distance `2⁻⁵³` apart -/
theorem double_gap {x r : ℚ} (hx : IsDouble x) (hr : IsDouble r) (hne : r ≠ x) : (1 / 2) ^ 53 * |x| ≤ |r - x| := by
  obtain ⟨k, e, -, hk, rfl⟩ := hx
  obtain ⟨l, f, -, hl, rfl⟩ := hr
  have hk' : |(k : ℚ)| < 2 ^ 53 := by exact_mod_cast hk
  have hl' : |(l : ℚ)| ≤ 2 ^ 53 - 1 := by
    have : |l| ≤ 2 ^ 53 - 1 := by omega
    exact_mod_cast this
  rcases le_total e f with h | h
  · obtain ⟨q, hq⟩ := zpow_split h
    have h0 : (0 : ℚ) < 2 ^ e := zpow_pos (by norm_num) _
    rw [hq] at hne ⊢
    have e1 : (l : ℚ) * (q * 2 ^ e) - k * 2 ^ e = ((l * q - k : ℤ) : ℚ) * 2 ^ e := by push_cast; ring
    have h1 : (1 : ℚ) ≤ |((l * q - k : ℤ) : ℚ)| := by
      have : 1 ≤ |l * q - k| := Int.one_le_abs fun hc => hne (by
        have : ((l * q - k : ℤ) : ℚ) = 0 := by exact_mod_cast hc
        rw [this, zero_mul] at e1
        linarith)
      exact_mod_cast this
    rw [e1, abs_mul, abs_mul, abs_of_pos h0, ← mul_assoc]
    refine mul_le_mul_of_nonneg_right ?_ h0.le
    linarith
  · obtain ⟨q, hq⟩ := zpow_split h
    have h0 : (0 : ℚ) < 2 ^ f := zpow_pos (by norm_num) _
    rw [hq] at hne ⊢
    have e1 : (l : ℚ) * 2 ^ f - k * (q * 2 ^ f) = ((l - k * q : ℤ) : ℚ) * 2 ^ f := by push_cast; ring
    have e2 : (k : ℚ) * (q * 2 ^ f) = ((k * q : ℤ) : ℚ) * 2 ^ f := by push_cast; ring
    have h1 : (1 : ℚ) ≤ |((l - k * q : ℤ) : ℚ)| := by
      have : 1 ≤ |l - k * q| := Int.one_le_abs fun hc => hne (by
        have : ((l - k * q : ℤ) : ℚ) = 0 := by exact_mod_cast hc
        rw [this, zero_mul] at e1
        linarith)
      exact_mod_cast this
    rw [e1, e2, abs_mul, abs_mul, abs_of_pos h0, ← mul_assoc]
    refine mul_le_mul_of_nonneg_right ?_ h0.le
    rcases le_total |((k * q : ℤ) : ℚ)| (2 ^ 53) with h2 | h2
    · refine le_trans ?_ h1
      linarith
    · have h3 : |((k * q : ℤ) : ℚ)| ≤ |(l : ℚ)| + |((l - k * q : ℤ) : ℚ)| := by
        have := abs_sub (l : ℚ) ((l - k * q : ℤ) : ℚ)
        have e3 : (l : ℚ) - ((l - k * q : ℤ) : ℚ) = ((k * q : ℤ) : ℚ) := by push_cast; ring
        rwa [e3] at this
      linarith

end ProxNLP
