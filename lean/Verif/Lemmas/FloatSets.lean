import Verif.Spec.FloatSets
import Verif.Lemmas.FloatSolver
import Verif.Lemmas.FloatLinesearch
import Mathlib.Tactic.Linarith
import Mathlib.Tactic.Ring
import Mathlib.Tactic.Positivity
import Mathlib.Tactic.FieldSimp

/-! IEEE facts used for the set operators: subtraction of floating-point numbers, gradual underflow. -/

set_option linter.unusedSectionVars false

namespace ProxNLP

open Spec

theorem isFloat_neg {p : ℕ} {emin : ℤ} {y : ℚ} (h : IsFloat p emin y) : IsFloat p emin (-y) := by
  obtain ⟨k, e, he, hk, rfl⟩ := h
  exact ⟨-k, e, he, by rwa [abs_neg], by push_cast; ring⟩

theorem isFloat_abs {p : ℕ} {emin : ℤ} {y : ℚ} (h : IsFloat p emin y) : IsFloat p emin |y| := by
  rcases abs_choice y with e | e <;> rw [e]
  · exact h
  · exact isFloat_neg h

theorem isFloat_zero (p : ℕ) (emin : ℤ) : IsFloat p emin 0 := ⟨0, emin, le_rfl, by positivity, by simp⟩

/-- a floating-point number is a multiple of the smallest one -/
theorem isFloat_grid {p : ℕ} {emin : ℤ} {y : ℚ} (h : IsFloat p emin y) : ∃ k : ℤ, y = k * 2 ^ emin := by
  obtain ⟨k, e, he, -, rfl⟩ := h
  obtain ⟨q, hq⟩ := zpow_split he
  exact ⟨k * q, by rw [hq]; push_cast; ring⟩

theorem grid_sub {emin : ℤ} {x y : ℚ} (hx : ∃ k : ℤ, x = k * 2 ^ emin) (hy : ∃ k : ℤ, y = k * 2 ^ emin) : ∃ k : ℤ, x - y = k * 2 ^ emin := by
  obtain ⟨k, rfl⟩ := hx
  obtain ⟨l, rfl⟩ := hy
  exact ⟨k - l, by push_cast; ring⟩

theorem nearestEven_int (k : ℤ) : nearestEven (k : ℚ) = k := by
  have := nearestEven_nearest (k : ℚ) k
  simp only [sub_self, abs_zero] at this
  have h := sub_eq_zero.1 (abs_eq_zero.1 (le_antisymm this (abs_nonneg _)))
  exact_mod_cast h

/-- gradual underflow: a multiple of the smallest number is rounded with a relative error only -/
theorem ieeeRnd_grid_err (p : ℕ) (emin : ℤ) {x : ℚ} (h : ∃ k : ℤ, x = k * 2 ^ emin) : |ieeeRnd p emin x - x| ≤ (1 / 2) ^ p * |x| := by
  have hpos : ∀ z : ℤ, (0 : ℚ) < 2 ^ z := fun z => zpow_pos (by norm_num) z
  by_cases hx : x = 0
  · simp [hx, ieeeRnd_zero]
  obtain ⟨k, hk⟩ := h
  rcases le_total (Int.log 2 |x| - p + 1) emin with hl | hl
  · have hu : ulpExp p emin x = emin := max_eq_right hl
    have : ieeeRnd p emin x = x := by
      unfold ieeeRnd
      rw [hu]
      have e : x / 2 ^ emin = k := by rw [hk]; field_simp
      rw [e, nearestEven_int, ← hk]
    rw [this, sub_self, abs_zero]
    positivity
  · have hu : ulpExp p emin x = Int.log 2 |x| - p + 1 := max_eq_left hl
    have h1 : |ieeeRnd p emin x - x| ≤ 1 / 2 * 2 ^ (Int.log 2 |x| - p + 1) := by
      unfold ieeeRnd
      rw [hu]
      set E := Int.log 2 |x| - p + 1
      have e : (nearestEven (x / 2 ^ E) : ℚ) * 2 ^ E - x = ((nearestEven (x / 2 ^ E) : ℚ) - x / 2 ^ E) * 2 ^ E := by
        have := (hpos E).ne'
        field_simp
      rw [e, abs_mul, abs_of_pos (hpos E)]
      exact mul_le_mul_of_nonneg_right (nearestEven_err _) (hpos E).le
    have h2 : (2 : ℚ) ^ (Int.log 2 |x|) ≤ |x| := by
      have := Int.zpow_log_le_self (R := ℚ) (b := 2) (by norm_num) (abs_pos.2 hx)
      exact_mod_cast this
    refine h1.trans ?_
    have e2 : (1 / 2 : ℚ) * 2 ^ (Int.log 2 |x| - p + 1) = (1 / 2) ^ p * 2 ^ (Int.log 2 |x|) := by
      rw [zpow_add₀ (by norm_num), zpow_sub₀ (by norm_num), zpow_natCast, one_div, inv_pow]
      have : (2 : ℚ) ^ p ≠ 0 := by positivity
      field_simp
    rw [e2]
    exact mul_le_mul_of_nonneg_left h2 (by positivity)

/-- gradual underflow: the difference of two different numbers never rounds to zero -/
theorem ieeeRnd_grid_pos (p : ℕ) (hp : 0 < p) (emin : ℤ) {x : ℚ} (h : ∃ k : ℤ, x = k * 2 ^ emin) (hx : 0 < x) : 0 < ieeeRnd p emin x := by
  have h1 := ieeeRnd_grid_err p emin h
  have h2 : ((1 : ℚ) / 2) ^ p < 1 := pow_lt_one₀ (by norm_num) (by norm_num) hp.ne'
  rw [abs_of_pos hx] at h1
  have h3 := neg_le_abs (ieeeRnd p emin x - x)
  nlinarith

theorem ieeeRnd_grid_neg (p : ℕ) (hp : 0 < p) (emin : ℤ) {x : ℚ} (h : ∃ k : ℤ, x = k * 2 ^ emin) (hx : x < 0) : ieeeRnd p emin x < 0 := by
  have h1 := ieeeRnd_grid_err p emin h
  have h2 : ((1 : ℚ) / 2) ^ p < 1 := pow_lt_one₀ (by norm_num) (by norm_num) hp.ne'
  rw [abs_of_neg hx] at h1
  have h3 := le_abs_self (ieeeRnd p emin x - x)
  nlinarith

/-- Sterbenz: the difference of two numbers within a factor 2 of each other is a floating-point number -/
theorem isFloat_sub {p : ℕ} {emin : ℤ} {x y : ℚ} (hx : IsFloat p emin x) (hy : IsFloat p emin y) (hxy : x ≤ 2 * y) (hyx : y ≤ 2 * x) :
    IsFloat p emin (x - y) := by
  obtain ⟨k, e, he, hk, rfl⟩ := hx
  obtain ⟨l, f, hf, hl, rfl⟩ := hy
  rcases le_total f e with h | h
  · obtain ⟨q, hq⟩ := zpow_split h
    have h0 : (0 : ℚ) < 2 ^ f := zpow_pos (by norm_num) _
    rw [hq] at hxy hyx ⊢
    have e1 : (k : ℚ) * (q * 2 ^ f) - l * 2 ^ f = ((k * q - l : ℤ) : ℚ) * 2 ^ f := by push_cast; ring
    refine ⟨k * q - l, f, hf, ?_, e1⟩
    have a1 : (k : ℚ) * q ≤ 2 * l := by
      have : (k : ℚ) * q * 2 ^ f ≤ 2 * l * 2 ^ f := by linarith
      exact le_of_mul_le_mul_right this h0
    have a2 : (l : ℚ) ≤ 2 * (k * q) := by
      have : (l : ℚ) * 2 ^ f ≤ 2 * (k * q) * 2 ^ f := by linarith
      exact le_of_mul_le_mul_right this h0
    have b1 : k * q ≤ 2 * l := by exact_mod_cast a1
    have b2 : l ≤ 2 * (k * q) := by exact_mod_cast a2
    refine lt_of_le_of_lt ?_ hl
    rw [abs_le, abs_of_nonneg (by linarith : 0 ≤ l)]
    constructor <;> linarith
  · obtain ⟨q, hq⟩ := zpow_split h
    have h0 : (0 : ℚ) < 2 ^ e := zpow_pos (by norm_num) _
    rw [hq] at hxy hyx ⊢
    have e1 : (k : ℚ) * 2 ^ e - l * (q * 2 ^ e) = ((k - l * q : ℤ) : ℚ) * 2 ^ e := by push_cast; ring
    refine ⟨k - l * q, e, he, ?_, e1⟩
    have a1 : (k : ℚ) ≤ 2 * (l * q) := by
      have : (k : ℚ) * 2 ^ e ≤ 2 * (l * q) * 2 ^ e := by linarith
      exact le_of_mul_le_mul_right this h0
    have a2 : (l : ℚ) * q ≤ 2 * k := by
      have : (l : ℚ) * q * 2 ^ e ≤ 2 * k * 2 ^ e := by linarith
      exact le_of_mul_le_mul_right this h0
    have b1 : k ≤ 2 * (l * q) := by exact_mod_cast a1
    have b2 : l * q ≤ 2 * k := by exact_mod_cast a2
    refine lt_of_le_of_lt ?_ hk
    rw [abs_le, abs_of_nonneg (by linarith : 0 ≤ k)]
    constructor <;> linarith

/-! ### Doubles -/

theorem isDouble_max {x y : ℚ} (hx : IsDouble x) (hy : IsDouble y) : IsDouble (max x y) := by
  rcases max_choice x y with h | h <;> rw [h] <;> assumption

theorem isDouble_min {x y : ℚ} (hx : IsDouble x) (hy : IsDouble y) : IsDouble (min x y) := by
  rcases min_choice x y with h | h <;> rw [h] <;> assumption

theorem isDouble_signed {w : ℚ} (z : ℚ) (h : IsDouble w) : IsDouble (signK z * w) := by
  unfold signK
  split_ifs
  · rwa [one_mul]
  · rw [neg_one_mul]; exact isFloat_neg h
  · rw [zero_mul]; exact isFloat_zero _ _

theorem flProj_double (s : LeafSet ℚ) (i : ℕ) (hb : DoubleBounds s i) (mu z : ℚ) (hz : IsDouble z) : IsDouble (s.flProjAt binary64 mu i z) := by
  cases s with
  | equality => exact isFloat_zero _ _
  | negOrthant => exact isDouble_min hz (isFloat_zero _ _)
  | box lo hi => exact isDouble_max (isDouble_min hz hb.2.1) hb.1
  | l1 => exact isDouble_signed z (isDouble_max (ieeeRnd_isFloat 53 (by norm_num) _ _) (isFloat_zero _ _))

theorem validAt_of_bounds (s : LeafSet ℚ) (i : ℕ) (hb : DoubleBounds s i) : ValidAt s i := by
  cases s <;> simp_all [ValidAt, DoubleBounds]

/-- difference of two doubles -/
theorem b64_sub {x y : ℚ} (hx : IsDouble x) (hy : IsDouble y) : |binary64.rnd (x - y) - (x - y)| ≤ (1 / 2) ^ 53 * |x - y| ∧
    (x < y → binary64.rnd (x - y) < 0) ∧ (y < x → 0 < binary64.rnd (x - y)) := by
  have hg := grid_sub (isFloat_grid hx) (isFloat_grid hy)
  exact ⟨ieeeRnd_grid_err 53 _ hg, fun h => ieeeRnd_grid_neg 53 (by norm_num) _ hg (by linarith),
    fun h => ieeeRnd_grid_pos 53 (by norm_num) _ hg (by linarith)⟩

section general
variable {K : Type} [Field K] [LinearOrder K] [IsStrictOrderedRing K]

theorem Spec.MonoRounding.nonneg {R : Rounding K} (hR : MonoRounding R) {x : K} (h : 0 ≤ x) : 0 ≤ R.rnd x := by
  have := hR.mono 0 x h; rwa [hR.zero] at this

theorem Spec.MonoRounding.nonpos {R : Rounding K} (hR : MonoRounding R) {x : K} (h : x ≤ 0) : R.rnd x ≤ 0 := by
  have := hR.mono x 0 h; rwa [hR.zero] at this

/-- rounding a number keeps it in the normal cone -/
theorem inNormalCone_rnd (R : Rounding K) (hR : MonoRounding R) (row : LeafSet K × ℕ) (p v : K) (h : InNormalCone row p v) :
    InNormalCone row p (R.rnd v) := by
  intro y hy
  have h1 := h y hy
  rcases le_total 0 (y - p) with h2 | h2
  · rcases h2.eq_or_lt with h3 | h3
    · rw [← h3, mul_zero]
    · have : v ≤ 0 := by
        by_contra hc
        push Not at hc
        have := mul_pos hc h3
        linarith
      exact mul_nonpos_of_nonpos_of_nonneg (hR.nonpos this) h2
  · rcases h2.eq_or_lt with h3 | h3
    · rw [h3, mul_zero]
    · have : 0 ≤ v := by
        by_contra hc
        push Not at hc
        have := mul_pos_of_neg_of_neg hc h3
        linarith
      exact mul_nonpos_of_nonneg_of_nonpos (hR.nonneg this) h2

theorem inNormalCone_mul (row : LeafSet K × ℕ) (p v t : K) (ht : 0 ≤ t) (h : InNormalCone row p v) : InNormalCone row p (t * v) := by
  intro y hy
  have := mul_nonpos_of_nonneg_of_nonpos ht (h y hy)
  rwa [mul_assoc]

theorem flNormal_sub (R : Rounding K) (s : LeafSet K) (mu : K) (i : ℕ) (z : K) :
    |s.flNormalAt R mu i z - (z - s.flProjAt R mu i z)| ≤ R.u * |z - s.flProjAt R mu i z| + R.eta := by
  have h0 : ∀ w : K, 0 ≤ R.u * |w| + R.eta := fun w => by have := R.u_nonneg; have := R.eta_nonneg; positivity
  cases s with
  | equality => simpa [LeafSet.flNormalAt, LeafSet.flProjAt] using h0 z
  | negOrthant =>
    have : max z 0 - (z - min z 0) = 0 := by rcases le_total z 0 with h | h <;> simp [h]
    simp only [LeafSet.flNormalAt, LeafSet.flProjAt]
    rw [this, abs_zero]
    exact h0 _
  | box lo hi => exact R.err _
  | l1 => exact R.err _

end general

end ProxNLP
