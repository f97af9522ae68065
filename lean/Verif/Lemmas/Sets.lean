import Verif.Model.Sets
import Verif.Spec.Sets
import Mathlib.Tactic.Linarith
import Mathlib.Tactic.Ring
import Mathlib.Tactic.FieldSimp
import Mathlib.Tactic.NormNum
import Mathlib.Algebra.Order.BigOperators.Ring.Finset
import Mathlib.Algebra.BigOperators.Ring.Finset
import Mathlib.Tactic.Positivity

set_option linter.unusedSectionVars false

namespace ProxNLP

open Spec

variable {K : Type*} [Field K] [LinearOrder K] [IsStrictOrderedRing K]

/-- coordinate membership -/
def MemAt (s : LeafSet K) (i : ℕ) (y : K) : Prop :=
  match s with
  | .equality => y = 0
  | .negOrthant => y ≤ 0
  | .box lo hi => lo i ≤ y ∧ y ≤ hi i
  | .l1 => True

def ValidAt (s : LeafSet K) (i : ℕ) : Prop :=
  match s with
  | .box lo hi => lo i ≤ hi i
  | _ => True

def IndAt (s : LeafSet K) (i : ℕ) : Prop :=
  match s with
  | .box lo hi => lo i ≤ hi i
  | .l1 => False
  | _ => True

theorem mem_iff (s : LeafSet K) {n : ℕ} (y : Fin n → K) :
    Mem s y ↔ ∀ i : Fin n, MemAt s i (y i) := by
  cases s <;> simp [Mem, MemAt]

theorem indAt_of (s : LeafSet K) {n : ℕ} (h : IsIndicator s n) (i : Fin n) : IndAt s i := by
  cases s <;> simp_all [IsIndicator, IndAt]

theorem validAt_of (s : LeafSet K) {n : ℕ} (h : Valid s n) (i : Fin n) : ValidAt s i := by
  cases s <;> simp_all [Valid, ValidAt]

theorem valid_of_indicator (s : LeafSet K) {n : ℕ} (h : IsIndicator s n) : Valid s n := by
  cases s <;> simp_all [Valid, IsIndicator]

/-! ### sign and soft threshold -/

theorem signK_pos {x : K} (h : 0 < x) : signK x = 1 := by simp [signK, h]
theorem signK_neg {x : K} (h : x < 0) : signK x = -1 := by simp [signK, h, not_lt.mpr h.le]
theorem signK_zero : signK (0 : K) = 0 := by simp [signK]

/-- soft threshold, by cases (any `mu ≥ 0`) -/
theorem soft_cases (mu z : K) (hmu : 0 ≤ mu) :
    (z > mu ∧ signK z * max (|z| - mu) 0 = z - mu) ∨
    (z < -mu ∧ signK z * max (|z| - mu) 0 = z + mu) ∨
    (|z| ≤ mu ∧ signK z * max (|z| - mu) 0 = 0) := by
  rcases lt_trichotomy z 0 with h | h | h
  · rw [abs_of_neg h, signK_neg h]
    by_cases h2 : z < -mu
    · right; left; refine ⟨h2, ?_⟩
      rw [max_eq_left (by linarith)]; ring
    · right; right; refine ⟨by linarith, ?_⟩
      rw [max_eq_right (by linarith)]; ring
  · subst h; right; right; simp [signK_zero, hmu]
  · rw [abs_of_pos h, signK_pos h]
    by_cases h2 : z > mu
    · left; refine ⟨h2, ?_⟩
      rw [max_eq_left (by linarith)]; ring
    · right; right; refine ⟨by linarith, ?_⟩
      rw [max_eq_right (by linarith)]; ring

/-- box projection, by cases -/
theorem clamp_cases (lo hi z : K) (h : lo ≤ hi) :
    (hi < z ∧ max (min z hi) lo = hi) ∨ (z < lo ∧ max (min z hi) lo = lo) ∨
    (lo ≤ z ∧ z ≤ hi ∧ max (min z hi) lo = z) := by
  rcases lt_or_ge hi z with h1 | h1
  · left; exact ⟨h1, by rw [min_eq_right h1.le, max_eq_left h]⟩
  · rcases lt_or_ge z lo with h2 | h2
    · right; left; exact ⟨h2, by rw [min_eq_left h1, max_eq_right h2.le]⟩
    · right; right; exact ⟨h2, h1, by rw [min_eq_left h1, max_eq_left h2]⟩

/-! ### coordinate facts -/

theorem projAt_add_normalAt (s : LeafSet K) (mu : K) (i : ℕ) (z : K) :
    s.projAt mu i z + s.normalAt mu i z = z := by
  cases s <;> simp [LeafSet.projAt, LeafSet.normalAt]

theorem projAt_mem (s : LeafSet K) (mu : K) (i : ℕ) (z : K) (h : ValidAt s i) :
    MemAt s i (s.projAt mu i z) := by
  cases s <;> simp_all [MemAt, LeafSet.projAt, ValidAt]

/-- variational inequality of the projection in one coordinate -/
theorem normalAt_mul_le (s : LeafSet K) (mu : K) (i : ℕ) (z y : K) (h : IndAt s i)
    (hy : MemAt s i y) : s.normalAt mu i z * (y - s.projAt mu i z) ≤ 0 := by
  cases s with
  | equality => simp_all [MemAt, LeafSet.projAt, LeafSet.normalAt]
  | negOrthant =>
    simp only [MemAt, LeafSet.projAt, LeafSet.normalAt] at *
    rcases le_total z 0 with hz | hz
    · simp [max_eq_right hz]
    · rw [max_eq_left hz, min_eq_right hz]; nlinarith
  | box lo hi =>
    simp only [MemAt, LeafSet.projAt, LeafSet.normalAt, IndAt] at *
    rcases clamp_cases (lo i) (hi i) z h with ⟨h1, h2⟩ | ⟨h1, h2⟩ | ⟨_, _, h2⟩ <;> rw [h2]
    · nlinarith [hy.2]
    · nlinarith [hy.1]
    · simp
  | l1 => exact absurd h (by simp [IndAt])

theorem projAt_eq_self_iff (s : LeafSet K) (mu : K) (i : ℕ) (z : K) (h : IndAt s i) :
    s.projAt mu i z = z ↔ MemAt s i z := by
  cases s with
  | equality => simp [LeafSet.projAt, MemAt, eq_comm]
  | negOrthant => simp [LeafSet.projAt, MemAt]
  | box lo hi =>
    simp only [LeafSet.projAt, MemAt, IndAt] at *
    rcases clamp_cases (lo i) (hi i) z h with ⟨h1, h2⟩ | ⟨h1, h2⟩ | ⟨h0, h1, h2⟩ <;> rw [h2]
    · exact ⟨fun e => absurd e h1.ne, fun e => absurd e.2 (not_le.mpr h1)⟩
    · exact ⟨fun e => absurd e h1.ne', fun e => absurd e.1 (not_le.mpr h1)⟩
    · simp [h0, h1]
  | l1 => exact absurd h (by simp [IndAt])

theorem projAt_mono (s : LeafSet K) (mu : K) (hmu : 0 ≤ mu) (i : ℕ) (a b : K) (h : ValidAt s i)
    (hab : a ≤ b) : 0 ≤ s.projAt mu i b - s.projAt mu i a ∧
      s.projAt mu i b - s.projAt mu i a ≤ b - a := by
  cases s with
  | equality => simp [LeafSet.projAt, hab]
  | negOrthant =>
    simp only [LeafSet.projAt]
    rcases le_total a 0 with ha | ha <;> rcases le_total b 0 with hb | hb <;>
      simp only [min_eq_left, min_eq_right, ha, hb] <;> constructor <;> linarith
  | box lo hi =>
    simp only [LeafSet.projAt, ValidAt] at *
    rcases clamp_cases (lo i) (hi i) a h with ⟨h1, h2⟩ | ⟨h1, h2⟩ | ⟨h0, h1, h2⟩ <;>
    rcases clamp_cases (lo i) (hi i) b h with ⟨h1', h2'⟩ | ⟨h1', h2'⟩ | ⟨h0', h1', h2'⟩ <;>
    rw [h2, h2'] <;> constructor <;> linarith
  | l1 =>
    simp only [LeafSet.projAt]
    rcases soft_cases mu a hmu with ⟨h1, h2⟩ | ⟨h1, h2⟩ | ⟨h1, h2⟩ <;>
    rcases soft_cases mu b hmu with ⟨h1', h2'⟩ | ⟨h1', h2'⟩ | ⟨h1', h2'⟩ <;>
    rw [h2, h2'] <;> (try rw [abs_le] at h1) <;> (try rw [abs_le] at h1') <;>
    constructor <;> linarith [h1, h1']

theorem projAt_nonexp (s : LeafSet K) (mu : K) (hmu : 0 ≤ mu) (i : ℕ) (a b : K) (h : ValidAt s i) :
    |s.projAt mu i a - s.projAt mu i b| ≤ |a - b| := by
  rcases le_total a b with hab | hab
  · obtain ⟨h1, h2⟩ := projAt_mono s mu hmu i a b h hab
    rw [abs_sub_comm, abs_of_nonneg h1, abs_sub_comm, abs_of_nonneg (by linarith)]; exact h2
  · obtain ⟨h1, h2⟩ := projAt_mono s mu hmu i b a h hab
    rw [abs_of_nonneg h1, abs_of_nonneg (by linarith)]; exact h2

/-- soft threshold minimises, in one coordinate -/
theorem soft_min (mu z y : K) (hmu : 0 < mu) :
    |signK z * max (|z| - mu) 0| + (1 / 2) * (1 / mu) * (z - signK z * max (|z| - mu) 0) ^ 2
      ≤ |y| + (1 / 2) * (1 / mu) * (z - y) ^ 2 := by
  have key : mu * |signK z * max (|z| - mu) 0| + (1 / 2) * (z - signK z * max (|z| - mu) 0) ^ 2
      ≤ mu * |y| + (1 / 2) * (z - y) ^ 2 := by
    rcases soft_cases mu z hmu.le with ⟨h1, h2⟩ | ⟨h1, h2⟩ | ⟨h1, h2⟩ <;> rw [h2]
    · rw [abs_of_pos (by linarith)]
      nlinarith [le_abs_self y, sq_nonneg (z - mu - y)]
    · rw [abs_of_neg (by linarith)]
      nlinarith [neg_abs_le y, sq_nonneg (z + mu - y)]
    · rw [abs_le] at h1
      simp only [abs_zero, mul_zero, sub_zero, zero_add]
      rcases abs_cases y with ⟨h3, h4⟩ | ⟨h3, h4⟩ <;> rw [h3] <;> nlinarith [sq_nonneg y]
  have := mul_le_mul_of_nonneg_left key (le_of_lt (inv_pos.mpr hmu))
  have e : ∀ a b : K, mu⁻¹ * (mu * a + (1 / 2) * b) = a + (1 / 2) * (1 / mu) * b := by
    intro a b; field_simp
  rwa [e, e] at this

/-- the scaled remainder of the soft threshold is a subgradient, in one coordinate -/
theorem soft_subgrad (mu z y : K) (hmu : 0 < mu) :
    |signK z * max (|z| - mu) 0| + (z - signK z * max (|z| - mu) 0) / mu *
      (y - signK z * max (|z| - mu) 0) ≤ |y| := by
  rcases soft_cases mu z hmu.le with ⟨h1, h2⟩ | ⟨h1, h2⟩ | ⟨h1, h2⟩ <;> rw [h2]
  · rw [abs_of_pos (by linarith), show (z - (z - mu)) / mu = 1 by field_simp; ring]
    linarith [le_abs_self y]
  · rw [abs_of_neg (by linarith), show (z - (z + mu)) / mu = -1 by field_simp; ring]
    linarith [neg_abs_le y]
  · rw [abs_le] at h1
    simp only [abs_zero, sub_zero, zero_add]
    have ha : z / mu ≤ 1 := by rw [div_le_one hmu]; linarith
    have hb : -1 ≤ z / mu := by rw [le_div_iff₀ hmu]; linarith
    rcases abs_cases y with ⟨h3, h4⟩ | ⟨h3, h4⟩ <;> rw [h3] <;> nlinarith

end ProxNLP
