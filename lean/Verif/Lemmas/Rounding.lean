import Verif.Model.Rounding
import Verif.Spec.Rounding
import Mathlib.Algebra.Order.Field.Rat
import Mathlib.Algebra.Order.Ring.Rat
import Mathlib.Data.Rat.Floor
import Mathlib.Tactic.Linarith
import Mathlib.Tactic.Ring
import Mathlib.Tactic.FieldSimp
import Mathlib.Tactic.NormNum
import Mathlib.Tactic.Positivity
import Mathlib.Algebra.BigOperators.Group.List.Basic

/-! Error bounds of rounded sums, and IEEE rounding as an instance of the standard model. -/

set_option linter.unusedSectionVars false
namespace ProxNLP

section
variable {K : Type} [Field K] [LinearOrder K] [IsStrictOrderedRing K] {I : Type}

/-- value of a term -/
def termVal (g : K) (f : I → K × K) : Option I → K
  | none => g
  | some i => (f i).1 * (f i).2

/-- the exact sum of the terms -/
def SumTree.exact (g : K) (f : I → K × K) (t : SumTree I) : K := (t.terms.map (termVal g f)).sum

/-- the sum of the absolute values -/
def SumTree.absSum (g : K) (f : I → K × K) (t : SumTree I) : K := (t.terms.map fun o => |termVal g f o|).sum

theorem absSum_nonneg (g : K) (f : I → K × K) (t : SumTree I) : 0 ≤ t.absSum g f := by
  apply List.sum_nonneg
  intro x hx
  obtain ⟨o, -, rfl⟩ := List.mem_map.1 hx
  exact abs_nonneg _

theorem abs_exact_le (g : K) (f : I → K × K) (t : SumTree I) : |t.exact g f| ≤ t.absSum g f := by
  unfold SumTree.exact SumTree.absSum
  induction t.terms with
  | nil => simp
  | cons a l ih =>
    simp only [List.map_cons, List.sum_cons]
    exact (abs_add_le _ _).trans (by linarith)

theorem exact_add (g : K) (f : I → K × K) (s t : SumTree I) : (SumTree.add s t).exact g f = s.exact g f + t.exact g f := by
  simp [SumTree.exact, SumTree.terms]

theorem absSum_add (g : K) (f : I → K × K) (s t : SumTree I) : (SumTree.add s t).absSum g f = s.absSum g f + t.absSum g f := by
  simp [SumTree.absSum, SumTree.terms]

theorem exact_fma (g : K) (f : I → K × K) (i : I) (t : SumTree I) :
    (SumTree.fma i t).exact g f = (f i).1 * (f i).2 + t.exact g f := by
  simp [SumTree.exact, SumTree.terms, termVal]

theorem absSum_fma (g : K) (f : I → K × K) (i : I) (t : SumTree I) :
    (SumTree.fma i t).absSum g f = |(f i).1 * (f i).2| + t.absSum g f := by
  simp [SumTree.absSum, SumTree.terms, termVal]

/-- one more rounding: if `v` is within `(G - 1) A + N η G` of `e`, then `rnd v` is within `((1+u)G - 1) A + (N+1) η (1+u) G` -/
theorem rnd_step (R : Rounding K) {v e A G N : K} (hA : |e| ≤ A) (hG : 1 ≤ G) (h : |v - e| ≤ (G - 1) * A + N * R.eta * G) :
    |R.rnd v - e| ≤ ((1 + R.u) * G - 1) * A + (N + 1) * R.eta * ((1 + R.u) * G) := by
  have h1 := R.err v
  have h2 : |v| ≤ |v - e| + |e| := by simpa using abs_add_le (v - e) e
  have h3 : |R.rnd v - e| ≤ |R.rnd v - v| + |v - e| := by simpa using abs_add_le (R.rnd v - v) (v - e)
  have h4 : R.u * |v| ≤ R.u * (((G - 1) * A + N * R.eta * G) + A) := mul_le_mul_of_nonneg_left (by linarith) R.u_nonneg
  have h5 : R.eta ≤ R.eta * ((1 + R.u) * G) := by
    have : 1 ≤ (1 + R.u) * G := by nlinarith [R.u_nonneg]
    nlinarith [R.eta_nonneg]
  nlinarith

theorem one_le_G (R : Rounding K) (d : ℕ) : 1 ≤ (1 + R.u) ^ d := one_le_pow₀ (by linarith [R.u_nonneg])

theorem G_mono (R : Rounding K) {d e : ℕ} (h : d ≤ e) : (1 + R.u) ^ d ≤ (1 + R.u) ^ e :=
  pow_le_pow_right₀ (by linarith [R.u_nonneg]) h

/-- error of a rounded sum, in any order -/
theorem sumTree_error (R : Rounding K) (g : K) (f : I → K × K) : ∀ t : SumTree I,
    |t.eval R g f - t.exact g f| ≤ ((1 + R.u) ^ t.depth - 1) * t.absSum g f + t.count * R.eta * (1 + R.u) ^ t.depth
  | .zero => by simp [SumTree.eval, SumTree.exact, SumTree.terms, SumTree.depth, SumTree.count]
  | .init => by simp [SumTree.eval, SumTree.exact, SumTree.terms, SumTree.depth, SumTree.count, termVal]
  | .prod i => by
    have := rnd_step R (v := (f i).1 * (f i).2) (e := (f i).1 * (f i).2) (A := |(f i).1 * (f i).2|) (G := 1) (N := 0) le_rfl le_rfl (by simp)
    simpa [SumTree.eval, SumTree.exact, SumTree.absSum, SumTree.terms, SumTree.depth, SumTree.count, termVal] using this
  | .add s t => by
    have hs := sumTree_error R g f s
    have ht := sumTree_error R g f t
    have hA := abs_exact_le g f (SumTree.add s t)
    rw [exact_add, absSum_add] at hA
    have key : |s.eval R g f + t.eval R g f - (s.exact g f + t.exact g f)| ≤
        ((1 + R.u) ^ max s.depth t.depth - 1) * (s.absSum g f + t.absSum g f) +
          ((s.count + t.count : ℕ) : K) * R.eta * (1 + R.u) ^ max s.depth t.depth := by
      have e1 : s.eval R g f + t.eval R g f - (s.exact g f + t.exact g f) =
        (s.eval R g f - s.exact g f) + (t.eval R g f - t.exact g f) := by ring
      rw [e1]
      refine (abs_add_le _ _).trans ?_
      have m1 := G_mono R (le_max_left s.depth t.depth)
      have m2 := G_mono R (le_max_right s.depth t.depth)
      have n1 : (s.count : K) * R.eta * (1 + R.u) ^ s.depth ≤ s.count * R.eta * (1 + R.u) ^ max s.depth t.depth :=
        mul_le_mul_of_nonneg_left m1 (mul_nonneg (Nat.cast_nonneg _) R.eta_nonneg)
      have n2 : (t.count : K) * R.eta * (1 + R.u) ^ t.depth ≤ t.count * R.eta * (1 + R.u) ^ max s.depth t.depth :=
        mul_le_mul_of_nonneg_left m2 (mul_nonneg (Nat.cast_nonneg _) R.eta_nonneg)
      have o1 := mul_le_mul_of_nonneg_right m1 (absSum_nonneg g f s)
      have o2 := mul_le_mul_of_nonneg_right m2 (absSum_nonneg g f t)
      push_cast
      linarith
    have := rnd_step R hA (one_le_G R _) key
    rw [exact_add, absSum_add, SumTree.depth, SumTree.count, pow_succ', SumTree.eval]
    push_cast at this ⊢
    exact this
  | .fma i t => by
    have ht := sumTree_error R g f t
    have hA := abs_exact_le g f (SumTree.fma i t)
    rw [exact_fma, absSum_fma] at hA
    have key : |(f i).1 * (f i).2 + t.eval R g f - ((f i).1 * (f i).2 + t.exact g f)| ≤
        ((1 + R.u) ^ t.depth - 1) * (|(f i).1 * (f i).2| + t.absSum g f) + (t.count : K) * R.eta * (1 + R.u) ^ t.depth := by
      rw [add_sub_add_left_eq_sub]
      refine ht.trans ?_
      have : 0 ≤ ((1 + R.u) ^ t.depth - 1) * |(f i).1 * (f i).2| := mul_nonneg (by linarith [one_le_G R t.depth]) (abs_nonneg _)
      linarith
    have := rnd_step R hA (one_le_G R _) key
    rw [exact_fma, absSum_fma, SumTree.depth, SumTree.count, pow_succ', SumTree.eval]
    push_cast at this ⊢
    exact this

end

/-! ### IEEE rounding -/

theorem nearestEven_err (y : ℚ) : |(nearestEven y : ℚ) - y| ≤ 1 / 2 := by
  have h1 := Int.floor_le y
  have h2 := Int.lt_floor_add_one y
  unfold nearestEven
  simp only
  split_ifs with a b c
  · rw [abs_le]; constructor <;> linarith
  · push_cast; rw [abs_le]; constructor <;> linarith
  · rw [abs_le]; constructor <;> linarith
  · push_cast; rw [abs_le]; constructor <;> linarith

theorem ieeeRnd_err (p : ℕ) (emin : ℤ) (x : ℚ) :
    |ieeeRnd p emin x - x| ≤ (1 / 2) ^ p * |x| + 2 ^ (emin - 1) := by
  have hpos : ∀ z : ℤ, (0 : ℚ) < 2 ^ z := fun z => zpow_pos (by norm_num) z
  by_cases hx : x = 0
  · subst hx
    have : ieeeRnd p emin 0 = 0 := by simp [ieeeRnd, nearestEven]
    rw [this]
    simpa using (hpos (emin - 1)).le
  have h0 := hpos (ulpExp p emin x)
  have h1 : |ieeeRnd p emin x - x| ≤ 1 / 2 * 2 ^ ulpExp p emin x := by
    have : ieeeRnd p emin x - x = ((nearestEven (x / 2 ^ ulpExp p emin x) : ℚ) - x / 2 ^ ulpExp p emin x) * 2 ^ ulpExp p emin x := by
      unfold ieeeRnd
      rw [sub_mul, div_mul_cancel₀ _ h0.ne']
    rw [this, abs_mul, abs_of_pos h0]
    exact mul_le_mul_of_nonneg_right (nearestEven_err _) h0.le
  refine h1.trans ?_
  have he : (1 / 2 : ℚ) * 2 ^ emin = 2 ^ (emin - 1) := by rw [zpow_sub_one₀ (by norm_num)]; ring
  · have hlog : (2 : ℚ) ^ Int.log 2 |x| ≤ |x| := by
      have := Int.zpow_log_le_self (R := ℚ) (b := 2) (by norm_num) (abs_pos.2 hx)
      simpa using this
    rcases le_total (Int.log 2 |x| - p + 1) emin with h | h
    · rw [ulpExp, max_eq_right h, he]
      have : 0 ≤ (1 / 2 : ℚ) ^ p * |x| := by positivity
      linarith
    · rw [ulpExp, max_eq_left h]
      have e1 : (1 / 2 : ℚ) * 2 ^ (Int.log 2 |x| - p + 1) = (1 / 2) ^ p * 2 ^ Int.log 2 |x| := by
        rw [zpow_add₀ (by norm_num), zpow_sub₀ (by norm_num), zpow_natCast, zpow_one, div_pow, one_pow]
        ring
      rw [e1]
      have h3 : (1 / 2 : ℚ) ^ p * 2 ^ Int.log 2 |x| ≤ (1 / 2) ^ p * |x| := mul_le_mul_of_nonneg_left hlog (by positivity)
      have h4 := (hpos (emin - 1)).le
      linarith

/-- IEEE rounding to nearest with `p` bits and smallest exponent `emin` follows the standard model -/
def ieeeRounding (p : ℕ) (hp : 0 < p) (emin : ℤ) : Rounding ℚ where
  rnd := ieeeRnd p emin
  u := (1 / 2) ^ p
  eta := 2 ^ (emin - 1)
  u_nonneg := by positivity
  u_lt_one := pow_lt_one₀ (by norm_num) (by norm_num) hp.ne'
  eta_nonneg := (zpow_pos (by norm_num) _).le
  err := ieeeRnd_err p emin

/-- `double`: 53 bits, smallest exponent -1074 -/
def binary64 : Rounding ℚ := ieeeRounding 53 (by norm_num) (-1074)

/-! ### nearest floating-point number -/

open Spec

theorem nearestEven_nearest (y : ℚ) (k : ℤ) : |(nearestEven y : ℚ) - y| ≤ |(k : ℚ) - y| := by
  by_cases h : k = nearestEven y
  · rw [h]
  have h1 := nearestEven_err y
  have h2 : (1 : ℚ) ≤ |(k : ℚ) - nearestEven y| := by
    have : 1 ≤ |k - nearestEven y| := Int.one_le_abs (sub_ne_zero.2 h)
    exact_mod_cast this
  have h3 : |(k : ℚ) - nearestEven y| ≤ |(k : ℚ) - y| + |y - nearestEven y| := by
    have := abs_add_le ((k : ℚ) - y) (y - nearestEven y)
    rwa [sub_add_sub_cancel] at this
  rw [abs_sub_comm y] at h3
  linarith

theorem nearestEven_tie (y : ℚ) (h : |(nearestEven y : ℚ) - y| = 1 / 2) : nearestEven y % 2 = 0 := by
  have h1 := Int.floor_le y
  have h2 := Int.lt_floor_add_one y
  unfold nearestEven at h ⊢
  simp only at h ⊢
  split_ifs at h ⊢ with a b c
  · rw [abs_of_nonpos (by linarith)] at h
    linarith
  · push_cast at h
    rw [abs_of_nonneg (by linarith)] at h
    linarith
  · exact c
  · omega

theorem zpow_split {a b : ℤ} (h : a ≤ b) : ∃ k : ℤ, (2 : ℚ) ^ b = k * 2 ^ a := by
  refine ⟨2 ^ (b - a).toNat, ?_⟩
  push_cast
  rw [← zpow_natCast, Int.toNat_of_nonneg (by omega), ← zpow_add₀ (by norm_num)]
  congr 1
  ring

/-- `ieeeRnd` is at least as near as any multiple of the unit in the last place -/
theorem ieeeRnd_nearest_ulp (p : ℕ) (emin : ℤ) (x : ℚ) (k : ℤ) :
    |ieeeRnd p emin x - x| ≤ |(k : ℚ) * 2 ^ ulpExp p emin x - x| := by
  have h0 : (0 : ℚ) < 2 ^ ulpExp p emin x := zpow_pos (by norm_num) _
  have e : ∀ k : ℤ, (k : ℚ) * 2 ^ ulpExp p emin x - x = ((k : ℚ) - x / 2 ^ ulpExp p emin x) * 2 ^ ulpExp p emin x := fun k => by
    rw [sub_mul, div_mul_cancel₀ _ h0.ne']
  unfold ieeeRnd
  rw [e, e, abs_mul, abs_mul, abs_of_pos h0]
  exact mul_le_mul_of_nonneg_right (nearestEven_nearest _ _) h0.le

/-- a floating-point number is a multiple of the unit in the last place of `x`, or farther from `x` than some multiple -/
theorem isFloat_ulp (p : ℕ) (hp : 0 < p) (emin : ℤ) (x y : ℚ) (hx : x ≠ 0) (h : IsFloat p emin y) :
    (∃ q : ℤ, y = q * 2 ^ ulpExp p emin x) ∨ |ieeeRnd p emin x - x| < |y - x| := by
  obtain ⟨k, e, he, hk, rfl⟩ := h
  rcases le_or_gt (ulpExp p emin x) e with h1 | h1
  · obtain ⟨q, hq⟩ := zpow_split h1
    exact .inl ⟨k * q, by rw [hq]; push_cast; ring⟩
  · right
    have hE : ulpExp p emin x = Int.log 2 |x| - p + 1 := by
      unfold ulpExp at h1 ⊢
      omega
    have hlog : (2 : ℚ) ^ Int.log 2 |x| ≤ |x| := by
      have := Int.zpow_log_le_self (R := ℚ) (b := 2) (by norm_num) (abs_pos.2 hx)
      simpa using this
    have hy : |(k : ℚ) * 2 ^ e| < 2 ^ Int.log 2 |x| := by
      have hep : (0 : ℚ) < 2 ^ e := zpow_pos (by norm_num) _
      rw [abs_mul, abs_of_pos hep]
      have h2 : |(k : ℚ)| < 2 ^ (p : ℤ) := by
        rw [zpow_natCast]
        exact_mod_cast hk
      calc |(k : ℚ)| * 2 ^ e < 2 ^ (p : ℤ) * 2 ^ e := mul_lt_mul_of_pos_right h2 hep
        _ = 2 ^ ((p : ℤ) + e) := (zpow_add₀ (by norm_num) _ _).symm
        _ ≤ 2 ^ Int.log 2 |x| := zpow_le_zpow_right₀ (by norm_num) (by omega)
    obtain ⟨q, hq⟩ := zpow_split (show ulpExp p emin x ≤ Int.log 2 |x| by omega)
    rcases le_total 0 x with h3 | h3
    · rw [abs_of_nonneg h3] at hlog hy hq hE
      have := ieeeRnd_nearest_ulp p emin x q
      rw [← hq, abs_of_nonpos (by linarith : (2 : ℚ) ^ Int.log 2 x - x ≤ 0)] at this
      have h4 := neg_le_abs ((k : ℚ) * 2 ^ e - x)
      have h5 := le_abs_self ((k : ℚ) * 2 ^ e)
      linarith
    · rw [abs_of_nonpos h3] at hlog hy hq hE
      have := ieeeRnd_nearest_ulp p emin x (-q)
      push_cast at this
      rw [neg_mul, ← hq, abs_of_nonneg (by linarith : (0 : ℚ) ≤ -2 ^ Int.log 2 (-x) - x)] at this
      have h4 := le_abs_self ((k : ℚ) * 2 ^ e - x)
      have h5 := neg_le_abs ((k : ℚ) * 2 ^ e)
      linarith

theorem ieeeRnd_zero (p : ℕ) (emin : ℤ) : ieeeRnd p emin 0 = 0 := by simp [ieeeRnd, nearestEven]

/-- no floating-point number is nearer -/
theorem ieeeRnd_nearest (p : ℕ) (hp : 0 < p) (emin : ℤ) (x y : ℚ) (h : IsFloat p emin y) : |ieeeRnd p emin x - x| ≤ |y - x| := by
  by_cases hx : x = 0
  · rw [hx, ieeeRnd_zero]
    simp
  rcases isFloat_ulp p hp emin x y hx h with ⟨q, rfl⟩ | h
  · exact ieeeRnd_nearest_ulp p emin x q
  · exact h.le

/-- of two equally near numbers the one with the even significand is chosen -/
theorem ieeeRnd_tie (p : ℕ) (hp : 0 < p) (emin : ℤ) (x y : ℚ) (h : IsFloat p emin y) (hne : y ≠ ieeeRnd p emin x)
    (hd : |y - x| = |ieeeRnd p emin x - x|) :
    ∃ k k' e : ℤ, emin ≤ e ∧ ieeeRnd p emin x = k * 2 ^ e ∧ y = k' * 2 ^ e ∧ k % 2 = 0 ∧ |k' - k| = 1 := by
  by_cases hx : x = 0
  · subst hx
    rw [ieeeRnd_zero] at hne hd
    simp at hd
    exact absurd hd hne
  have h0 : (0 : ℚ) < 2 ^ ulpExp p emin x := zpow_pos (by norm_num) _
  rcases isFloat_ulp p hp emin x y hx h with ⟨q, rfl⟩ | h
  · have e : ∀ k : ℤ, (k : ℚ) * 2 ^ ulpExp p emin x - x = ((k : ℚ) - x / 2 ^ ulpExp p emin x) * 2 ^ ulpExp p emin x := fun k => by
      rw [sub_mul, div_mul_cancel₀ _ h0.ne']
    unfold ieeeRnd at hne hd
    rw [e, e, abs_mul, abs_mul, mul_left_inj' (abs_pos.2 h0.ne').ne'] at hd
    set z := x / 2 ^ ulpExp p emin x with hz
    have hqk : q ≠ nearestEven z := fun hc => hne (by rw [hc])
    have h1 := nearestEven_err z
    have h2 : (1 : ℚ) ≤ |(q : ℚ) - nearestEven z| := by
      have : 1 ≤ |q - nearestEven z| := Int.one_le_abs (sub_ne_zero.2 hqk)
      exact_mod_cast this
    have h3 : |(q : ℚ) - nearestEven z| ≤ |(q : ℚ) - z| + |z - nearestEven z| := by
      have := abs_add_le ((q : ℚ) - z) (z - nearestEven z)
      rwa [sub_add_sub_cancel] at this
    rw [abs_sub_comm z, hd] at h3
    have h4 : |(nearestEven z : ℚ) - z| = 1 / 2 := by linarith
    refine ⟨nearestEven z, q, _, le_max_right _ _, rfl, rfl, nearestEven_tie z h4, ?_⟩
    have h5 : |(q : ℚ) - nearestEven z| = 1 := by linarith
    exact_mod_cast h5
  · exact absurd hd h.ne'

/-- the result is a floating-point number -/
theorem ieeeRnd_isFloat (p : ℕ) (hp : 0 < p) (emin : ℤ) (x : ℚ) : IsFloat p emin (ieeeRnd p emin x) := by
  set E := ulpExp p emin x with hE
  have h0 : (0 : ℚ) < 2 ^ E := zpow_pos (by norm_num) _
  have hEm : emin ≤ E := le_max_right _ _
  have hbig : |x / 2 ^ E| < 2 ^ p := by
    rw [abs_div, abs_of_pos h0, div_lt_iff₀ h0]
    have h1 : |x| < 2 ^ (Int.log 2 |x| + 1) := by
      have := Int.lt_zpow_succ_log_self (R := ℚ) (b := 2) (by norm_num) |x|
      simpa using this
    refine h1.trans_le ?_
    rw [← zpow_natCast, ← zpow_add₀ (by norm_num)]
    have : Int.log 2 |x| - p + 1 ≤ E := le_max_left _ _
    exact zpow_le_zpow_right₀ (by norm_num) (by omega)
  set y := x / 2 ^ E with hy
  have h2 : |(nearestEven y)| ≤ 2 ^ p := by
    have h3 := nearestEven_err y
    have h4 : |(nearestEven y : ℚ)| < 2 ^ p + 1 := by
      have := abs_add_le ((nearestEven y : ℚ) - y) y
      rw [sub_add_cancel] at this
      linarith
    have h5 : |nearestEven y| < 2 ^ p + 1 := by exact_mod_cast h4
    omega
  rcases h2.eq_or_lt with h3 | h3
  · refine ⟨(nearestEven y) / 2, E + 1, by omega, ?_, ?_⟩
    · have hd : (2 : ℤ) ∣ nearestEven y := by
        rw [← dvd_abs, h3]
        exact dvd_pow_self _ hp.ne'
      obtain ⟨q, hq⟩ := hd
      have hpp : (0 : ℤ) < 2 ^ p := by positivity
      rw [hq, abs_mul] at h3
      rw [hq, Int.mul_ediv_cancel_left _ (by norm_num)]
      have : |(2 : ℤ)| = 2 := rfl
      rw [this] at h3
      omega
    · have hd : (2 : ℤ) ∣ nearestEven y := by
        rw [← dvd_abs, h3]
        exact dvd_pow_self _ hp.ne'
      rw [Int.cast_div hd (by norm_num), zpow_add_one₀ (by norm_num)]
      show (nearestEven y : ℚ) * 2 ^ E = _
      push_cast
      field_simp
  · exact ⟨nearestEven y, E, hEm, h3, rfl⟩

end ProxNLP
