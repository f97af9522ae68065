import Verif.Model.FloatSpaces
import Verif.Spec.FloatSpaces
import Verif.Lemmas.FloatSpaces
import Mathlib.Data.Fin.VecNotation
import Mathlib.Tactic.FinCases

/-!
C112: vector spaces in double arithmetic.
-/

set_option linter.unusedSectionVars false
namespace ProxNLP
open Spec

variable {n : ℕ}

/-! ### Moving and comparing points -/

/-- **C112**: for all points of doubles, the difference of a point to itself is 0, and moving by 0 does not move. -/
theorem C112_identity (x : Fin n → ℚ) (hx : Doubles x) : flDifference binary64 x x = 0 ∧ flIntegrate binary64 x 0 = x := by
  constructor <;> funext i
  · simp only [flDifference, sub_self, Pi.zero_apply]
    exact b64_id (isFloat_zero _ _)
  · simp only [flIntegrate, Pi.zero_apply, add_zero]
    exact b64_id (hx i)

/-- **C112**: exchanging the points changes the sign of the difference, exactly. -/
theorem C112_antisymmetric (x0 x1 : Fin n → ℚ) : flDifference binary64 x1 x0 = -flDifference binary64 x0 x1 := by
  funext i
  simp only [flDifference, Pi.neg_apply, ← b64_neg, neg_sub]

/-- **C112**: the computed difference has relative error at most `2⁻⁵³` (also when it underflows), has the right sign, and is 0 only for
equal points. -/
theorem C112_difference (x0 x1 : Fin n → ℚ) (h0 : Doubles x0) (h1 : Doubles x1) :
    (∀ i, |flDifference binary64 x0 x1 i - (x1 i - x0 i)| ≤ (1 / 2) ^ 53 * |x1 i - x0 i|) ∧
    (∀ i, 0 < flDifference binary64 x0 x1 i ↔ x0 i < x1 i) ∧ (flDifference binary64 x0 x1 = 0 ↔ x0 = x1) := by
  have key : ∀ i, 0 < flDifference binary64 x0 x1 i ↔ x0 i < x1 i := by
    intro i
    obtain ⟨-, a, b⟩ := b64_sub (h1 i) (h0 i)
    refine ⟨fun h => ?_, b⟩
    by_contra hc
    rcases (not_lt.1 hc).eq_or_lt with e | e
    · simp only [flDifference, e, sub_self] at h
      rw [b64_id (isFloat_zero _ _)] at h
      exact lt_irrefl _ h
    · exact absurd (a e) (not_lt.2 (le_of_lt h))
  refine ⟨fun i => (b64_sub (h1 i) (h0 i)).1, key, fun h => ?_, fun h => ?_⟩
  · funext i
    obtain ⟨-, a, b⟩ := b64_sub (h1 i) (h0 i)
    have e := congrFun h i
    simp only [flDifference, Pi.zero_apply] at e
    rw [e] at a b
    exact le_antisymm (not_lt.1 fun hc => lt_irrefl _ (a hc)) (not_lt.1 fun hc => lt_irrefl _ (b hc))
  · rw [h]; exact (C112_identity x1 h1).1

/-- **C112**: moving a point by a tangent vector has relative error at most `2⁻⁵³` in every coordinate, gives doubles, and is monotone. -/
theorem C112_integrate (x v : Fin n → ℚ) (hx : Doubles x) (hv : Doubles v) :
    Doubles (flIntegrate binary64 x v) ∧ (∀ i, |flIntegrate binary64 x v i - (x i + v i)| ≤ (1 / 2) ^ 53 * |x i + v i|) ∧
    ∀ y w : Fin n → ℚ, x ≤ y → v ≤ w → flIntegrate binary64 x v ≤ flIntegrate binary64 y w :=
  ⟨fun _ => b64_double _, fun i => b64_add (hx i) (hv i), fun _ _ h1 h2 i => b64_mono (add_le_add (h1 i) (h2 i))⟩

/-- **C112, round trip**: moving from `x0` by the difference to `x1` arrives at `x1` up to a rounding error. -/
theorem C112_round_trip (x0 x1 : Fin n → ℚ) (h0 : Doubles x0) (h1 : Doubles x1) (i : Fin n) :
    |flIntegrate binary64 x0 (flDifference binary64 x0 x1) i - x1 i| ≤
      (1 / 2) ^ 53 * |x1 i| + (1 / 2) ^ 53 * (1 + (1 / 2) ^ 53) * |x1 i - x0 i| := by
  have hd := (b64_sub (h1 i) (h0 i)).1
  have hs := b64_add (h0 i) (b64_double (x1 i - x0 i))
  have e1 : x0 i + binary64.rnd (x1 i - x0 i) - x1 i = binary64.rnd (x1 i - x0 i) - (x1 i - x0 i) := by ring
  have h2 : |x0 i + binary64.rnd (x1 i - x0 i)| ≤ |x1 i| + (1 / 2) ^ 53 * |x1 i - x0 i| := by
    have := abs_add_le (x1 i) (x0 i + binary64.rnd (x1 i - x0 i) - x1 i)
    rw [add_sub_cancel, e1] at this
    linarith
  have h3 : |flIntegrate binary64 x0 (flDifference binary64 x0 x1) i - x1 i| ≤
      |binary64.rnd (x0 i + binary64.rnd (x1 i - x0 i)) - (x0 i + binary64.rnd (x1 i - x0 i))| +
        |x0 i + binary64.rnd (x1 i - x0 i) - x1 i| := by
    have := abs_add_le (binary64.rnd (x0 i + binary64.rnd (x1 i - x0 i)) - (x0 i + binary64.rnd (x1 i - x0 i)))
      (x0 i + binary64.rnd (x1 i - x0 i) - x1 i)
    rwa [sub_add_sub_cancel] at this
  rw [e1] at h3
  have h4 : (1 / 2 : ℚ) ^ 53 * |x0 i + binary64.rnd (x1 i - x0 i)| ≤ (1 / 2) ^ 53 * (|x1 i| + (1 / 2) ^ 53 * |x1 i - x0 i|) :=
    mul_le_mul_of_nonneg_left h2 (by positivity)
  linarith

/-- **C112, round trip**: it is exact when the coordinates are within a factor 2 of each other, or `x0` is the origin. -/
theorem C112_round_trip_exact (x0 x1 : Fin n → ℚ) (h0 : Doubles x0) (h1 : Doubles x1)
    (h : ∀ i, x0 i = 0 ∨ (x0 i ≤ 2 * x1 i ∧ x1 i ≤ 2 * x0 i) ∨ (2 * x1 i ≤ x0 i ∧ 2 * x0 i ≤ x1 i)) :
    flIntegrate binary64 x0 (flDifference binary64 x0 x1) = x1 := by
  funext i
  have hd : IsDouble (x1 i - x0 i) := by
    rcases h i with e | ⟨a, b⟩ | ⟨a, b⟩
    · rw [e, sub_zero]; exact h1 i
    · exact isFloat_sub (h1 i) (h0 i) b a
    · have := isFloat_sub (isFloat_neg (h0 i)) (isFloat_neg (h1 i)) (by linarith) (by linarith)
      rwa [neg_sub_neg] at this
  simp only [flIntegrate, flDifference]
  rw [b64_id hd, add_sub_cancel]
  exact b64_id (h1 i)

/-- **C112 is false as an identity of points**: from `x0 = 1` the point `x1 = 2⁻⁶⁰` is not reached by the difference to it. -/
theorem C112_round_trip_false : ∃ x0 x1 : Fin 1 → ℚ, Doubles x0 ∧ Doubles x1 ∧
    flIntegrate binary64 x0 (flDifference binary64 x0 x1) ≠ x1 := by
  refine ⟨fun _ => 1, fun _ => (1 / 2) ^ 60, fun _ => ⟨1, 0, by norm_num, by norm_num, by norm_num⟩,
    fun _ => isFloat_half_pow 53 (by norm_num) _ 60 (by norm_num), fun h => ?_⟩
  have := congrFun h 0
  revert this
  simp only [flIntegrate, flDifference]
  decide +kernel

/-- **C112, lost steps**: a step that is small relative to every coordinate does not move the point. -/
theorem C112_step_lost (x v : Fin n → ℚ) (hx : Doubles x) (hv : ∀ i, |v i| ≤ (1 / 2) ^ 55 * |x i|) : flIntegrate binary64 x v = x := by
  funext i
  simp only [flIntegrate]
  by_cases h0 : x i = 0
  · have : v i = 0 := by
      have := hv i
      rw [h0, abs_zero, mul_zero] at this
      exact abs_eq_zero.1 (le_antisymm this (abs_nonneg _))
    rw [this, add_zero]
    exact b64_id (hx i)
  by_contra hne
  have h1 := double_gap (hx i) (b64_double (x i + v i)) hne
  have h2 : |binary64.rnd (x i + v i) - (x i + v i)| ≤ |x i - (x i + v i)| := ieeeRnd_nearest 53 (by norm_num) _ _ _ (hx i)
  have h3 := abs_add_le (binary64.rnd (x i + v i) - (x i + v i)) (v i)
  have e1 : binary64.rnd (x i + v i) - (x i + v i) + v i = binary64.rnd (x i + v i) - x i := by ring
  have e2 : x i - (x i + v i) = -v i := by ring
  rw [e1] at h3
  rw [e2, abs_neg] at h2
  have h4 := hv i
  have h5 := abs_pos.2 h0
  have h6 : (1 / 2 : ℚ) ^ 53 = 4 * (1 / 2) ^ 55 := by norm_num
  rw [h6] at h1
  have : (0 : ℚ) < (1 / 2) ^ 55 * |x i| := by positivity
  linarith

/-- **C112, visible steps**: a step of doubles that is not small relative to some coordinate moves the point. -/
theorem C112_step_seen (x v : Fin n → ℚ) (hx : Doubles x) (hv : Doubles v) (i : Fin n) (h0 : v i ≠ 0) (h : (1 / 2) ^ 52 * |x i| ≤ |v i|) :
    flIntegrate binary64 x v ≠ x := by
  intro hc
  have e := congrFun hc i
  simp only [flIntegrate] at e
  have h1 := b64_add (hx i) (hv i)
  rw [e] at h1
  have e1 : x i - (x i + v i) = -v i := by ring
  rw [e1, abs_neg] at h1
  have h2 := abs_add_le (x i) (v i)
  have h3 := abs_pos.2 h0
  have h4 : (1 / 2 : ℚ) ^ 52 = 2 * (1 / 2) ^ 53 := by norm_num
  rw [h4] at h
  have h5 : (1 / 2 : ℚ) ^ 53 * |x i + v i| ≤ (1 / 2) ^ 53 * (|x i| + |v i|) := mul_le_mul_of_nonneg_left h2 (by positivity)
  have h6 : (1 / 2 : ℚ) ^ 53 * |v i| ≤ 1 / 4 * |v i| := mul_le_mul_of_nonneg_right (by norm_num) h3.le
  linarith

/-! ### Interpolation -/

/-- **C112, interpolation**: in a vector space the ends are hit exactly, however the compiler contracts the operations; in a product of vector
spaces the end at `u = 0` is. -/
theorem C112_interpolate_ends (f : Contraction) (x0 x1 : Fin n → ℚ) (h0 : Doubles x0) (h1 : Doubles x1) :
    flInterpolate binary64 f x0 x1 0 = x0 ∧ flInterpolate binary64 f x0 x1 1 = x1 ∧ flInterpolateProduct binary64 x0 x1 0 = x0 := by
  have z : binary64.rnd 0 = 0 := b64_id (isFloat_zero _ _)
  have o : binary64.rnd 1 = 1 := b64_id ⟨1, 0, by norm_num, by norm_num, by norm_num⟩
  refine ⟨?_, ?_, ?_⟩ <;> funext i
  · cases f <;> simp [flInterpolate, z, o, b64_id (h0 i)]
  · cases f <;> simp [flInterpolate, z, b64_id (h1 i)]
  · simp [flInterpolateProduct, flIntegrate, z, b64_id (h0 i)]

/-- **C112, interpolation**: rounding error between the ends. -/
theorem C112_interpolate_error (f : Contraction) (x0 x1 : Fin n → ℚ) (u : ℚ) (hu : IsDouble u)
    (i : Fin n) :
    |flInterpolate binary64 f x0 x1 u i - (u * x1 i + (1 - u) * x0 i)| ≤
      ((1 + (1 / 2) ^ 53) ^ 3 - 1) * (|u * x1 i| + |(1 - u) * x0 i|) + 3 * 2 ^ (-1075 : ℤ) := by
  have ho : IsDouble 1 := ⟨1, 0, by norm_num, by norm_num, by norm_num⟩
  have hw := (b64_sub ho hu).1
  have herr : ∀ y, |binary64.rnd y - y| ≤ (1 / 2) ^ 53 * |y| + 2 ^ (-1075 : ℤ) := fun y => by
    have := binary64.err y
    have e : binary64.eta = 2 ^ (-1075 : ℤ) := by simp only [binary64, ieeeRounding]; norm_num
    rw [e] at this
    exact this
  have hη : (0 : ℚ) < 2 ^ (-1075 : ℤ) := zpow_pos (by norm_num) _
  generalize (2 : ℚ) ^ (-1075 : ℤ) = η at herr hη ⊢
  set ε : ℚ := (1 / 2) ^ 53 with hε
  have hε0 : 0 ≤ ε := by positivity
  have hε1 : ε ≤ 1 / 4 := by rw [hε]; norm_num
  set w := binary64.rnd (1 - u) with hwd
  set A := u * x1 i with hA
  set B := (1 - u) * x0 i with hB
  have hAn := abs_nonneg A
  have hBn := abs_nonneg B
  -- the product with the rounded weight
  have hp : |w * x0 i - B| ≤ ε * |B| := by
    have e : w * x0 i - B = (w - (1 - u)) * x0 i := by rw [hB]; ring
    rw [e, abs_mul, hB, abs_mul, ← mul_assoc]
    exact mul_le_mul_of_nonneg_right hw (abs_nonneg _)
  have tri : ∀ a b c : ℚ, |a - c| ≤ |a - b| + |b - c| := fun a b c => abs_sub_le a b c
  have habs : ∀ {a b t : ℚ}, |a - b| ≤ t → |a| ≤ |b| + t := fun {a b t} h => by
    have := abs_add_le b (a - b)
    rw [add_sub_cancel] at this
    linarith
  have hwx := habs hp
  have ha := herr A
  have hb : |binary64.rnd (w * x0 i) - B| ≤ ε * (|B| + ε * |B|) + η + ε * |B| := by
    have h2 := herr (w * x0 i)
    have h3 := tri (binary64.rnd (w * x0 i)) (w * x0 i) B
    have h4 := mul_le_mul_of_nonneg_left hwx hε0
    linarith
  have hεA : 0 ≤ ε * |A| := by positivity
  have hεB : 0 ≤ ε * |B| := by positivity
  have q1 : 0 ≤ ε * (ε * |A|) := by positivity
  have q2 : 0 ≤ ε * (ε * |B|) := by positivity
  have q3 : 0 ≤ ε * (ε * (ε * |A|)) := by positivity
  have q4 : 0 ≤ ε * (ε * (ε * |B|)) := by positivity
  have q5 : ε * η ≤ 1 / 4 * η := mul_le_mul_of_nonneg_right hε1 hη.le
  have hexp : ((1 + ε) ^ 3 - 1) * (|A| + |B|) = 3 * (ε * |A|) + 3 * (ε * |B|) + 3 * (ε * (ε * |A|)) + 3 * (ε * (ε * |B|)) +
      ε * (ε * (ε * |A|)) + ε * (ε * (ε * |B|)) := by ring
  rw [hexp]
  show |flInterpolate binary64 f x0 x1 u i - (A + B)| ≤ _
  clear_value ε
  -- one more rounding of a sum that is already within `t`
  have last : ∀ (s t z : ℚ), |s - (A + B)| ≤ t → |binary64.rnd s - s| ≤ ε * |s| + z →
      |binary64.rnd s - (A + B)| ≤ t + ε * (|A| + |B| + t) + z := by
    intro s t z h h2
    have h3 := tri (binary64.rnd s) s (A + B)
    have h4 := habs h
    have h5 := abs_add_le A B
    have h6 := mul_le_mul_of_nonneg_left (h4.trans (add_le_add h5 le_rfl)) hε0
    linarith
  cases f with
  | none =>
    have hs : |binary64.rnd A + binary64.rnd (w * x0 i) - (A + B)| ≤ ε * |A| + η + (ε * (|B| + ε * |B|) + η + ε * |B|) := by
      have := abs_add_le (binary64.rnd A - A) (binary64.rnd (w * x0 i) - B)
      have e : binary64.rnd A - A + (binary64.rnd (w * x0 i) - B) = binary64.rnd A + binary64.rnd (w * x0 i) - (A + B) := by ring
      rw [e] at this
      linarith
    have := last _ _ 0 hs (by rw [add_zero]; rw [hε]; exact b64_add (b64_double _) (b64_double _))
    refine this.trans ?_
    clear * - q1 q2 q3 q4 q5 hεA hεB hη
    nlinarith only [q1, q2, q3, q4, q5, hεA, hεB, hη]
  | first =>
    have hs : |A + binary64.rnd (w * x0 i) - (A + B)| ≤ ε * (|B| + ε * |B|) + η + ε * |B| := by
      rw [add_sub_add_left_eq_sub]; exact hb
    have := last _ _ η hs (herr _)
    refine this.trans ?_
    clear * - q1 q2 q3 q4 q5 hεA hεB hη
    nlinarith only [q1, q2, q3, q4, q5, hεA, hεB, hη]
  | second =>
    have hs : |binary64.rnd A + w * x0 i - (A + B)| ≤ ε * |A| + η + ε * |B| := by
      have := abs_add_le (binary64.rnd A - A) (w * x0 i - B)
      have e : binary64.rnd A - A + (w * x0 i - B) = binary64.rnd A + w * x0 i - (A + B) := by ring
      rw [e] at this
      linarith
    have := last _ _ η hs (herr _)
    refine this.trans ?_
    clear * - q1 q2 q3 q4 q5 hεA hεB hη
    nlinarith only [q1, q2, q3, q4, q5, hεA, hεB, hη]

/-- **C112, interpolation in a product of vector spaces**: rounding error. -/
theorem C112_product_error (x0 x1 : Fin n → ℚ) (h0 : Doubles x0) (h1 : Doubles x1) (u : ℚ) (i : Fin n) :
    |flInterpolateProduct binary64 x0 x1 u i - (x0 i + u * (x1 i - x0 i))| ≤
      ((1 + (1 / 2) ^ 53) ^ 3 - 1) * (|x0 i| + |u * (x1 i - x0 i)|) + 2 * 2 ^ (-1075 : ℤ) := by
  have hd := (b64_sub (h1 i) (h0 i)).1
  have hs := b64_add (h0 i) (b64_double (u * binary64.rnd (x1 i - x0 i)))
  have herr : ∀ y, |binary64.rnd y - y| ≤ (1 / 2) ^ 53 * |y| + 2 ^ (-1075 : ℤ) := fun y => by
    have := binary64.err y
    have e : binary64.eta = 2 ^ (-1075 : ℤ) := by simp only [binary64, ieeeRounding]; norm_num
    rw [e] at this
    exact this
  have hη : (0 : ℚ) < 2 ^ (-1075 : ℤ) := zpow_pos (by norm_num) _
  generalize (2 : ℚ) ^ (-1075 : ℤ) = η at herr hη ⊢
  have hε0 : (0 : ℚ) ≤ (1 / 2) ^ 53 := by positivity
  have hε1 : (1 / 2 : ℚ) ^ 53 ≤ 1 / 4 := by norm_num
  have hp := herr (u * binary64.rnd (x1 i - x0 i))
  simp only [flInterpolateProduct, flIntegrate, flDifference]
  generalize binary64.rnd (x0 i + binary64.rnd (u * binary64.rnd (x1 i - x0 i))) = r at hs ⊢
  generalize binary64.rnd (u * binary64.rnd (x1 i - x0 i)) = q at hs hp
  generalize binary64.rnd (x1 i - x0 i) = d at hd hp
  generalize (1 / 2 : ℚ) ^ 53 = ε at hd hs hp hε0 hε1 ⊢
  have h2 : |u * d - u * (x1 i - x0 i)| ≤ ε * |u * (x1 i - x0 i)| := by
    rw [← mul_sub, abs_mul, abs_mul]
    have := mul_le_mul_of_nonneg_left hd (abs_nonneg u)
    linarith
  generalize u * (x1 i - x0 i) = B at h2 ⊢
  generalize u * d = b at h2 hp
  generalize x0 i = A at hs ⊢
  have habs : ∀ {a b t : ℚ}, |a - b| ≤ t → |a| ≤ |b| + t := fun {a b t} h => by
    have := abs_add_le b (a - b)
    rw [add_sub_cancel] at this
    linarith
  have h3 := mul_le_mul_of_nonneg_left (habs h2) hε0
  have h4 := abs_sub_le q b B
  have h5 : |A + q - (A + B)| ≤ ε * (|B| + ε * |B|) + η + ε * |B| := by
    rw [add_sub_add_left_eq_sub]; linarith
  have h6 := abs_sub_le r (A + q) (A + B)
  have h7 := mul_le_mul_of_nonneg_left ((habs h5).trans (add_le_add (abs_add_le A B) le_rfl)) hε0
  have q0 : 0 ≤ ε * |A| := by positivity
  have q1 : 0 ≤ ε * (ε * |A|) := by positivity
  have q2 : 0 ≤ ε * (ε * |B|) := by positivity
  have q3 : 0 ≤ ε * (ε * (ε * |A|)) := by positivity
  have q5 : ε * η ≤ 1 / 4 * η := mul_le_mul_of_nonneg_right hε1 hη.le
  refine (h6.trans (add_le_add (hs.trans h7) h5)).trans ?_
  clear * - q0 q1 q2 q3 q5 hη
  nlinarith only [q0, q1, q2, q3, q5, hη]

/-- the double nearest to 3/10 -/
def Demo.threeTenths : ℚ := 5404319552844595 / 2 ^ 54

/-- **C112 is false of interpolation between equal points**: `interpolate(3, 3, 0.3)` is not 3. -/
theorem C112_interpolate_same_false : IsDouble Demo.threeTenths ∧ binary64.rnd (3 / 10) = Demo.threeTenths ∧
    flInterpolate binary64 .none (fun _ : Fin 1 => 3) (fun _ => 3) Demo.threeTenths ≠ fun _ => 3 := by
  refine ⟨⟨5404319552844595, -54, by norm_num, by norm_num, by norm_num [Demo.threeTenths]⟩, by decide +kernel, fun h => ?_⟩
  have := congrFun h 0
  revert this
  simp only [flInterpolate]
  decide +kernel

/-- **C112 is false of the far end in a product of vector spaces**: `interpolate(x0, x1, 1)` is not `x1`, although it is in each factor. -/
theorem C112_product_end_false : ∃ x0 x1 : Fin 1 → ℚ, Doubles x0 ∧ Doubles x1 ∧ flInterpolateProduct binary64 x0 x1 1 ≠ x1 ∧
    flInterpolate binary64 .none x0 x1 1 = x1 := by
  have d1 : Doubles (fun _ : Fin 1 => (1 : ℚ)) := fun _ => ⟨1, 0, by norm_num, by norm_num, by norm_num⟩
  have d2 : Doubles (fun _ : Fin 1 => (1 / 2 : ℚ) ^ 60) := fun _ => isFloat_half_pow 53 (by norm_num) _ 60 (by norm_num)
  refine ⟨fun _ => 1, fun _ => (1 / 2) ^ 60, d1, d2, fun h => ?_, (C112_interpolate_ends .none _ _ d1 d2).2.1⟩
  have := congrFun h 0
  revert this
  simp only [flInterpolateProduct, flIntegrate, flDifference]
  decide +kernel

/-- non-vacuity: points of doubles with a round trip that is exact, one that is not, a lost and a visible step -/
example : Doubles ![(3 : ℚ), 5] ∧ Doubles ![(4 : ℚ), 7] ∧
    flIntegrate binary64 ![(3 : ℚ), 5] (flDifference binary64 ![(3 : ℚ), 5] ![(4 : ℚ), 7]) = ![4, 7] ∧
    flIntegrate binary64 ![(3 : ℚ), 5] ![(1 / 2) ^ 60, (1 / 2) ^ 54] = ![3, 5] ∧
    flIntegrate binary64 ![(3 : ℚ), 5] ![(1 / 2) ^ 60, (1 / 2) ^ 49] ≠ ![3, 5] := by
  have h : ∀ k : ℤ, |k| < 2 ^ 53 → IsDouble k := fun k hk => ⟨k, 0, by norm_num, hk, by simp⟩
  have d1 : Doubles ![(3 : ℚ), 5] := fun i => by
    fin_cases i
    · exact h 3 (by norm_num)
    · exact h 5 (by norm_num)
  have d2 : Doubles ![(4 : ℚ), 7] := fun i => by
    fin_cases i
    · exact h 4 (by norm_num)
    · exact h 7 (by norm_num)
  refine ⟨d1, d2, C112_round_trip_exact _ _ d1 d2 fun i => ?_, C112_step_lost _ _ d1 fun i => ?_, C112_step_seen _ _ d1 (fun i => ?_) 1 ?_ ?_⟩
  · fin_cases i <;> norm_num
  · fin_cases i <;> norm_num
  · fin_cases i
    · exact isFloat_half_pow 53 (by norm_num) _ 60 (by norm_num)
    · exact isFloat_half_pow 53 (by norm_num) _ 49 (by norm_num)
  · norm_num
  · norm_num

end ProxNLP
