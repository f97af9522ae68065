import Verif.Model.Linesearch
import Mathlib.Algebra.Polynomial.Eval.Defs
import Mathlib.Algebra.Polynomial.Derivative
import Mathlib.Algebra.Order.Field.Rat
import Mathlib.Algebra.BigOperators.Fin
import Mathlib.Tactic.Ring
import Mathlib.Tactic.FieldSimp
import Mathlib.Tactic.Linarith
import Mathlib.Tactic.LinearCombination
import Mathlib.Tactic.NormNum

/-!
Property theorems C33 (polynomials) and C31 (interpolants of the line search).
-/

set_option linter.unusedSectionVars false
namespace ProxNLP

variable {K : Type} [Field K] [LinearOrder K] [IsStrictOrderedRing K]

/-! ## C33 -/

/-- The polynomial with the given coefficients, highest degree first. -/
noncomputable def Spec.toPoly (l : List K) : Polynomial K :=
  ∑ i : Fin l.length, Polynomial.C (l.get i) * Polynomial.X ^ (l.length - 1 - i.val)

open Spec

theorem toPoly_cons (c : K) (l : List K) :
    toPoly (c :: l) = Polynomial.C c * Polynomial.X ^ l.length + toPoly l := by
  unfold toPoly
  rw [show (∑ i : Fin (c :: l).length, Polynomial.C ((c :: l).get i) *
      Polynomial.X ^ ((c :: l).length - 1 - i.val) : Polynomial K) =
      ∑ i : Fin (l.length + 1), Polynomial.C ((c :: l).get i) *
      Polynomial.X ^ (l.length - i.val) from rfl, Fin.sum_univ_succ]
  congr 1
  refine Finset.sum_congr rfl fun i _ => ?_
  rw [show l.length - (Fin.succ i).val = l.length - 1 - i.val by rw [Fin.val_succ]; omega]
  rfl

theorem toPoly_nil : toPoly ([] : List K) = 0 := by simp [toPoly]

theorem polyEvaluate_aux (l : List K) (a r : K) :
    l.foldl (fun r c => r * a + c) r = r * a ^ l.length + (toPoly l).eval a := by
  induction l generalizing r with
  | nil => simp [toPoly]
  | cons c t ih =>
    rw [List.foldl_cons, ih, toPoly_cons]
    simp only [Polynomial.eval_add, Polynomial.eval_mul, Polynomial.eval_C, Polynomial.eval_pow, Polynomial.eval_X,
      List.length_cons]
    ring

/-- C33: `evaluate` is evaluation of that polynomial, for every coefficient vector (also the empty one). -/
theorem C33_evaluate (l : List K) (a : K) : polyEvaluate l a = (toPoly l).eval a := by
  unfold polyEvaluate
  rw [polyEvaluate_aux]
  ring

theorem polyDerivLoop_toPoly (l : List K) (degree i : ℕ) (h : l.length = degree + 1 - i) (hi : i ≤ degree) :
    toPoly (polyDerivLoop degree i l) = Polynomial.derivative (toPoly l) ∧
      (polyDerivLoop degree i l).length = l.length - 1 := by
  induction l generalizing i with
  | nil => simp at h; omega
  | cons c t ih =>
    cases t with
    | nil => simp [polyDerivLoop, toPoly_cons, toPoly_nil]
    | cons d t =>
      simp only [List.length_cons] at h
      obtain ⟨h1, h2⟩ := ih (i + 1) (by simp only [List.length_cons]; omega) (by omega)
      rw [polyDerivLoop]
      refine ⟨?_, by simp only [List.length_cons] at h2 ⊢; omega⟩
      rw [toPoly_cons, toPoly_cons, h1, h2, Polynomial.derivative_add]
      congr 1
      rw [Polynomial.derivative_C_mul_X_pow]
      simp only [List.length_cons, Nat.add_sub_cancel]
      congr 2
      rw [← Nat.cast_sub hi]
      congr 2
      omega

/-- C33: `derivative` returns the coefficients of the derivative, for every nonempty coefficient vector. -/
theorem C33_derivative (l : List K) (hl : l ≠ []) :
    ∃ d, polyDerivative l = some d ∧ toPoly d = Polynomial.derivative (toPoly l) ∧
      d.length = max 1 (l.length - 1) := by
  unfold polyDerivative
  have hlen : l.length ≠ 0 := by simpa using hl
  rw [if_neg hlen]
  split_ifs with h
  · obtain ⟨c, rfl⟩ : ∃ c, l = [c] := List.length_eq_one_iff.1 (by omega)
    exact ⟨_, rfl, by simp [toPoly], by simp⟩
  · obtain ⟨h1, h2⟩ := polyDerivLoop_toPoly l (l.length - 1) 0 (by omega) (by omega)
    exact ⟨_, rfl, h1, by rw [h2]; omega⟩

/-- C33: without coefficients `derivative` is undefined (a vector of size -1 is requested). -/
theorem C33_derivative_empty : polyDerivative ([] : List K) = none := rfl

example : polyDerivative [(2 : ℚ), 3, 4, 5] = some [6, 6, 4] ∧ polyEvaluate [(2 : ℚ), 3, 4, 5] 2 = 41 := by
  decide +kernel

/-! ## C31 -/

/-- C31, quadratic: value and slope at 0 and value at the sampled step. -/
theorem C31_quadratic_interpolates (phi0 dphi0 : K) (c : LSSample K) (hc : c.alpha ≠ 0) :
    (toPoly (quadCoeffs phi0 dphi0 c)).eval 0 = phi0 ∧
    (Polynomial.derivative (toPoly (quadCoeffs phi0 dphi0 c))).eval 0 = dphi0 ∧
    (toPoly (quadCoeffs phi0 dphi0 c)).eval c.alpha = c.phi := by
  simp only [quadCoeffs, toPoly_cons]
  refine ⟨by simp [toPoly_nil], by simp [toPoly_nil], ?_⟩
  simp [toPoly_nil]
  field_simp
  ring

theorem quad_eval (a b c x : K) : polyEvaluate [a, b, c] x = a * x * x + b * x + c := by
  simp [polyEvaluate]; ring

theorem cubic_eval (d a b c x : K) : polyEvaluate [d, a, b, c] x = d * x * x * x + a * x * x + b * x + c := by
  simp [polyEvaluate]; ring

/-- ends of the interval: the better one is at most any value lying above one of the ends -/
theorem ends_le (coeffs : List K) (lo hi x : K)
    (h : polyEvaluate coeffs lo ≤ polyEvaluate coeffs x ∨ polyEvaluate coeffs hi ≤ polyEvaluate coeffs x) :
    polyEvaluate coeffs (if polyEvaluate coeffs lo < polyEvaluate coeffs hi then lo else hi) ≤
      polyEvaluate coeffs x := by
  split_ifs with h1
  · rcases h with h | h
    · exact h
    · exact h1.le.trans h
  · push Not at h1
    rcases h with h | h
    · exact h1.trans h
    · exact h

/-- C31, quadratic (partial): for a nonpositive slope the chosen step minimises the interpolant on the contraction
interval `[lo, hi]`, `0 < lo ≤ hi`.  For a positive slope the claim is false (`C31_quadratic_minimises_false`). -/
theorem C31_quadratic_minimises_partial (phi0 dphi0 : K) (c : LSSample K) (hc : 0 < c.alpha) (hd : dphi0 ≤ 0)
    (lo hi : K) (hlo : 0 < lo) (hlh : lo ≤ hi) (a : K) (ha : minimizeQuad phi0 dphi0 c lo hi = some a) :
    lo ≤ a ∧ a ≤ hi ∧ ∀ x, lo ≤ x → x ≤ hi →
      (toPoly (quadCoeffs phi0 dphi0 c)).eval a ≤ (toPoly (quadCoeffs phi0 dphi0 c)).eval x := by
  simp only [← C33_evaluate]
  unfold minimizeQuad at ha
  rw [if_neg hc.ne'] at ha
  simp only [quadCoeffs] at ha ⊢
  generalize hA : (c.phi - phi0 - c.alpha * dphi0) / (c.alpha * c.alpha) = A at ha ⊢
  -- the value lies above one of the ends unless the vertex is a minimum inside
  have ends : (hi < -dphi0 / (2 * A) ∨ -dphi0 / (2 * A) < lo ∨ A = 0) → ∀ x, lo ≤ x → x ≤ hi →
      polyEvaluate [A, dphi0, phi0] lo ≤ polyEvaluate [A, dphi0, phi0] x ∨
      polyEvaluate [A, dphi0, phi0] hi ≤ polyEvaluate [A, dphi0, phi0] x := by
    intro hout x hx1 hx2
    simp only [quad_eval]
    rcases lt_trichotomy A 0 with hA0 | hA0 | hA0
    · right
      have h1 : A * (x + hi) + dphi0 ≤ 0 := by nlinarith
      nlinarith [mul_nonneg_of_nonpos_of_nonpos h1 (sub_nonpos.2 hx2)]
    · right; subst hA0; nlinarith
    · rcases hout with h | h | h
      · right
        rw [lt_div_iff₀ (by linarith)] at h
        have h1 : A * (x + hi) + dphi0 ≤ 0 := by nlinarith
        nlinarith [mul_nonneg_of_nonpos_of_nonpos h1 (sub_nonpos.2 hx2)]
      · left
        rw [div_lt_iff₀ (by linarith)] at h
        have h1 : 0 ≤ A * (x + lo) + dphi0 := by nlinarith
        nlinarith [mul_nonneg h1 (sub_nonneg.2 hx1)]
      · exact absurd h hA0.ne'
  have endmem : lo ≤ (if polyEvaluate [A, dphi0, phi0] lo < polyEvaluate [A, dphi0, phi0] hi then lo else hi) ∧
      (if polyEvaluate [A, dphi0, phi0] lo < polyEvaluate [A, dphi0, phi0] hi then lo else hi) ≤ hi := by
    split_ifs
    · exact ⟨le_rfl, hlh⟩
    · exact ⟨hlh, le_rfl⟩
  split_ifs at ha with h1 h2
  · simp [safeguard] at ha
  · have hA0 : A = 0 := by simpa using h1
    simp only [safeguard, Option.some.injEq] at ha
    subst ha
    exact ⟨endmem.1, endmem.2, fun x hx1 hx2 => ends_le _ _ _ _ (ends (Or.inr (Or.inr hA0)) x hx1 hx2)⟩
  · simp only [safeguard] at ha
    by_cases h3 : hi < -dphi0 / (2 * A) ∨ -dphi0 / (2 * A) < lo
    · rw [if_pos h3, Option.some.injEq] at ha
      subst ha
      refine ⟨endmem.1, endmem.2, fun x hx1 hx2 => ends_le _ _ _ _ (ends ?_ x hx1 hx2)⟩
      rcases h3 with h3 | h3
      · exact Or.inl h3
      · exact Or.inr (Or.inl h3)
    · rw [if_neg h3, Option.some.injEq] at ha
      push Not at h3
      have hA0 : 0 < A := by
        by_contra hcon
        have h2A : 2 * A < 0 := lt_of_le_of_ne (by linarith) h1
        have : -dphi0 / (2 * A) ≤ 0 := div_nonpos_of_nonneg_of_nonpos (by linarith) h2A.le
        linarith [h3.2]
      have hv : 2 * A * a = -dphi0 := by rw [← ha]; field_simp
      rw [ha] at h3
      refine ⟨h3.2, h3.1, fun x _ _ => ?_⟩
      simp only [quad_eval]
      nlinarith [mul_nonneg hA0.le (mul_self_nonneg (x - a))]

/-- C31, quadratic, positive slope: the vertex of a concave interpolant is returned although it is its maximum
(`phi(0) = 0`, slope 1, `phi(1) = 1/4`, interval `[1/2, 4/5]`: step 2/3, value 1/3, but value 5/16 at 1/2). -/
theorem C31_quadratic_minimises_false :
    minimizeQuad (0 : ℚ) 1 ⟨1, 1 / 4, true⟩ (1 / 2) (4 / 5) = some (2 / 3) ∧
    (toPoly (quadCoeffs (0 : ℚ) 1 ⟨1, 1 / 4, true⟩)).eval (1 / 2) <
      (toPoly (quadCoeffs (0 : ℚ) 1 ⟨1, 1 / 4, true⟩)).eval (2 / 3) := by
  rw [← C33_evaluate, ← C33_evaluate]
  decide +kernel

example : minimizeQuad (0 : ℚ) (-1) ⟨1, -1 / 4, true⟩ (1 / 2) (4 / 5) = some (2 / 3) := by decide +kernel

/-- C31, cubic, what the code computes: with the right-hand side entries exchanged, the interpolant takes value and
slope of `phi` at 0, but at the latest step `a0` the value of the *previous* sample shifted by `dphi0 (a0 - a1)`,
and conversely. -/
theorem C31_cubic_actual (phi0 dphi0 : K) (c0 c1 : LSSample K) (h0 : c0.alpha ≠ 0) (h1 : c1.alpha ≠ 0)
    (h01 : c0.alpha ≠ c1.alpha) :
    let p := toPoly [(cubicCoeffs phi0 dphi0 c0 c1).1, (cubicCoeffs phi0 dphi0 c0 c1).2, dphi0, phi0]
    p.eval 0 = phi0 ∧ (Polynomial.derivative p).eval 0 = dphi0 ∧
    p.eval c0.alpha = c1.phi + dphi0 * (c0.alpha - c1.alpha) ∧
    p.eval c1.alpha = c0.phi + dphi0 * (c1.alpha - c0.alpha) := by
  have hdet : c0.alpha * c0.alpha * c0.alpha * (c1.alpha * c1.alpha) -
      c0.alpha * c0.alpha * (c1.alpha * c1.alpha * c1.alpha) ≠ 0 := by
    have : c0.alpha * c0.alpha * c0.alpha * (c1.alpha * c1.alpha) -
      c0.alpha * c0.alpha * (c1.alpha * c1.alpha * c1.alpha) =
      (c0.alpha * c1.alpha) * (c0.alpha * c1.alpha) * (c0.alpha - c1.alpha) := by ring
    rw [this]
    exact mul_ne_zero (mul_ne_zero (mul_ne_zero h0 h1) (mul_ne_zero h0 h1)) (sub_ne_zero.2 h01)
  refine ⟨?_, ?_, ?_, ?_⟩
  · simp [toPoly_cons, toPoly_nil]
  · simp [toPoly_cons, toPoly_nil]
  · rw [← C33_evaluate, cubic_eval]
    simp only [cubicCoeffs]
    field_simp
    ring
  · rw [← C33_evaluate, cubic_eval]
    simp only [cubicCoeffs]
    field_simp
    ring

/-- C31, cubic: hence the sampled values are interpolated only if the two samples lie on a line of slope `dphi0`. -/
theorem C31_cubic_interpolates_iff (phi0 dphi0 : K) (c0 c1 : LSSample K) (h0 : c0.alpha ≠ 0) (h1 : c1.alpha ≠ 0)
    (h01 : c0.alpha ≠ c1.alpha) :
    (toPoly [(cubicCoeffs phi0 dphi0 c0 c1).1, (cubicCoeffs phi0 dphi0 c0 c1).2, dphi0, phi0]).eval c0.alpha = c0.phi ↔
      c0.phi - c1.phi = dphi0 * (c0.alpha - c1.alpha) := by
  rw [(C31_cubic_actual phi0 dphi0 c0 c1 h0 h1 h01).2.2.1]
  constructor <;> intro h <;> linear_combination -h

/-- C31, cubic, the claim is false: `phi(a) = a³ - a`, sampled at 1/2 and 1; the interpolant misses both samples
(and `phi` itself is the interpolant a correct system would give). -/
theorem C31_cubic_interpolates_false :
    let c0 : LSSample ℚ := ⟨1 / 2, (1 / 2) ^ 3 - 1 / 2, true⟩
    let c1 : LSSample ℚ := ⟨1, 1 ^ 3 - 1, true⟩
    let p := toPoly [(cubicCoeffs 0 (-1) c0 c1).1, (cubicCoeffs 0 (-1) c0 c1).2, -1, 0]
    p.eval c0.alpha ≠ c0.phi ∧ p.eval c1.alpha ≠ c1.phi := by
  simp only [← C33_evaluate]
  decide +kernel

/-- C31, cubic (partial): for a positive leading coefficient and a nonpositive slope the chosen step minimises the
(wrong) interpolant on the contraction interval.  For a negative leading coefficient this is false
(`C31_cubic_minimises_false`). -/
theorem C31_cubic_minimises_partial (sqrt : K → K) (hsq : ∀ x, 0 ≤ x → sqrt x * sqrt x = x ∧ 0 ≤ sqrt x)
    (sing : LSSample K → LSSample K → K → K → Option K) (phi0 dphi0 : K) (hd : dphi0 ≤ 0) (c0 c1 : LSSample K)
    (h0 : c0.alpha ≠ 0) (h1 : c1.alpha ≠ 0) (h01 : c0.alpha ≠ c1.alpha)
    (hc3 : 0 < (cubicCoeffs phi0 dphi0 c0 c1).1)
    (lo hi : K) (hlo : 0 < lo) (hlh : lo ≤ hi) :
    ∃ a, minimizeCubic sqrt sing phi0 dphi0 c0 c1 lo hi = some a ∧ lo ≤ a ∧ a ≤ hi ∧ ∀ x, lo ≤ x → x ≤ hi →
      (toPoly [(cubicCoeffs phi0 dphi0 c0 c1).1, (cubicCoeffs phi0 dphi0 c0 c1).2, dphi0, phi0]).eval a ≤
      (toPoly [(cubicCoeffs phi0 dphi0 c0 c1).1, (cubicCoeffs phi0 dphi0 c0 c1).2, dphi0, phi0]).eval x := by
  simp only [← C33_evaluate]
  have hdet : c0.alpha * c0.alpha * c0.alpha * (c1.alpha * c1.alpha) -
      c0.alpha * c0.alpha * (c1.alpha * c1.alpha * c1.alpha) ≠ 0 := by
    have : c0.alpha * c0.alpha * c0.alpha * (c1.alpha * c1.alpha) -
      c0.alpha * c0.alpha * (c1.alpha * c1.alpha * c1.alpha) =
      (c0.alpha * c1.alpha) * (c0.alpha * c1.alpha) * (c0.alpha - c1.alpha) := by ring
    rw [this]
    exact mul_ne_zero (mul_ne_zero (mul_ne_zero h0 h1) (mul_ne_zero h0 h1)) (sub_ne_zero.2 h01)
  unfold minimizeCubic
  simp only [if_neg hdet]
  generalize (cubicCoeffs phi0 dphi0 c0 c1).1 = c3 at *
  generalize (cubicCoeffs phi0 dphi0 c0 c1).2 = c2
  have hdisc : 0 ≤ c2 * c2 - 3 * c3 * dphi0 := by nlinarith [mul_self_nonneg c2]
  obtain ⟨hs2, hs0⟩ := hsq _ hdisc
  generalize sqrt (c2 * c2 - 3 * c3 * dphi0) = s at *
  rw [if_neg (not_lt.2 hdisc), if_neg (by linarith)]
  -- roots of the derivative
  obtain ⟨v, hv⟩ : ∃ v, v = (-c2 + s) / (3 * c3) := ⟨_, rfl⟩
  obtain ⟨w, hw⟩ : ∃ w, w = 2 * s / (3 * c3) := ⟨_, rfl⟩
  have hw0 : 0 ≤ w := by rw [hw]; positivity
  have ev : 3 * c3 * v = -c2 + s := by rw [hv]; field_simp
  have ew : 3 * c3 * w = 2 * s := by rw [hw]; field_simp
  have hsabs : |c2| ≤ s := by
    apply abs_le_of_sq_le_sq _ hs0
    nlinarith
  have hvw : v - w ≤ 0 := by
    have h3 : 3 * c3 * (v - w) ≤ 0 := by
      rw [mul_sub, ev, ew]
      have := (abs_le.1 hsabs).1
      linarith
    by_contra hcon
    push Not at hcon
    nlinarith [mul_pos hc3 hcon]
  have e2 : c2 = -(3 * c3 * (2 * v - w)) / 2 := by field_simp; linarith
  have ed : dphi0 = 3 * c3 * v * (v - w) := by
    have h3 : 3 * c3 * dphi0 = 3 * c3 * (3 * c3 * v * (v - w)) := by
      have h4 : c2 = s - 3 * c3 * v := by linarith
      have h5 : 3 * c3 * w = 2 * s := ew
      have h6 : 3 * c3 * dphi0 = c2 * c2 - s * s := by linarith
      rw [h6, h4]
      linear_combination (3 * c3 * v) * h5
    exact mul_left_cancel₀ (by positivity) h3
  have diff : ∀ x y, polyEvaluate [c3, c2, dphi0, phi0] x - polyEvaluate [c3, c2, dphi0, phi0] y =
      (x - y) * (c3 * ((x - v) * (x - v) + (x - v) * (y - v) + (y - v) * (y - v) +
        3 / 2 * w * ((x - v) + (y - v)))) := by
    intro x y
    rw [cubic_eval, cubic_eval, e2, ed]
    ring
  have up : ∀ x y, v ≤ y → y ≤ x → polyEvaluate [c3, c2, dphi0, phi0] y ≤ polyEvaluate [c3, c2, dphi0, phi0] x := by
    intro x y hy hxy
    have hx : 0 ≤ x - v := by linarith
    have hy' : 0 ≤ y - v := by linarith
    have : 0 ≤ polyEvaluate [c3, c2, dphi0, phi0] x - polyEvaluate [c3, c2, dphi0, phi0] y := by
      rw [diff]
      have : 0 ≤ x - y := by linarith
      positivity
    linarith
  have down : ∀ x y, 0 ≤ x → x ≤ y → y ≤ v →
      polyEvaluate [c3, c2, dphi0, phi0] y ≤ polyEvaluate [c3, c2, dphi0, phi0] x := by
    intro x y hx hxy hy
    have h5 : (x - v) * (x - v) + (x - v) * (y - v) + (y - v) * (y - v) + 3 / 2 * w * ((x - v) + (y - v)) ≤ 0 := by
      have ha : 0 ≤ v - x := by linarith
      have hb : 0 ≤ v - y := by linarith
      have haw : v - x ≤ w := by linarith
      have hbw : v - y ≤ w := by linarith
      nlinarith [mul_nonneg ha (sub_nonneg.2 haw), mul_nonneg hb (sub_nonneg.2 hbw),
        mul_nonneg ha (sub_nonneg.2 hbw), mul_nonneg hb (sub_nonneg.2 haw)]
    have : 0 ≤ polyEvaluate [c3, c2, dphi0, phi0] x - polyEvaluate [c3, c2, dphi0, phi0] y := by
      rw [diff]
      exact mul_nonneg_of_nonpos_of_nonpos (by linarith) (mul_nonpos_of_nonneg_of_nonpos hc3.le h5)
    linarith
  rw [← hv]
  simp only [safeguard]
  by_cases h3 : hi < v ∨ v < lo
  · rw [if_pos h3]
    refine ⟨_, rfl, ?_, ?_, fun x hx1 hx2 => ends_le _ _ _ _ ?_⟩
    · split_ifs
      · exact le_rfl
      · exact hlh
    · split_ifs
      · exact hlh
      · exact le_rfl
    · rcases h3 with h3 | h3
      · exact Or.inr (down x hi (hlo.le.trans hx1) hx2 h3.le)
      · exact Or.inl (up x lo h3.le hx1)
  · rw [if_neg h3]
    push Not at h3
    refine ⟨v, rfl, h3.2, h3.1, fun x hx1 hx2 => ?_⟩
    rcases le_total v x with hvx | hvx
    · exact up x v le_rfl hvx
    · exact down x v (hlo.le.trans hx1) hvx le_rfl

/-- C31, cubic with negative leading coefficient: the step returned is a local minimum of the computed interpolant
inside the interval, but the right end is better. (`sqrt` need only be right at 1: `-c3 = 1/3`, `c2 = 5/4`.) -/
theorem C31_cubic_minimises_false :
    ∃ (c0 c1 : LSSample ℚ) (lo hi a : ℚ) (sqrt : ℚ → ℚ),
      c0.alpha ≠ c1.alpha ∧ 0 < c0.alpha ∧ 0 < c1.alpha ∧ 0 < lo ∧ lo < hi ∧ hi < c0.alpha ∧
      (cubicCoeffs 0 (-3) c0 c1) = (-4, 15 / 2) ∧
      sqrt (15 / 2 * (15 / 2) - 3 * (-4) * (-3)) * sqrt (15 / 2 * (15 / 2) - 3 * (-4) * (-3)) =
        15 / 2 * (15 / 2) - 3 * (-4) * (-3) ∧ 0 ≤ sqrt (15 / 2 * (15 / 2) - 3 * (-4) * (-3)) ∧
      minimizeCubic sqrt (fun _ _ _ _ => none) 0 (-3) c0 c1 lo hi = some a ∧
      polyEvaluate [-4, 15 / 2, -3, 0] hi < polyEvaluate [-4, 15 / 2, -3, 0] a := by
  refine ⟨⟨2, ?_, true⟩, ⟨4, ?_, true⟩, 1 / 8, 8 / 5, 1 / 4, fun _ => 9 / 2, ?_⟩
  · exact polyEvaluate [-4, 15 / 2, 0, 0] 4 + (-3) * 2
  · exact polyEvaluate [-4, 15 / 2, 0, 0] 2 + (-3) * 4
  · decide +kernel

end ProxNLP
