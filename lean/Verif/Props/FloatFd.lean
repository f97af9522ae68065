import Verif.Spec.FloatFd
import Verif.Lemmas.FloatLinesearch
import Verif.Props.Functions
import Mathlib.Analysis.Calculus.MeanValue
import Mathlib.Analysis.Calculus.Deriv.Pow
import Mathlib.Algebra.BigOperators.Field
import Mathlib.Tactic.Linarith
import Mathlib.Tactic.Positivity
import Mathlib.Tactic.FieldSimp

/-!
C104: accuracy of finite-difference Jacobians, in exact and in rounded arithmetic.
-/

set_option linter.unusedSectionVars false

namespace ProxNLP

open Spec

/-- a function that is 0 at 0 and whose derivative is bounded by `c * (m+1) * t^m` is bounded by `c * t^(m+1)` -/
theorem bound_from_deriv (f f' : ℝ → ℝ) (h c : ℝ) (m : ℕ) (h0 : 0 ≤ h) (hf0 : f 0 = 0) (hf : ∀ t, 0 ≤ t → t ≤ h → HasDerivAt f (f' t) t)
    (hb : ∀ t, 0 ≤ t → t ≤ h → |f' t| ≤ c * (m + 1) * t ^ m) : |f h| ≤ c * h ^ (m + 1) := by
  have := image_norm_le_of_norm_deriv_right_le_deriv_boundary (f := f) (f' := f') (a := 0) (b := h)
    (B := fun t => c * t ^ (m + 1)) (B' := fun t => c * (m + 1) * t ^ m)
    (fun t ht => (hf t ht.1 ht.2).continuousAt.continuousWithinAt)
    (fun t ht => (hf t ht.1 ht.2.le).hasDerivWithinAt)
    (by simp [hf0])
    (fun t => by
      have := (hasDerivAt_pow (m + 1) t).const_mul c
      refine this.congr_deriv ?_
      push_cast
      ring_nf)
    (fun t ht => by rw [Real.norm_eq_abs]; exact hb t ht.1 ht.2.le)
    (Set.right_mem_Icc.2 h0)
  simpa [Real.norm_eq_abs] using this

/-- **C104 (central difference).**  With a third derivative bounded by `M`, the central difference is within `M h² / 6` of the derivative. -/
theorem C104_central (h M : ℝ) (hh : 0 < h) (g g1 g2 g3 : ℝ → ℝ) (hg : ThriceOn h M g g1 g2 g3) :
    |(g h - g (-h)) / (2 * h) - g1 0| ≤ M * h ^ 2 / 6 := by
  have abs_ok : ∀ t s : ℝ, 0 ≤ t → t ≤ s → s ≤ h → |t| ≤ h ∧ |(-t)| ≤ h := fun t s a b c => by
    rw [abs_neg, abs_of_nonneg a]; exact ⟨b.trans c, b.trans c⟩
  have neg : ∀ {q q' : ℝ → ℝ} {t : ℝ}, HasDerivAt q (q' (-t)) (-t) → HasDerivAt (fun t => q (-t)) (-(q' (-t))) t := by
    intro q q' t hq
    have := HasDerivAt.comp t hq (hasDerivAt_neg t)
    rw [mul_neg, mul_one] at this
    exact this
  -- second derivative
  have s2 : ∀ t, 0 ≤ t → t ≤ h → |g2 t - g2 (-t)| ≤ 2 * M * t ^ (0 + 1) := fun t t0 th =>
    bound_from_deriv (fun t => g2 t - g2 (-t)) (fun t => g3 t + g3 (-t)) t (2 * M) 0 t0 (by simp)
      (fun s s0 st => by
        have := ((hg.d3 s (abs_ok s t s0 st th).1).sub (neg (hg.d3 (-s) (abs_ok s t s0 st th).2)))
        exact this.congr_deriv (by ring))
      (fun s s0 st => by
        have a := hg.bound s (abs_ok s t s0 st th).1
        have b := hg.bound (-s) (abs_ok s t s0 st th).2
        have := abs_add_le (g3 s) (g3 (-s))
        simp only [pow_zero, mul_one]
        push_cast
        linarith)
  -- first derivative
  have s1 : ∀ t, 0 ≤ t → t ≤ h → |g1 t + g1 (-t) - 2 * g1 0| ≤ M * t ^ (1 + 1) := fun t t0 th =>
    bound_from_deriv (fun t => g1 t + g1 (-t) - 2 * g1 0) (fun t => g2 t - g2 (-t)) t M 1 t0 (by simp; ring)
      (fun s s0 st => by
        have := ((hg.d2 s (abs_ok s t s0 st th).1).add (neg (hg.d2 (-s) (abs_ok s t s0 st th).2))).sub_const (2 * g1 0)
        exact this.congr_deriv (by ring))
      (fun s s0 st => by
        have := s2 s s0 (st.trans th)
        push_cast
        rw [zero_add, pow_one] at this
        rw [pow_one]
        linarith)
  have s0 : |g h - g (-h) - 2 * h * g1 0| ≤ M / 3 * h ^ (2 + 1) :=
    bound_from_deriv (fun t => g t - g (-t) - 2 * t * g1 0) (fun t => g1 t + g1 (-t) - 2 * g1 0) h (M / 3) 2 hh.le (by simp)
      (fun s s0 st => by
        have a := ((hg.d1 s (abs_ok s h s0 st le_rfl).1).sub (neg (hg.d1 (-s) (abs_ok s h s0 st le_rfl).2)))
        have b := ((hasDerivAt_id s).const_mul 2).mul_const (g1 0)
        exact (a.sub b).congr_deriv (by simp))
      (fun s s0 st => by
        have := s1 s s0 st
        push_cast
        have e : M / 3 * (2 + 1) * s ^ 2 = M * s ^ (1 + 1) := by ring
        rw [e]
        exact this)
  have e : (g h - g (-h)) / (2 * h) - g1 0 = (g h - g (-h) - 2 * h * g1 0) / (2 * h) := by field_simp
  rw [e, abs_div, abs_of_pos (by positivity : 0 < 2 * h), div_le_iff₀ (by positivity)]
  refine s0.trans (le_of_eq ?_)
  ring

/-- **C104 (Jacobian, exact arithmetic).**  On any manifold, every entry of the finite-difference Jacobian is within `M eps² / 6` of the
derivative along the coordinate curve `t ↦ f (integrate x (t e_i))`. -/
theorem C104_jacobian {X : Type} {n r : ℕ} (integrate : X → (Fin n → ℝ) → X) (f : X → Fin r → ℝ) (eps M : ℝ) (he : 0 < eps) (x : X)
    (J0 : Matrix (Fin r) (Fin n) ℝ) (k : Fin r) (i : Fin n) (g1 g2 g3 : ℝ → ℝ)
    (hg : ThriceOn eps M (fun t => f (integrate x (Pi.single i t)) k) g1 g2 g3) :
    |fdJacobian integrate f eps x J0 k i - g1 0| ≤ M * eps ^ 2 / 6 := by
  rw [C41_closed_form, ← Pi.single_neg]
  exact C104_central eps M he _ g1 g2 g3 hg

/-- **C104 (vector-Hessian product, exact arithmetic).** -/
theorem C104_vhp {X : Type} {n r : ℕ} (integrate : X → (Fin n → ℝ) → X) (jac : X → Matrix (Fin r) (Fin n) ℝ) (eps : ℝ) (he : 0 < eps) (x : X)
    (v : Fin r → ℝ) (H0 : Matrix (Fin n) (Fin n) ℝ) (k i : Fin n) (M : Fin r → ℝ) (g1 g2 g3 : Fin r → ℝ → ℝ)
    (hg : ∀ l, ThriceOn eps (M l) (fun t => jac (integrate x (Pi.single i t)) l k) (g1 l) (g2 l) (g3 l)) :
    |fdVhp integrate jac eps x v H0 k i - ∑ l, g1 l 0 * v l| ≤ (∑ l, M l * |v l|) * eps ^ 2 / 6 := by
  rw [fdVhp_closed, ← Pi.single_neg, ← Finset.sum_sub_distrib, Finset.sum_mul, Finset.sum_div]
  refine (Finset.abs_sum_le_sum_abs _ _).trans (Finset.sum_le_sum fun l _ => ?_)
  rw [← sub_mul, abs_mul]
  have := mul_le_mul_of_nonneg_right (C104_central eps (M l) he _ (g1 l) (g2 l) (g3 l) (hg l)) (abs_nonneg (v l))
  refine this.trans (le_of_eq ?_)
  ring

/-! ### Rounded arithmetic -/

section
variable {K : Type} [Field K] [LinearOrder K]

theorem flFd_closed (R : Rounding K) {n r : ℕ} (F : (Fin n → K) → Fin r → K) (eps : K) (x : Fin n → K) (J0 : Matrix (Fin r) (Fin n) K)
    (k : Fin r) (i : Fin n) :
    flFdJacobian R F eps x J0 k i =
      R.rnd (R.rnd (F (fun j => R.rnd (x j + (Pi.single i eps : Fin n → _) j)) k - F (fun j => R.rnd (x j + -(Pi.single i eps : Fin n → _) j)) k) / R.rnd (2 * eps)) := by
  unfold flFdJacobian
  have := fd_fold (fun (i : Fin n) (e : Fin n → K) (k : Fin r) =>
    R.rnd (R.rnd (F (fun j => R.rnd (x j + e j)) k - F (fun j => R.rnd (x j + -e j)) k) / R.rnd (2 * eps))) eps (List.finRange n) J0
  have h2 := congrArg (fun s => s.2 k i) this
  simp only [Matrix.of_apply, List.mem_finRange, if_true] at h2
  exact h2

end

/-- a stored point moved in one coordinate -/
theorem moved (R : Rounding ℝ) {n : ℕ} (x : Fin n → ℝ) (hx : ∀ j, R.rnd (x j) = x j) (i : Fin n) (eps : ℝ) :
    ∃ s, |s - eps| ≤ R.u * (|x i| + |eps|) + R.eta ∧
      (fun j => R.rnd (x j + (Pi.single i eps : Fin n → _) j)) = Function.update x i (x i + s) := by
  refine ⟨R.rnd (x i + eps) - x i, ?_, ?_⟩
  · have := R.err (x i + eps)
    have a := mul_le_mul_of_nonneg_left (abs_add_le (x i) eps) R.u_nonneg
    have e : R.rnd (x i + eps) - x i - eps = R.rnd (x i + eps) - (x i + eps) := by ring
    rw [e]
    linarith
  · ext j
    by_cases hj : j = i
    · subst hj; simp
    · simp [hj, hx]

/-- **C104 (Jacobian, rounded arithmetic).**  On a vector space, with function values correct up to `delta`, a stored point, a step whose
double is exact, third derivative at most `M` and slope at most `L` along the coordinate, the computed entry is within the truncation
error, plus (error of the values + slope × misplacement of the points) / step, plus two relative roundings, of the true derivative. -/
theorem C104_rounded (R : Rounding ℝ) {n r : ℕ} (f F : (Fin n → ℝ) → Fin r → ℝ) (eps M L delta : ℝ) (he : 0 < eps)
    (hr : R.rnd (2 * eps) = 2 * eps) (x : Fin n → ℝ) (hx : ∀ j, R.rnd (x j) = x j) (J0 : Matrix (Fin r) (Fin n) ℝ) (k : Fin r) (i : Fin n)
    (hF : ∀ y, |F y k - f y k| ≤ delta) (g1 g2 g3 : ℝ → ℝ) (hg : ThriceOn eps M (fun t => f (Function.update x i (x i + t)) k) g1 g2 g3)
    (hL : ∀ s t, |s| ≤ eps + moveError R (x i) eps → |t| ≤ eps + moveError R (x i) eps →
      |f (Function.update x i (x i + s)) k - f (Function.update x i (x i + t)) k| ≤ L * |s - t|) :
    |flFdJacobian R F eps x J0 k i - g1 0| ≤ fdError R eps M L delta (x i) +
      ((1 + R.u) ^ 2 - 1) * (|g1 0| + fdError R eps M L delta (x i)) + (1 + R.u) * R.eta / (2 * eps) + R.eta := by
  have u0 := R.u_nonneg
  have e0 := R.eta_nonneg
  have L0 : 0 ≤ L := by
    have hE : 0 ≤ moveError R (x i) eps := by unfold moveError; positivity
    have := (abs_nonneg _).trans (hL eps 0 (by rw [abs_of_pos he]; linarith) (by rw [abs_zero]; linarith))
    rw [sub_zero, abs_of_pos he] at this
    exact nonneg_of_mul_nonneg_left this he
  set g : ℝ → ℝ := fun t => f (Function.update x i (x i + t)) k with hgdef
  obtain ⟨s, hs, es⟩ := moved R x hx i eps
  obtain ⟨s', hs', es'⟩ := moved R x hx i (-eps)
  rw [abs_neg, abs_of_pos he] at hs'
  rw [abs_of_pos he] at hs
  have es'' : (fun j => R.rnd (x j + -(Pi.single i eps : Fin n → _) j)) = Function.update x i (x i + s') := by
    rw [← es']
    ext j
    rw [Pi.single_neg]
    rfl
  rw [flFd_closed, es, es'', hr]
  set N := F (Function.update x i (x i + s)) k - F (Function.update x i (x i + s')) k with hN
  have hE : 0 ≤ moveError R (x i) eps := by unfold moveError; positivity
  have he1 : |eps| ≤ eps + moveError R (x i) eps := by rw [abs_of_pos he]; linarith
  have hs1 : |s| ≤ eps + moveError R (x i) eps := by
    have := abs_add_le (s - eps) eps
    rw [sub_add_cancel, abs_of_pos he] at this
    unfold moveError
    linarith
  have hs1' : |s'| ≤ eps + moveError R (x i) eps := by
    have := abs_add_le (s' - -eps) (-eps)
    rw [sub_add_cancel, abs_neg, abs_of_pos he] at this
    unfold moveError
    linarith
  have n1 : |N - (g eps - g (-eps))| ≤ 2 * (delta + L * moveError R (x i) eps) := by
    have a := hF (Function.update x i (x i + s))
    have b := hF (Function.update x i (x i + s'))
    have c : |g s - g eps| ≤ L * moveError R (x i) eps := (hL s eps hs1 he1).trans (mul_le_mul_of_nonneg_left hs L0)
    have d : |g s' - g (-eps)| ≤ L * moveError R (x i) eps := (hL s' (-eps) hs1' (by rwa [abs_neg])).trans (mul_le_mul_of_nonneg_left hs' L0)
    have e : N - (g eps - g (-eps)) = ((F (Function.update x i (x i + s)) k - g s) - (F (Function.update x i (x i + s')) k - g s')) +
        ((g s - g eps) - (g s' - g (-eps))) := by rw [hN]; ring
    rw [e]
    have h1 := abs_add_le ((F (Function.update x i (x i + s)) k - g s) - (F (Function.update x i (x i + s')) k - g s'))
      ((g s - g eps) - (g s' - g (-eps)))
    have h2 := abs_sub (F (Function.update x i (x i + s)) k - g s) (F (Function.update x i (x i + s')) k - g s')
    have h3 := abs_sub (g s - g eps) (g s' - g (-eps))
    linarith
  have hA : |N / (2 * eps) - g1 0| ≤ fdError R eps M L delta (x i) := by
    have c := C104_central eps M he g g1 g2 g3 hg
    have e : N / (2 * eps) - g1 0 = (N - (g eps - g (-eps))) / (2 * eps) + ((g eps - g (-eps)) / (2 * eps) - g1 0) := by field_simp; ring
    rw [e]
    refine (abs_add_le _ _).trans ?_
    rw [abs_div, abs_of_pos (by positivity : 0 < 2 * eps)]
    have d := div_le_div_of_nonneg_right n1 (by positivity : 0 ≤ 2 * eps)
    have e2 : 2 * (delta + L * moveError R (x i) eps) / (2 * eps) = (delta + L * moveError R (x i) eps) / eps := by field_simp
    unfold fdError
    linarith
  set E := fdError R eps M L delta (x i) with hEdef
  set A := N / (2 * eps) with hAdef
  have hAabs : |A| ≤ |g1 0| + E := by
    have := abs_add_le (A - g1 0) (g1 0)
    rw [sub_add_cancel] at this
    linarith
  have r1 : |R.rnd N / (2 * eps) - A| ≤ R.u * |A| + R.eta / (2 * eps) := by
    have e : R.rnd N / (2 * eps) - A = (R.rnd N - N) / (2 * eps) := by rw [hAdef]; ring
    rw [e, abs_div, abs_of_pos (by positivity : 0 < 2 * eps)]
    have e2 : R.u * |A| + R.eta / (2 * eps) = (R.u * |N| + R.eta) / (2 * eps) := by
      rw [hAdef, abs_div, abs_of_pos (by positivity : 0 < 2 * eps)]; ring
    rw [e2]
    exact div_le_div_of_nonneg_right (R.err N) (by positivity)
  have r2 := R.err (R.rnd N / (2 * eps))
  have r3 : |R.rnd N / (2 * eps)| ≤ (1 + R.u) * |A| + R.eta / (2 * eps) := by
    have := abs_add_le (R.rnd N / (2 * eps) - A) A
    rw [sub_add_cancel] at this
    linarith
  have r4 : |R.rnd (R.rnd N / (2 * eps)) - g1 0| ≤ |R.rnd (R.rnd N / (2 * eps)) - R.rnd N / (2 * eps)| + |R.rnd N / (2 * eps) - A| + |A - g1 0| := by
    have a := abs_add_le (R.rnd (R.rnd N / (2 * eps)) - R.rnd N / (2 * eps)) (R.rnd N / (2 * eps) - A)
    have b := abs_add_le (R.rnd (R.rnd N / (2 * eps)) - A) (A - g1 0)
    have e1 : R.rnd (R.rnd N / (2 * eps)) - R.rnd N / (2 * eps) + (R.rnd N / (2 * eps) - A) = R.rnd (R.rnd N / (2 * eps)) - A := by ring
    have e2 : R.rnd (R.rnd N / (2 * eps)) - A + (A - g1 0) = R.rnd (R.rnd N / (2 * eps)) - g1 0 := by ring
    rw [e1] at a
    rw [e2] at b
    linarith
  have r5 := mul_le_mul_of_nonneg_left r3 u0
  have r6 : ((1 + R.u) ^ 2 - 1) * |A| ≤ ((1 + R.u) ^ 2 - 1) * (|g1 0| + E) :=
    mul_le_mul_of_nonneg_left hAabs (by nlinarith)
  have e7 : (1 + R.u) * R.eta / (2 * eps) = R.eta / (2 * eps) + R.u * (R.eta / (2 * eps)) := by ring
  rw [e7]
  have e8 : ((1 + R.u) ^ 2 - 1) * |A| = R.u * |A| + R.u * ((1 + R.u) * |A|) := by ring
  linarith

/-- the hypotheses are met: the cube at 1, step 1/2 -/
example : ∃ (R : Rounding ℝ) (f : (Fin 1 → ℝ) → Fin 1 → ℝ) (x : Fin 1 → ℝ) (g1 g2 g3 : ℝ → ℝ), R.rnd (2 * (1 / 2)) = 2 * (1 / 2) ∧
    (∀ j, R.rnd (x j) = x j) ∧ ThriceOn (1 / 2) 6 (fun t => f (Function.update x 0 (x 0 + t)) 0) g1 g2 g3 ∧ g1 0 = 3 ∧
    ∀ s t, |s| ≤ 1 / 2 + moveError R (x 0) (1 / 2) → |t| ≤ 1 / 2 + moveError R (x 0) (1 / 2) →
      |f (Function.update x 0 (x 0 + s)) 0 - f (Function.update x 0 (x 0 + t)) 0| ≤ 27 / 4 * |s - t| := by
  refine ⟨⟨fun x => x, 0, 0, le_rfl, by norm_num, le_rfl, by simp⟩, fun y _ => y 0 ^ 3, fun _ => 1, fun t => 3 * (1 + t) ^ 2, fun t => 6 * (1 + t),
    fun _ => 6, rfl, fun _ => rfl, ⟨fun t _ => ?_, fun t _ => ?_, fun t _ => ?_, fun t _ => ?_⟩, by norm_num, fun s t hs ht => ?_⟩
  · have := ((hasDerivAt_id t).const_add 1).pow 3
    simp only [Function.update_self]
    exact this.congr_deriv (by simp)
  · have := (((hasDerivAt_id t).const_add 1).pow 2).const_mul 3
    refine this.congr_deriv ?_
    simp
    ring
  · have := ((hasDerivAt_id t).const_add 1).const_mul 6
    simpa using this
  · simp
  · simp only [Function.update_self, moveError, zero_mul, add_zero] at hs ht ⊢
    rw [abs_le] at hs ht
    have e : (1 + s) ^ 3 - (1 + t) ^ 3 = ((1 + s) ^ 2 + (1 + s) * (1 + t) + (1 + t) ^ 2) * (s - t) := by ring
    rw [e, abs_mul]
    refine mul_le_mul_of_nonneg_right ?_ (abs_nonneg _)
    rw [abs_le]
    constructor <;> nlinarith

/-- the bound is attained: the cube at 0 -/
example : ThriceOn 1 6 (fun t => t ^ 3) (fun t => 3 * t ^ 2) (fun t => 6 * t) (fun _ => 6) ∧
    |((1 : ℝ) ^ 3 - (-1) ^ 3) / (2 * 1) - 3 * 0 ^ 2| = 6 * 1 ^ 2 / 6 := by
  refine ⟨⟨fun t _ => ?_, fun t _ => ?_, fun t _ => ?_, fun t _ => by simp⟩, by norm_num⟩
  · simpa using hasDerivAt_pow 3 t
  · have := (hasDerivAt_pow 2 t).const_mul 3
    refine this.congr_deriv ?_
    simp
    ring
  · simpa using (hasDerivAt_id t).const_mul 6

/-- **C104 (large points).**  The step is absolute, whatever the size of the point: in double precision, for the identity (computed without
any error) and a step of 2⁻²⁷ ≈ 7.5e-9, the computed derivative at 2³⁰ is 0 and at 2²⁶ it is 1/2, instead of 1. -/
theorem C104_large_point_false :
    flFdJacobian binary64 (fun (y : Fin 1 → ℚ) (_ : Fin 1) => y 0) ((1 / 2) ^ 27) (fun _ => 2 ^ 30) 0 0 0 = 0 ∧
    flFdJacobian binary64 (fun (y : Fin 1 → ℚ) (_ : Fin 1) => y 0) ((1 / 2) ^ 27) (fun _ => 2 ^ 26) 0 0 0 = 1 / 2 := by
  constructor
  · rw [flFd_closed]
    decide +kernel
  · rw [flFd_closed]
    decide +kernel

end ProxNLP
