import Verif.Spec.NewtonReal
import Mathlib.Analysis.Calculus.MeanValue
import Mathlib.Analysis.Calculus.Deriv.Pow
import Mathlib.Analysis.Real.Sqrt
import Mathlib.Tactic.LinearCombination

/-! Helper lemmas for C115: Taylor estimates from a Lipschitz continuous Hessian, over the real numbers. -/

set_option linter.unusedSectionVars false
namespace ProxNLP

open Spec

variable {n m : ℕ}

theorem euclid_nonneg (v : Fin n → ℝ) : 0 ≤ euclid v := Real.sqrt_nonneg _

theorem euclid_sq (v : Fin n → ℝ) : euclid v ^ 2 = ∑ j, v j ^ 2 := Real.sq_sqrt (Finset.sum_nonneg fun _ _ => sq_nonneg _)

theorem euclid_smul (t : ℝ) (ht : 0 ≤ t) (v : Fin n → ℝ) : euclid (t • v) = t * euclid v := by
  unfold euclid
  have : ∑ j, (t • v) j ^ 2 = t ^ 2 * ∑ j, v j ^ 2 := by
    rw [Finset.mul_sum]
    exact Finset.sum_congr rfl fun j _ => by rw [Pi.smul_apply, smul_eq_mul]; ring
  rw [this, Real.sqrt_mul (sq_nonneg t), Real.sqrt_sq ht]

theorem within_segment {x0 x d : Fin n → ℝ} {r : ℝ} (hx : InBall x0 r x) (hy : InBall x0 r (x + d)) {t : ℝ} (h0 : 0 ≤ t) (h1 : t ≤ 1) :
    InBall x0 r (x + t • d) := by
  unfold InBall at hx hy ⊢
  have : ∀ j, ((x + t • d) j - x0 j) ^ 2 ≤ (1 - t) * (x j - x0 j) ^ 2 + t * ((x + d) j - x0 j) ^ 2 := by
    intro j
    simp only [Pi.add_apply, Pi.smul_apply, smul_eq_mul]
    nlinarith [mul_nonneg (mul_nonneg h0 (sub_nonneg.2 h1)) (sq_nonneg (d j))]
  refine le_trans (Finset.sum_le_sum fun j _ => this j) ?_
  rw [Finset.sum_add_distrib, ← Finset.mul_sum, ← Finset.mul_sum]
  nlinarith [mul_le_mul_of_nonneg_left hx (sub_nonneg.2 h1), mul_le_mul_of_nonneg_left hy h0]

/-- comparison of two functions on the unit interval through their derivatives -/
theorem le_of_deriv_le {p q p' q' : ℝ → ℝ} (hp : ∀ t, 0 ≤ t → t ≤ 1 → HasDerivAt p (p' t) t) (hq : ∀ t, HasDerivAt q (q' t) t)
    (h : ∀ t, 0 ≤ t → t ≤ 1 → p' t ≤ q' t) (h0 : p 0 ≤ q 0) : p 1 ≤ q 1 := by
  refine image_le_of_deriv_right_le_deriv_boundary (f := p) (f' := p') (a := 0) (b := 1) (B := q) (B' := q') ?_ ?_ h0 ?_ ?_ ?_
    (Set.right_mem_Icc.2 zero_le_one)
  · exact fun t ht => (hp t ht.1 ht.2).continuousAt.continuousWithinAt
  · exact fun t ht => (hp t ht.1 ht.2.le).hasDerivWithinAt
  · exact fun t _ => (hq t).continuousAt.continuousWithinAt
  · exact fun t _ => (hq t).hasDerivWithinAt
  · exact fun t ht => h t ht.1 ht.2.le

/-- derivative along a line at any of its points -/
theorem line_deriv {g : (Fin n → ℝ) → ℝ} {x d : Fin n → ℝ} {t a : ℝ} (h : HasDerivAt (fun s : ℝ => g (x + t • d + s • d)) a 0) :
    HasDerivAt (fun s : ℝ => g (x + s • d)) a t := by
  have h1 : HasDerivAt (fun s : ℝ => s - t) 1 t := (hasDerivAt_id t).sub_const t
  have h2 : HasDerivAt (fun s : ℝ => g (x + t • d + s • d)) a ((fun s : ℝ => s - t) t) := by
    show HasDerivAt _ a (t - t); rw [sub_self]; exact h
  have h3 := HasDerivAt.comp (h := fun s : ℝ => s - t) (h₂ := fun s : ℝ => g (x + t • d + s • d)) t h2 h1
  rw [mul_one] at h3
  have e : ((fun s : ℝ => g (x + t • d + s • d)) ∘ fun s : ℝ => s - t) = fun s : ℝ => g (x + s • d) := by
    funext s
    show g (x + t • d + (s - t) • d) = _
    congr 1
    rw [add_assoc, ← add_smul]
    congr 2
    ring
  rwa [e] at h3

/-- the first Taylor estimate, tested against a vector -/
theorem taylor_grad (P : SmoothProgram ℝ n m) (x0 : Fin n → ℝ) (r L : ℝ)
    (hg : ∀ y, InBall x0 r y → ∀ d j, HasDerivAt (fun t : ℝ => P.grad (y + t • d) j) (∑ k, P.hess y j k * d k) 0)
    (hL : ∀ y z, InBall x0 r y → InBall x0 r z → ∀ u v : Fin n → ℝ,
      |∑ j, u j * ∑ k, (P.hess z j k - P.hess y j k) * v k| ≤ L * euclid (z - y) * euclid u * euclid v)
    (x d : Fin n → ℝ) (hx : InBall x0 r x) (hxd : InBall x0 r (x + d)) (u : Fin n → ℝ) :
    ∑ j, u j * (P.grad (x + d) j - P.grad x j - ∑ k, P.hess x j k * d k) ≤ L / 2 * euclid d ^ 2 * euclid u := by
  have key := le_of_deriv_le (p := fun t => ∑ j, u j * (P.grad (x + t • d) j - P.grad x j - t * ∑ k, P.hess x j k * d k))
    (p' := fun t => ∑ j, u j * (∑ k, P.hess (x + t • d) j k * d k - ∑ k, P.hess x j k * d k))
    (q := fun t => L / 2 * euclid d ^ 2 * euclid u * t ^ 2) (q' := fun t => L / 2 * euclid d ^ 2 * euclid u * (2 * t)) ?_ ?_ ?_ ?_
  · simpa using key
  · intro t h0 h1
    refine HasDerivAt.fun_sum fun j _ => HasDerivAt.const_mul _ (HasDerivAt.sub (HasDerivAt.sub_const _ ?_) ?_)
    · exact line_deriv (g := fun y => P.grad y j) (hg _ (within_segment hx hxd h0 h1) d j)
    · simpa using (hasDerivAt_id t).mul_const (∑ k, P.hess x j k * d k)
  · intro t
    have := (hasDerivAt_pow 2 t).const_mul (L / 2 * euclid d ^ 2 * euclid u)
    simpa using this
  · intro t h0 h1
    have h2 := hL x (x + t • d) hx (within_segment hx hxd h0 h1) u d
    have e1 : x + t • d - x = t • d := by abel
    rw [e1, euclid_smul t h0] at h2
    have e2 : ∀ j, ∑ k, P.hess (x + t • d) j k * d k - ∑ k, P.hess x j k * d k = ∑ k, (P.hess (x + t • d) j k - P.hess x j k) * d k := by
      intro j
      rw [← Finset.sum_sub_distrib]
      exact Finset.sum_congr rfl fun k _ => by ring
    simp only [e2]
    refine le_trans (le_abs_self _) (le_trans h2 (le_of_eq ?_))
    ring
  · simp

theorem taylor_grad_sq (P : SmoothProgram ℝ n m) (x0 : Fin n → ℝ) (r L : ℝ)
    (hg : ∀ y, InBall x0 r y → ∀ d j, HasDerivAt (fun t : ℝ => P.grad (y + t • d) j) (∑ k, P.hess y j k * d k) 0)
    (hL : ∀ y z, InBall x0 r y → InBall x0 r z → ∀ u v : Fin n → ℝ,
      |∑ j, u j * ∑ k, (P.hess z j k - P.hess y j k) * v k| ≤ L * euclid (z - y) * euclid u * euclid v)
    (x d : Fin n → ℝ) (hx : InBall x0 r x) (hxd : InBall x0 r (x + d)) :
    ∑ j, (P.grad (x + d) j - P.grad x j - ∑ k, P.hess x j k * d k) ^ 2 ≤ (L / 2) ^ 2 * (∑ j, d j ^ 2) ^ 2 := by
  set u : Fin n → ℝ := fun j => P.grad (x + d) j - P.grad x j - ∑ k, P.hess x j k * d k with hu
  have h1 := taylor_grad P x0 r L hg hL x d hx hxd u
  have h2 : ∑ j, u j * (P.grad (x + d) j - P.grad x j - ∑ k, P.hess x j k * d k) = euclid u ^ 2 := by
    rw [euclid_sq]; exact Finset.sum_congr rfl fun j _ => (pow_two _).symm
  rw [h2] at h1
  have h3 : ∑ j, (P.grad (x + d) j - P.grad x j - ∑ k, P.hess x j k * d k) ^ 2 = euclid u ^ 2 := (euclid_sq u).symm
  rw [h3, ← euclid_sq d, ← mul_pow]
  have h4 := euclid_nonneg u
  rcases h4.eq_or_lt with h5 | h5
  · rw [← h5, zero_pow (by norm_num)]; exact sq_nonneg _
  · have h6 : euclid u ≤ L / 2 * euclid d ^ 2 := by
      rw [pow_two] at h1
      exact le_of_mul_le_mul_right h1 h5
    exact pow_le_pow_left₀ h4 h6 2

theorem taylor_cost (P : SmoothProgram ℝ n m) (x0 : Fin n → ℝ) (r L : ℝ)
    (hf : ∀ y, InBall x0 r y → ∀ d, HasDerivAt (fun t : ℝ => P.f (y + t • d)) (∑ j, P.grad y j * d j) 0)
    (hg : ∀ y, InBall x0 r y → ∀ d j, HasDerivAt (fun t : ℝ => P.grad (y + t • d) j) (∑ k, P.hess y j k * d k) 0)
    (hL : ∀ y z, InBall x0 r y → InBall x0 r z → ∀ u v : Fin n → ℝ,
      |∑ j, u j * ∑ k, (P.hess z j k - P.hess y j k) * v k| ≤ L * euclid (z - y) * euclid u * euclid v)
    (x d : Fin n → ℝ) (hx : InBall x0 r x) (hxd : InBall x0 r (x + d)) :
    |P.f (x + d) - P.f x - ∑ j, P.grad x j * d j - 1 / 2 * ∑ j, d j * ∑ k, P.hess x j k * d k| ≤ L / 6 * euclid d ^ 3 := by
  -- the derivative of the remainder
  have hder : ∀ t, 0 ≤ t → t ≤ 1 → HasDerivAt
      (fun t : ℝ => P.f (x + t • d) - P.f x - t * ∑ j, P.grad x j * d j - t ^ 2 * (1 / 2 * ∑ j, d j * ∑ k, P.hess x j k * d k))
      (∑ j, P.grad (x + t • d) j * d j - ∑ j, P.grad x j * d j - 2 * t * (1 / 2 * ∑ j, d j * ∑ k, P.hess x j k * d k)) t := by
    intro t h0 h1
    refine HasDerivAt.sub (HasDerivAt.sub (HasDerivAt.sub_const _ ?_) ?_) ?_
    · exact line_deriv (g := P.f) (hf _ (within_segment hx hxd h0 h1) d)
    · simpa using (hasDerivAt_id t).mul_const (∑ j, P.grad x j * d j)
    · have := (hasDerivAt_pow 2 t).mul_const (1 / 2 * ∑ j, d j * ∑ k, P.hess x j k * d k)
      simpa using this
  have hq : ∀ t : ℝ, HasDerivAt (fun t : ℝ => L / 6 * euclid d ^ 3 * t ^ 3) (L / 6 * euclid d ^ 3 * (3 * t ^ 2)) t := by
    intro t
    have := (hasDerivAt_pow 3 t).const_mul (L / 6 * euclid d ^ 3)
    simpa using this
  have heq : ∀ t (s : ℝ), s * (∑ j, P.grad (x + t • d) j * d j - ∑ j, P.grad x j * d j - 2 * t * (1 / 2 * ∑ j, d j * ∑ k, P.hess x j k * d k)) =
      ∑ j, (s • d) j * (P.grad (x + t • d) j - P.grad x j - ∑ k, P.hess x j k * (t • d) k) := by
    intro t s
    have e1 : ∀ j, ∑ k, P.hess x j k * (t • d) k = t * ∑ k, P.hess x j k * d k := by
      intro j
      rw [Finset.mul_sum]
      exact Finset.sum_congr rfl fun k _ => by rw [Pi.smul_apply, smul_eq_mul]; ring
    have e2 : 2 * t * (1 / 2 * ∑ j, d j * ∑ k, P.hess x j k * d k) = ∑ j, t * (d j * ∑ k, P.hess x j k * d k) := by
      rw [← Finset.mul_sum]; ring
    rw [e2, ← Finset.sum_sub_distrib, ← Finset.sum_sub_distrib, Finset.mul_sum]
    refine Finset.sum_congr rfl fun j _ => ?_
    rw [e1 j, Pi.smul_apply, smul_eq_mul]
    ring
  have hbound : ∀ t, 0 ≤ t → t ≤ 1 → ∀ u : Fin n → ℝ, euclid u = euclid d →
      ∑ j, u j * (P.grad (x + t • d) j - P.grad x j - ∑ k, P.hess x j k * (t • d) k) ≤ L / 6 * euclid d ^ 3 * (3 * t ^ 2) := by
    intro t h0 h1 u hu
    refine le_trans (taylor_grad P x0 r L hg hL x (t • d) hx (within_segment hx hxd h0 h1) u) (le_of_eq ?_)
    rw [euclid_smul t h0, hu]
    ring
  have hneg : euclid ((-1 : ℝ) • d) = euclid d := by
    unfold euclid
    congr 1
    exact Finset.sum_congr rfl fun j _ => by rw [Pi.smul_apply, smul_eq_mul]; ring
  have hone : euclid ((1 : ℝ) • d) = euclid d := by rw [one_smul]
  rw [abs_le]
  constructor
  · have key := le_of_deriv_le (fun t h0 h1 => (hder t h0 h1).const_mul (-1 : ℝ)) hq (fun t h0 h1 => by
      rw [heq t (-1)]; exact hbound t h0 h1 _ hneg) (by simp)
    simp only [one_smul, one_mul, one_pow, mul_one] at key
    linarith
  · have key := le_of_deriv_le (fun t h0 h1 => (hder t h0 h1).const_mul (1 : ℝ)) hq (fun t h0 h1 => by
      rw [heq t 1]; exact hbound t h0 h1 _ hone) (by simp)
    simp only [one_smul, one_mul, one_pow, mul_one] at key
    linarith

end ProxNLP
