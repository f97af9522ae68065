import Verif.Spec.Stall
import Verif.Lemmas.Qp
import Mathlib.Tactic.LinearCombination

/-! Helper lemmas for C93: the merit function along a line, and the Newton system of the classic formulation. -/

set_option linter.unusedSectionVars false
namespace ProxNLP

open Spec

variable {K : Type} {n m : ℕ} [Field K] [LinearOrder K] [IsStrictOrderedRing K]

theorem max_sq_above (z e : K) : max z 0 ^ 2 + 2 * max z 0 * e ≤ max (z + e) 0 ^ 2 := by
  rcases le_total z 0 with h | h <;> rcases le_total (z + e) 0 with h' | h'
  · rw [max_eq_right h, max_eq_right h']; simp
  · rw [max_eq_right h]
    have := sq_nonneg (max (z + e) 0)
    linarith
  · rw [max_eq_left h, max_eq_right h']
    nlinarith
  · rw [max_eq_left h, max_eq_left h']
    nlinarith [sq_nonneg e]

theorem max_mono_mul (z e : K) : 0 ≤ (max (z + e) 0 - max z 0) * e := by
  rcases le_total 0 e with h | h
  · exact mul_nonneg (sub_nonneg.2 (max_le_max (by linarith) le_rfl)) h
  · exact mul_nonneg_of_nonpos_of_nonpos (sub_nonpos.2 (max_le_max (by linarith) le_rfl)) h

/-- curvature of the merit function that does not depend on the point -/
def Spec.Qp.curv (q : Qp K n m) (mu : K) (d : Fin n → K) (dl : Fin m → K) : K :=
  1 / 2 * ∑ j, d j * ∑ k, q.H j k * d k + mu / 4 * ∑ i, dl i ^ 2

theorem Spec.Qp.shifted_add (q : Qp K n m) (mu : K) (prev : Fin m → K) (x d : Fin n → K) (t : K) (i : Fin m) :
    q.shifted mu prev (x + t • d) i = q.shifted mu prev x i + t * ∑ j, q.A i j * d j := by
  simp only [Qp.shifted, Qp.residual, Pi.add_apply, Pi.smul_apply, smul_eq_mul, mul_add, Finset.sum_add_distrib, Finset.mul_sum]
  have : ∀ j, q.A i j * (t * d j) = t * (q.A i j * d j) := fun j => by ring
  simp only [this]
  ring

theorem quad_smul (H : Matrix (Fin n) (Fin n) K) (d : Fin n → K) (t : K) :
    ∑ j, (t • d) j * ∑ k, H j k * (t • d) k = t ^ 2 * ∑ j, d j * ∑ k, H j k * d k := by
  simp only [Pi.smul_apply, smul_eq_mul, Finset.mul_sum]
  exact Finset.sum_congr rfl fun j _ => Finset.sum_congr rfl fun k _ => by ring

theorem cost_line (q : Qp K n m) (hs : q.H.IsSymm) (x d : Fin n → K) (t : K) :
    q.cost (x + t • d) = q.cost x + t * ∑ j, q.gradient x j * d j + t ^ 2 * (1 / 2 * ∑ j, d j * ∑ k, q.H j k * d k) := by
  have := q.cost_add hs x (t • d)
  rw [this, quad_smul]
  have e : ∑ j, q.gradient x j * (t • d) j = t * ∑ j, q.gradient x j * d j := by
    rw [Finset.mul_sum]; exact Finset.sum_congr rfl fun j _ => by simp only [Pi.smul_apply, smul_eq_mul]; ring
  rw [e]
  ring

/-- the merit function lies above its tangent, with the constant part of the curvature -/
theorem merit_above (q : Qp K n m) (hs : q.H.IsSymm) (mu : K) (hmu : 0 < mu) (prev : Fin m → K) (x d : Fin n → K) (lam dl : Fin m → K)
    (t : K) : q.merit mu prev x lam + t * q.slope mu prev x lam d dl + t ^ 2 * q.curv mu d dl ≤
      q.merit mu prev (x + t • d) (lam + t • dl) := by
  unfold Qp.merit Qp.slope Qp.curv
  rw [cost_line q hs]
  have h1 : ∀ i, 1 / mu * max (q.shifted mu prev x i - 1 / 2 * mu * lam i) 0 ^ 2 + mu / 4 * lam i ^ 2 +
      t * (2 / mu * max (q.shifted mu prev x i - 1 / 2 * mu * lam i) 0 * (∑ j, q.A i j * d j - mu / 2 * dl i) + mu / 2 * lam i * dl i) +
      t ^ 2 * (mu / 4 * dl i ^ 2) ≤
      1 / mu * max (q.shifted mu prev (x + t • d) i - 1 / 2 * mu * (lam + t • dl) i) 0 ^ 2 + mu / 4 * (lam + t • dl) i ^ 2 := by
    intro i
    have e : q.shifted mu prev (x + t • d) i - 1 / 2 * mu * (lam + t • dl) i =
        (q.shifted mu prev x i - 1 / 2 * mu * lam i) + t * (∑ j, q.A i j * d j - mu / 2 * dl i) := by
      rw [Qp.shifted_add]
      simp only [Pi.add_apply, Pi.smul_apply, smul_eq_mul]
      ring
    rw [e]
    have := mul_le_mul_of_nonneg_left (max_sq_above (q.shifted mu prev x i - 1 / 2 * mu * lam i)
      (t * (∑ j, q.A i j * d j - mu / 2 * dl i))) (show (0 : K) ≤ 1 / mu by positivity)
    simp only [Pi.add_apply, Pi.smul_apply, smul_eq_mul]
    refine le_trans (le_of_eq ?_) (add_le_add_left this _)
    ring
  have h2 := Finset.sum_le_sum fun i (_ : i ∈ Finset.univ) => h1 i
  simp only [Finset.sum_add_distrib, ← Finset.mul_sum] at h2 ⊢
  linarith

/-- the slope along a line does not decrease -/
theorem slope_mono (q : Qp K n m) (mu : K) (hmu : 0 < mu) (prev : Fin m → K) (x d : Fin n → K) (lam dl : Fin m → K)
    (t : K) (ht : 0 ≤ t) (hd : 0 ≤ ∑ j, d j * ∑ k, q.H j k * d k) :
    q.slope mu prev x lam d dl ≤ q.slope mu prev (x + t • d) (lam + t • dl) d dl := by
  unfold Qp.slope
  have h0 : ∑ j, q.gradient (x + t • d) j * d j = ∑ j, q.gradient x j * d j + t * ∑ j, d j * ∑ k, q.H j k * d k := by
    rw [Finset.mul_sum, ← Finset.sum_add_distrib]
    refine Finset.sum_congr rfl fun j _ => ?_
    have e : ∑ k, q.H j k * (x + t • d) k = ∑ k, q.H j k * x k + t * ∑ k, q.H j k * d k := by
      rw [Finset.mul_sum, ← Finset.sum_add_distrib]
      exact Finset.sum_congr rfl fun k _ => by simp only [Pi.add_apply, Pi.smul_apply, smul_eq_mul]; ring
    simp only [Qp.gradient]
    rw [e]
    ring
  rw [h0]
  have h1 : ∀ i, 2 / mu * max (q.shifted mu prev x i - 1 / 2 * mu * lam i) 0 * (∑ j, q.A i j * d j - mu / 2 * dl i) + mu / 2 * lam i * dl i ≤
      2 / mu * max (q.shifted mu prev (x + t • d) i - 1 / 2 * mu * (lam + t • dl) i) 0 * (∑ j, q.A i j * d j - mu / 2 * dl i) +
        mu / 2 * (lam + t • dl) i * dl i := by
    intro i
    have e : q.shifted mu prev (x + t • d) i - 1 / 2 * mu * (lam + t • dl) i =
        (q.shifted mu prev x i - 1 / 2 * mu * lam i) + t * (∑ j, q.A i j * d j - mu / 2 * dl i) := by
      rw [Qp.shifted_add]
      simp only [Pi.add_apply, Pi.smul_apply, smul_eq_mul]
      ring
    rw [e]
    set z := q.shifted mu prev x i - 1 / 2 * mu * lam i
    set w := ∑ j, q.A i j * d j - mu / 2 * dl i
    have h3 : 0 ≤ (max (z + t * w) 0 - max z 0) * w := by
      rcases ht.eq_or_lt with h | h
      · rw [← h]; simp
      · have := max_mono_mul z (t * w)
        have h4 : (max (z + t * w) 0 - max z 0) * (t * w) = t * ((max (z + t * w) 0 - max z 0) * w) := by ring
        rw [h4] at this
        exact nonneg_of_mul_nonneg_right this h
    have h4 : 0 ≤ 2 / mu * ((max (z + t * w) 0 - max z 0) * w) := by positivity
    have h5 : 0 ≤ mu / 2 * t * dl i ^ 2 := by positivity
    simp only [Pi.add_apply, Pi.smul_apply, smul_eq_mul]
    nlinarith
  have h2 := Finset.sum_le_sum fun i (_ : i ∈ Finset.univ) => h1 i
  have h3 := mul_nonneg ht hd
  linarith

theorem slope_smul (q : Qp K n m) (mu : K) (prev : Fin m → K) (x d : Fin n → K) (lam dl : Fin m → K) (s : K) :
    q.slope mu prev x lam (s • d) (s • dl) = s * q.slope mu prev x lam d dl := by
  unfold Qp.slope
  rw [mul_add, Finset.mul_sum, Finset.mul_sum]
  congr 1
  · exact Finset.sum_congr rfl fun j _ => by simp only [Pi.smul_apply, smul_eq_mul]; ring
  · refine Finset.sum_congr rfl fun i _ => ?_
    have e : ∑ j, q.A i j * (s • d) j = s * ∑ j, q.A i j * d j := by
      rw [Finset.mul_sum]; exact Finset.sum_congr rfl fun j _ => by simp only [Pi.smul_apply, smul_eq_mul]; ring
    rw [e]
    simp only [Pi.smul_apply, smul_eq_mul]
    ring

theorem Spec.Qp.StronglyConvex.nonneg {q : Qp K n m} {h : K} (hc : q.StronglyConvex h) (d : Fin n → K) :
    0 ≤ ∑ j, d j * ∑ k, q.H j k * d k :=
  le_trans (mul_nonneg hc.pos.le (Finset.sum_nonneg fun _ _ => sq_nonneg _)) (hc.bound d)

theorem Spec.Qp.StronglyConvex.eq_zero {q : Qp K n m} {h : K} (hc : q.StronglyConvex h) (d : Fin n → K)
    (hd : ∑ j, d j * ∑ k, q.H j k * d k ≤ 0) : d = 0 := by
  have h1 : ∑ j, d j ^ 2 ≤ 0 := by
    by_contra hn
    have := mul_pos hc.pos (not_le.1 hn)
    have := hc.bound d
    linarith
  have h2 : ∑ j, d j ^ 2 = 0 := le_antisymm h1 (Finset.sum_nonneg fun _ _ => sq_nonneg _)
  funext j
  have := (Finset.sum_eq_zero_iff_of_nonneg fun _ _ => sq_nonneg _).1 h2 j (Finset.mem_univ j)
  exact pow_eq_zero_iff two_ne_zero |>.1 this

theorem curv_pos (q : Qp K n m) (h : K) (hc : q.StronglyConvex h) (mu : K) (hmu : 0 < mu) (prev : Fin m → K) (x d : Fin n → K)
    (lam dl : Fin m → K) (hs : q.slope mu prev x lam d dl ≠ 0) : 0 < q.curv mu d dl := by
  have h1 := hc.nonneg d
  have h2 : 0 ≤ ∑ i, dl i ^ 2 := Finset.sum_nonneg fun _ _ => sq_nonneg _
  have h3 : 0 ≤ mu / 4 * ∑ i, dl i ^ 2 := by positivity
  rcases (add_nonneg (mul_nonneg (by norm_num : (0 : K) ≤ 1 / 2) h1) h3).eq_or_lt with h0 | h0
  · exfalso
    have hd : d = 0 := hc.eq_zero d (by linarith)
    have hl : ∑ i, dl i ^ 2 = 0 := by
      have : mu / 4 * ∑ i, dl i ^ 2 = 0 := by linarith
      rcases mul_eq_zero.1 this with h | h
      · linarith
      · exact h
    have hl' : dl = 0 := by
      funext i
      have := (Finset.sum_eq_zero_iff_of_nonneg fun _ _ => sq_nonneg _).1 hl i (Finset.mem_univ i)
      exact pow_eq_zero_iff two_ne_zero |>.1 this
    apply hs
    rw [hd, hl']
    simp [Qp.slope]
  · exact h0

/-- the Newton system has at most one solution -/
theorem ClassicNewton.unique (q : Qp K n m) (h : K) (hc : q.StronglyConvex h) (mu : K) (hmu : 0 < mu) (prev : Fin m → K) (x : Fin n → K)
    (lam : Fin m → K) (d d' : Fin n → K) (dl dl' : Fin m → K) (h1 : q.ClassicNewton mu prev x lam d dl)
    (h2 : q.ClassicNewton mu prev x lam d' dl') : d = d' ∧ dl = dl' := by
  set e : Fin n → K := fun j => d j - d' j with he
  set el : Fin m → K := fun i => dl i - dl' i with hel
  have g1 : ∀ j, ∑ k, q.H j k * e k + ∑ i, q.A i j * el i = 0 := by
    intro j
    have a := h1.1 j
    have b := h2.1 j
    simp only [he, hel, mul_sub, Finset.sum_sub_distrib]
    linear_combination a - b
  have g2 : ∀ i, el i * ∑ j, q.A i j * e j = mu * el i ^ 2 := by
    intro i
    have a := h1.2 i
    have b := h2.2 i
    split_ifs at a b with hh
    · have : ∑ j, q.A i j * e j = mu * el i := by
        simp only [he, hel, mul_sub, Finset.sum_sub_distrib]
        linear_combination a - b
      rw [this]; ring
    · have : el i = 0 := by rw [hel]; simp only; rw [a, b, sub_self]
      rw [this]; ring
  have g3 : ∑ j, e j * ∑ k, q.H j k * e k = -(mu * ∑ i, el i ^ 2) := by
    have s1 : ∑ j, e j * ∑ k, q.H j k * e k = ∑ j, e j * -∑ i, q.A i j * el i :=
      Finset.sum_congr rfl fun j _ => by rw [eq_neg_of_add_eq_zero_left (g1 j)]
    rw [s1, Finset.mul_sum, ← Finset.sum_congr rfl fun i _ => g2 i]
    simp only [mul_neg, Finset.sum_neg_distrib, Finset.mul_sum]
    rw [Finset.sum_comm]
    congr 1
    exact Finset.sum_congr rfl fun i _ => Finset.sum_congr rfl fun j _ => by ring
  have hs : 0 ≤ ∑ i, el i ^ 2 := Finset.sum_nonneg fun _ _ => sq_nonneg _
  have hz : e = 0 := hc.eq_zero e (by rw [g3]; nlinarith)
  have hz2 : ∑ i, el i ^ 2 = 0 := by
    have : mu * ∑ i, el i ^ 2 = 0 := by
      have := g3
      rw [hz] at this
      simp at this
      rcases this with h | h
      · exact absurd h hmu.ne'
      · rw [h, mul_zero]
    rcases mul_eq_zero.1 this with h | h
    · exact absurd h hmu.ne'
    · exact h
  refine ⟨?_, ?_⟩
  · funext j
    have := congrFun hz j
    simp only [he, Pi.zero_apply] at this
    linarith
  · funext i
    have h0 := (Finset.sum_eq_zero_iff_of_nonneg fun _ _ => sq_nonneg _).1 hz2 i (Finset.mem_univ i)
    have := pow_eq_zero_iff two_ne_zero |>.1 h0
    simp only [hel] at this
    linarith

/-- after a partial step that does not change the rows of the system, the direction points to the same place -/
theorem ClassicNewton.shrink (q : Qp K n m) (mu : K) (prev : Fin m → K) (x : Fin n → K)
    (lam : Fin m → K) (d : Fin n → K) (dl : Fin m → K) (t : K) (h : q.ClassicNewton mu prev x lam d dl)
    (hr : ∀ i, 0 < q.shifted mu prev (x + t • d) i ↔ 0 < q.shifted mu prev x i) :
    q.ClassicNewton mu prev (x + t • d) (lam + t • dl) ((1 - t) • d) ((1 - t) • dl) := by
  have hsm : ∀ (l : ℕ) (u v : Fin l → K) (s : K), ∑ j, u j * (s • v) j = s * ∑ j, u j * v j := by
    intro l u v s
    rw [Finset.mul_sum]; exact Finset.sum_congr rfl fun j _ => by simp only [Pi.smul_apply, smul_eq_mul]; ring
  refine ⟨fun j => ?_, fun i => ?_⟩
  · rw [hsm, hsm]
    have := h.1 j
    have e : q.lagrangian (x + t • d) (lam + t • dl) j =
        q.lagrangian x lam j + t * (∑ k, q.H j k * d k + ∑ i, q.A i j * dl i) := by
      simp only [Qp.lagrangian, Qp.gradient, Pi.add_apply, mul_add, Finset.sum_add_distrib]
      rw [hsm, hsm]
      ring
    rw [e]
    linear_combination this
  · have := h.2 i
    by_cases hh : 0 < q.shifted mu prev x i
    · rw [if_pos hh] at this
      rw [if_pos ((hr i).2 hh), hsm, Qp.shifted_add]
      simp only [Pi.add_apply, Pi.smul_apply, smul_eq_mul]
      linear_combination this
    · rw [if_neg hh] at this
      rw [if_neg (fun h' => hh ((hr i).1 h'))]
      simp only [Pi.add_apply, Pi.smul_apply, smul_eq_mul, this]
      ring

end ProxNLP
