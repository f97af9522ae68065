import Verif.Lemmas.Descent
import Verif.Spec.Convex
import Verif.Lemmas.Qp
import Verif.Props.Sets
import Verif.Props.Backends

/-! Helper lemmas for C83: the merit function of a smooth convex problem with affine constraints, and one step on it. -/

set_option linter.unusedSectionVars false
namespace ProxNLP

open Spec

variable {K : Type} {n m : ℕ} [Field K] [LinearOrder K] [IsStrictOrderedRing K]

/-- value of the penalty in one coordinate -/
def penK (s : LeafSet K) (z : K) : K := match s with | .l1 => |z| | _ => 0

theorem penK_nonneg (s : LeafSet K) (z : K) : 0 ≤ penK s z := by
  unfold penK
  split
  · exact abs_nonneg z
  · exact le_rfl

/-- scalar envelope of one coordinate -/
def envK (s : LeafSet K) (mu : K) (k : ℕ) (z : K) : K :=
  penK s (z - s.normalAt mu k z) + (1 / 2) * (1 / mu) * s.normalAt mu k z ^ 2

theorem envK_nonneg (s : LeafSet K) (mu : K) (hmu : 0 < mu) (k : ℕ) (z : K) : 0 ≤ envK s mu k z := by
  unfold envK
  have : 0 ≤ (1 / 2) * (1 / mu) * s.normalAt mu k z ^ 2 := by positivity
  have := penK_nonneg s (z - s.normalAt mu k z)
  linarith

/-- the envelope lies below its tangent parabola -/
theorem envK_descent (s : LeafSet K) (mu : K) (hmu : 0 < mu) (k : ℕ) (hv : ValidAt s k) (z t : K) :
    2 * envK s mu k (z + t) ≤ 2 * envK s mu k z + 2 / mu * s.normalAt mu k z * t + 1 / mu * t ^ 2 := by
  have key : envK s mu k (z + t) ≤ penK s (z - s.normalAt mu k z) + (1 / 2) * (1 / mu) * (s.normalAt mu k z + t) ^ 2 := by
    have hind : IndAt s k → s.normalAt mu k (z + t) ^ 2 ≤ (s.normalAt mu k z + t) ^ 2 := by
      intro hi
      have h1 := normalAt_mul_le s mu k (z + t) (s.projAt mu k z) hi (projAt_mem s mu k z hv)
      have e1 := projAt_add_normalAt s mu k z
      have e2 := projAt_add_normalAt s mu k (z + t)
      have e3 : s.normalAt mu k z + t = s.normalAt mu k (z + t) - (s.projAt mu k z - s.projAt mu k (z + t)) := by linarith
      rw [e3]
      nlinarith [sq_nonneg (s.projAt mu k z - s.projAt mu k (z + t))]
    unfold envK
    cases s with
    | l1 =>
      simp only [penK]
      have h1 := soft_min mu (z + t) (z - LeafSet.normalAt .l1 mu k z) hmu
      simp only [LeafSet.normalAt] at h1 ⊢
      have e1 : z + t - (z + t - signK (z + t) * max (|z + t| - mu) 0) = signK (z + t) * max (|z + t| - mu) 0 := by ring
      rw [e1]
      refine le_trans h1 (le_of_eq ?_)
      congr 2
      ring
    | equality =>
      simpa [penK] using mul_le_mul_of_nonneg_left (hind trivial) (show (0 : K) ≤ (1 / 2) * (1 / mu) by positivity)
    | negOrthant =>
      simpa [penK] using mul_le_mul_of_nonneg_left (hind trivial) (show (0 : K) ≤ (1 / 2) * (1 / mu) by positivity)
    | box lo hi =>
      simpa [penK] using mul_le_mul_of_nonneg_left (hind hv) (show (0 : K) ≤ (1 / 2) * (1 / mu) by positivity)
  have e : 2 * (penK s (z - s.normalAt mu k z) + (1 / 2) * (1 / mu) * (s.normalAt mu k z + t) ^ 2) =
      2 * envK s mu k z + 2 / mu * s.normalAt mu k z * t + 1 / mu * t ^ 2 := by
    unfold envK
    field_simp
    ring
  linarith

/-- the merit function of the problem -/
def cvMerit (f : (Fin n → K) → K) (A : Fin m → Fin n → K) (b : Fin m → K) (leaf : Fin m → LeafSet K × ℕ) (mu : K) (prev : Fin m → K)
    (x : Fin n → K) (lam : Fin m → K) : K :=
  f x + ∑ i, (2 * envK (leaf i).1 mu (leaf i).2 (∑ j, A i j * x j - b i + mu * prev i - 1 / 2 * mu * lam i) + mu / 4 * lam i ^ 2)

theorem meritEvaluate_leaves (leaf : Fin m → LeafSet K × ℕ) (mu v : K) (z lam : Fin m → K) :
    meritEvaluate (StackedSet.ofLeaves leaf) mu v z lam =
      v + ∑ i, (2 * envK (leaf i).1 mu (leaf i).2 (z i) + mu / 4 * lam i ^ 2) := by
  unfold meritEvaluate
  have e : (StackedSet.ofLeaves leaf).evaluate mu (fun i => z i - (StackedSet.ofLeaves leaf).normal mu z i) =
      ∑ i, penK (leaf i).1 (z i - (leaf i).1.normalAt mu (leaf i).2 (z i)) := rfl
  simp only
  rw [e]
  simp only [StackedSet.ofLeaves, envK, Finset.mul_sum, Finset.sum_add_distrib, mul_add, Finset.sum_div]
  congr 2
  exact Finset.sum_congr rfl fun i _ => by ring

theorem cvMerit_low (f : (Fin n → K) → K) (A : Fin m → Fin n → K) (b : Fin m → K) (leaf : Fin m → LeafSet K × ℕ) (mu : K) (hmu : 0 < mu)
    (prev : Fin m → K) (x : Fin n → K) (lam : Fin m → K) (low : K) (h : low ≤ f x) : low ≤ cvMerit f A b leaf mu prev x lam := by
  unfold cvMerit
  have : 0 ≤ ∑ i, (2 * envK (leaf i).1 mu (leaf i).2 (∑ j, A i j * x j - b i + mu * prev i - 1 / 2 * mu * lam i) + mu / 4 * lam i ^ 2) :=
    Finset.sum_nonneg fun i _ => by
      have := envK_nonneg (leaf i).1 mu hmu (leaf i).2 (∑ j, A i j * x j - b i + mu * prev i - 1 / 2 * mu * lam i)
      have h2 : 0 ≤ mu / 4 * lam i ^ 2 := by positivity
      linarith
  linarith

/-- quadratic upper bound of the merit function -/
theorem cvMerit_descent (f : (Fin n → K) → K) (g : Fin n → K) (A : Fin m → Fin n → K) (b : Fin m → K) (leaf : Fin m → LeafSet K × ℕ)
    (hv : ∀ i, ValidAt (leaf i).1 (leaf i).2) (L mu : K) (hmu : 0 < mu) (prev : Fin m → K) (x d : Fin n → K) (lam dl : Fin m → K)
    (hf : f (x + d) ≤ f x + ∑ j, g j * d j + L / 2 * ∑ j, d j ^ 2) (pd : Fin m → K)
    (hpd : ∀ i, pd i = (leaf i).1.normalAt mu (leaf i).2 (∑ j, A i j * x j - b i + mu * prev i - 1 / 2 * mu * lam i) * (1 / mu / (1 / 2))) :
    cvMerit f A b leaf mu prev (x + d) (lam + dl) ≤ cvMerit f A b leaf mu prev x lam +
      (∑ j, (g j + ∑ i, A i j * pd i) * d j + ∑ i, 1 / 2 * mu * (lam i - pd i) * dl i) +
      (L / 2 * ∑ j, d j ^ 2 + ∑ i, (1 / mu * (∑ j, A i j * d j - mu / 2 * dl i) ^ 2 + mu / 4 * dl i ^ 2)) := by
  unfold cvMerit
  have h1 : ∀ i, 2 * envK (leaf i).1 mu (leaf i).2 (∑ j, A i j * (x + d) j - b i + mu * prev i - 1 / 2 * mu * (lam + dl) i) +
        mu / 4 * (lam + dl) i ^ 2 ≤
      2 * envK (leaf i).1 mu (leaf i).2 (∑ j, A i j * x j - b i + mu * prev i - 1 / 2 * mu * lam i) + mu / 4 * lam i ^ 2 +
      (pd i * ∑ j, A i j * d j + 1 / 2 * mu * (lam i - pd i) * dl i) +
      (1 / mu * (∑ j, A i j * d j - mu / 2 * dl i) ^ 2 + mu / 4 * dl i ^ 2) := by
    intro i
    have e : ∑ j, A i j * (x + d) j - b i + mu * prev i - 1 / 2 * mu * (lam + dl) i =
        (∑ j, A i j * x j - b i + mu * prev i - 1 / 2 * mu * lam i) + (∑ j, A i j * d j - mu / 2 * dl i) := by
      simp only [Pi.add_apply, mul_add, Finset.sum_add_distrib]
      ring
    rw [e]
    have := envK_descent (leaf i).1 mu hmu (leaf i).2 (hv i) (∑ j, A i j * x j - b i + mu * prev i - 1 / 2 * mu * lam i)
      (∑ j, A i j * d j - mu / 2 * dl i)
    have hp : 2 / mu * (leaf i).1.normalAt mu (leaf i).2 (∑ j, A i j * x j - b i + mu * prev i - 1 / 2 * mu * lam i) = pd i := by
      rw [hpd i]; field_simp
    rw [hp] at this
    simp only [Pi.add_apply]
    nlinarith [this]
  have h2 := Finset.sum_le_sum fun i (_ : i ∈ Finset.univ) => h1 i
  simp only [Finset.sum_add_distrib] at h2 ⊢
  have e3 : ∑ i, pd i * ∑ j, A i j * d j = ∑ j, (∑ i, A i j * pd i) * d j := by
    simp only [Finset.mul_sum, Finset.sum_mul]
    rw [Finset.sum_comm]
    exact Finset.sum_congr rfl fun i _ => Finset.sum_congr rfl fun j _ => by ring
  simp only [add_mul, Finset.sum_add_distrib]
  linarith

theorem quad_add_smul (H : Matrix (Fin n) (Fin n) K) (hs : H.IsSymm) (u v : Fin n → K) (a c : K) :
    quad H (fun i => a * u i - c * v i) = a ^ 2 * quad H u - 2 * a * c * (∑ i, u i * ∑ j, H i j * v j) + c ^ 2 * quad H v := by
  have e := sum_symm_mul H hs u v
  have h1 : ∀ i, ∑ j, H i j * (a * u j - c * v j) = a * ∑ j, H i j * u j - c * ∑ j, H i j * v j := by
    intro i
    rw [Finset.mul_sum, Finset.mul_sum, ← Finset.sum_sub_distrib]
    exact Finset.sum_congr rfl fun j _ => by ring
  unfold quad
  simp only [h1]
  have h2 : ∀ p q : Fin n → K, ∑ i, (a * u i - c * v i) * (a * p i - c * q i) =
      a ^ 2 * (∑ i, u i * p i) - a * c * (∑ i, u i * q i) - a * c * (∑ i, v i * p i) + c ^ 2 * ∑ i, v i * q i := by
    intro p q
    simp only [Finset.mul_sum]
    rw [← Finset.sum_sub_distrib, ← Finset.sum_sub_distrib, ← Finset.sum_add_distrib]
    exact Finset.sum_congr rfl fun i _ => by ring
  rw [h2]
  linear_combination (a * c) * e

theorem Spec.Between.posDef {H : Matrix (Fin n) (Fin n) K} {lo hi : K} (hb : Between H lo hi) (h0 : 0 < lo) : PosDef H := by
  intro v hv
  obtain ⟨j, hj⟩ := Function.ne_iff.1 hv
  refine lt_of_lt_of_le (mul_pos h0 ?_) (hb.lower v)
  exact Finset.sum_pos' (fun i _ => sq_nonneg _) ⟨j, Finset.mem_univ _, by
    have := mul_self_pos.2 hj; rw [pow_two]; exact this⟩

/-- Cauchy-Schwarz for a positive definite form -/
theorem quad_cs (H : Matrix (Fin n) (Fin n) K) (hs : H.IsSymm) (hp : PosDef H) (u v : Fin n → K) :
    (∑ i, u i * ∑ j, H i j * v j) ^ 2 ≤ quad H u * quad H v := by
  by_cases hv : v = 0
  · subst hv
    simp [quad]
  · have hq := hp v hv
    have h0 : 0 ≤ quad H (fun i => quad H v * u i - (∑ i, u i * ∑ j, H i j * v j) * v i) := by
      by_cases hz : (fun i => quad H v * u i - (∑ i, u i * ∑ j, H i j * v j) * v i) = 0
      · rw [hz]; simp [quad]
      · exact (hp _ hz).le
    rw [quad_add_smul H hs] at h0
    have h1 : 0 ≤ quad H v * (quad H u * quad H v - (∑ i, u i * ∑ j, H i j * v j) ^ 2) := by nlinarith
    have := nonneg_of_mul_nonneg_right h1 hq
    linarith

theorem Spec.Between.row {H : Matrix (Fin n) (Fin n) K} {lo hi : K} (hb : Between H lo hi) (h0 : 0 < lo) (v : Fin n → K) (j : Fin n) :
    (∑ k, H j k * v k) ^ 2 ≤ hi * quad H v := by
  have h1 := quad_cs H hb.symm (hb.posDef h0) (fun i => if i = j then 1 else 0) v
  have h2 := hb.upper (fun i => if i = j then 1 else 0)
  have e1 : ∑ i, (if i = j then (1 : K) else 0) * ∑ k, H i k * v k = ∑ k, H j k * v k := by simp
  have e2 : ∑ i, (if i = j then (1 : K) else 0) ^ 2 = 1 := by simp
  rw [e1] at h1
  rw [e2, mul_one] at h2
  have h3 : 0 ≤ quad H v := by
    by_cases hv : v = 0
    · rw [hv]; simp [quad]
    · exact (hb.posDef h0 v hv).le
  exact le_trans h1 (mul_le_mul_of_nonneg_right h2 h3)

theorem Spec.Between.le (hn : 0 < n) {H : Matrix (Fin n) (Fin n) K} {lo hi : K} (hb : Between H lo hi) : lo ≤ hi := by
  have h1 := hb.upper (fun i => if i = ⟨0, hn⟩ then 1 else 0)
  have h2 := hb.lower (fun i => if i = ⟨0, hn⟩ then 1 else 0)
  simp only [ite_pow, one_pow, ne_eq, OfNat.ofNat_ne_zero, not_false_eq_true, zero_pow, Finset.sum_ite_eq', Finset.mem_univ, if_true,
    mul_one] at h1 h2
  linarith

/-- squares of row products -/
theorem row_le_frob (A : Fin m → Fin n → K) (d : Fin n → K) : ∑ i, (∑ j, A i j * d j) ^ 2 ≤ frob A * ∑ j, d j ^ 2 := by
  unfold frob
  rw [Finset.sum_mul]
  exact Finset.sum_le_sum fun i _ => Finset.sum_mul_sq_le_sq_mul_sq _ _ _

theorem col_le_frob (A : Fin m → Fin n → K) (l : Fin m → K) (j : Fin n) : (∑ i, A i j * l i) ^ 2 ≤ frob A * ∑ i, l i ^ 2 := by
  refine le_trans (Finset.sum_mul_sq_le_sq_mul_sq _ _ _) (mul_le_mul_of_nonneg_right ?_ (Finset.sum_nonneg fun _ _ => sq_nonneg _))
  exact Finset.sum_le_sum fun i _ => Finset.single_le_sum (f := fun j => A i j ^ 2) (fun _ _ => sq_nonneg _) (Finset.mem_univ j)

theorem frob_nonneg (A : Fin m → Fin n → K) : 0 ≤ frob A := Finset.sum_nonneg fun _ _ => Finset.sum_nonneg fun _ _ => sq_nonneg _

theorem pd_row_kept (mu u l w D : K) (hmu : 0 < mu) (e : w = mu / 2 * l - u) (hle : 2 / mu * u ^ 2 + mu / 2 * l ^ 2 ≤ D) :
    w ^ 2 ≤ 2 * mu * D := by
  have t1 : 2 * u ^ 2 + mu ^ 2 / 2 * l ^ 2 ≤ mu * D := by
    have := mul_le_mul_of_nonneg_left hle hmu.le
    have e : mu * (2 / mu * u ^ 2 + mu / 2 * l ^ 2) = 2 * u ^ 2 + mu ^ 2 / 2 * l ^ 2 := by
      have := hmu.ne'
      field_simp
    rw [e] at this
    exact this
  have t2 : 0 ≤ 2 * u ^ 2 + mu ^ 2 / 2 * l ^ 2 := by positivity
  rw [e]
  nlinarith [sq_nonneg (mu / 2 * l + u)]

theorem pd_row_dropped (mu l w D : K) (hmu : 0 < mu) (e : w = mu / 2 * l) (hle : mu / 2 * l ^ 2 ≤ D) : w ^ 2 ≤ 2 * mu * D := by
  have t1 := mul_le_mul_of_nonneg_left hle hmu.le
  have t2 : 0 ≤ mu * (mu / 2 * l ^ 2) := by positivity
  have e2 : w ^ 2 = 1 / 2 * (mu * (mu / 2 * l ^ 2)) := by rw [e]; ring
  rw [e2]
  linarith

/-- the Newton step of the primal-dual system: slope, curvature along the step, and the residual it removes -/
theorem pd_newton (Hs : Matrix (Fin n) (Fin n) K) (k : ConvexConst K) (hb : Between Hs k.lo k.hi) (h0 : 0 < k.lo) (hL : 0 ≤ k.L) (hhi : 0 ≤ k.hi)
    (A : Fin m → Fin n → K)
    (mu : K) (hmu : 0 < mu) (keep : Fin m → Bool) (g : Fin n → K) (lam pd : Fin m → K) (d : Fin n → K) (dl : Fin m → K)
    (h1 : ∀ j, ∑ k, Hs j k * d k + ∑ i, A i j * dl i = -(g j + ∑ i, A i j * lam i))
    (h2 : ∀ i, (if keep i = true then ∑ k, A i k * d k - mu / 2 * dl i else 0) - mu / 2 * dl i = -(1 / 2 * mu * (pd i - lam i)))
    (slope : K) (hs : slope = ∑ j, (g j + ∑ i, A i j * pd i) * d j + ∑ i, 1 / 2 * mu * (lam i - pd i) * dl i) :
    slope ≤ 0 ∧
      k.L / 2 * ∑ j, d j ^ 2 + ∑ i, (1 / mu * (∑ j, A i j * d j - mu / 2 * dl i) ^ 2 + mu / 4 * dl i ^ 2) ≤ k.kappa A mu * -slope ∧
      (∀ j, (g j + ∑ i, A i j * lam i) ^ 2 ≤ k.gain A mu * -slope) ∧
      ∀ i, (1 / 2 * mu * (pd i - lam i)) ^ 2 ≤ k.gain A mu * -slope := by
  set a : Fin m → K := fun i => ∑ j, A i j * d j with ha
  set P : Fin m → K := fun i => if keep i = true then 2 / mu * (a i - mu / 2 * dl i) ^ 2 else 0 with hP
  have hP0 : ∀ i, 0 ≤ P i := by
    intro i
    simp only [hP]
    split_ifs <;> positivity
  have hmu' := hmu.ne'
  -- the slope
  have hD : -slope = quad Hs d + ∑ i, (P i + mu / 2 * dl i ^ 2) := by
    have e1 : ∑ j, (g j + ∑ i, A i j * pd i) * d j =
        -quad Hs d - ∑ i, a i * dl i + ∑ i, a i * (pd i - lam i) := by
      have s1 : ∀ j, (g j + ∑ i, A i j * pd i) * d j =
          -(d j * ∑ k, Hs j k * d k) - (∑ i, A i j * dl i) * d j + (∑ i, A i j * (pd i - lam i)) * d j := by
        intro j
        have := h1 j
        simp only [mul_sub, Finset.sum_sub_distrib]
        linear_combination (d j) * this
      have s2 : ∀ l : Fin m → K, ∑ j, (∑ i, A i j * l i) * d j = ∑ i, a i * l i := by
        intro l
        simp only [ha, Finset.sum_mul]
        rw [Finset.sum_comm]
        exact Finset.sum_congr rfl fun i _ => Finset.sum_congr rfl fun j _ => by ring
      simp only [s1, Finset.sum_add_distrib, Finset.sum_sub_distrib, Finset.sum_neg_distrib, s2]
      rfl
    rw [hs, e1]
    have e2 : ∀ i, P i + mu / 2 * dl i ^ 2 = a i * dl i - a i * (pd i - lam i) - 1 / 2 * mu * (lam i - pd i) * dl i := by
      intro i
      have := h2 i
      simp only [hP]
      by_cases hk : keep i = true
      · rw [if_pos hk] at this ⊢
        have hpd : pd i - lam i = 2 / mu * (mu * dl i - a i) := by
          have : 1 / 2 * mu * (pd i - lam i) = mu * dl i - a i := by simp only [ha]; linarith
          field_simp
          linarith
        have hpd' : lam i - pd i = -(2 / mu * (mu * dl i - a i)) := by linarith
        rw [hpd, hpd']
        field_simp
        ring
      · rw [if_neg hk] at this ⊢
        have hpd : pd i - lam i = dl i := by
          have h3 : 1 / 2 * mu * (pd i - lam i) = mu / 2 * dl i := by linarith
          have h4 : mu / 2 * (pd i - lam i) = mu / 2 * dl i := by linarith
          exact mul_left_cancel₀ (by positivity) h4
        have hpd' : lam i - pd i = -dl i := by linarith
        rw [hpd, hpd']
        ring
    simp only [e2, Finset.sum_sub_distrib]
    ring
  have hq := hb.lower d
  set D := -slope with hDd
  have hd2 : 0 ≤ ∑ j, d j ^ 2 := Finset.sum_nonneg fun _ _ => sq_nonneg _
  have hdl2 : 0 ≤ ∑ i, dl i ^ 2 := Finset.sum_nonneg fun _ _ => sq_nonneg _
  have hPs : 0 ≤ ∑ i, P i := Finset.sum_nonneg fun i _ => hP0 i
  have hq0 : 0 ≤ quad Hs d := le_trans (mul_nonneg h0.le hd2) hq
  rw [Finset.sum_add_distrib, ← Finset.mul_sum] at hD
  have hD0 : 0 ≤ D := by
    have : 0 ≤ mu / 2 * ∑ i, dl i ^ 2 := by positivity
    linarith
  have b1 : k.lo * ∑ j, d j ^ 2 + mu / 2 * ∑ i, dl i ^ 2 ≤ D := by linarith
  have b1' : k.lo * ∑ j, d j ^ 2 ≤ D := by
    have : 0 ≤ mu / 2 * ∑ i, dl i ^ 2 := by positivity
    linarith
  have b2 : quad Hs d ≤ D := by
    have : 0 ≤ mu / 2 * ∑ i, dl i ^ 2 := by positivity
    linarith
  have b3 : ∑ i, dl i ^ 2 ≤ 2 / mu * D := by
    have : mu / 2 * ∑ i, dl i ^ 2 ≤ D := by linarith
    rw [div_mul_eq_mul_div, le_div_iff₀ hmu]
    linarith
  have hF := frob_nonneg A
  refine ⟨by linarith, ?_, ?_, ?_⟩
  · have c1 : ∀ i, 1 / mu * (a i - mu / 2 * dl i) ^ 2 + mu / 4 * dl i ^ 2 ≤ 2 / mu * a i ^ 2 + 3 / 4 * mu * dl i ^ 2 := by
      intro i
      have : 1 / mu * (a i - mu / 2 * dl i) ^ 2 ≤ 1 / mu * (2 * a i ^ 2 + mu ^ 2 / 2 * dl i ^ 2) := by
        refine mul_le_mul_of_nonneg_left ?_ (by positivity)
        nlinarith [sq_nonneg (a i + mu / 2 * dl i)]
      have e : 1 / mu * (2 * a i ^ 2 + mu ^ 2 / 2 * dl i ^ 2) = 2 / mu * a i ^ 2 + mu / 2 * dl i ^ 2 := by
        field_simp
      linarith
    have c2 := Finset.sum_le_sum fun i (_ : i ∈ Finset.univ) => c1 i
    have c3 : ∑ i, (2 / mu * a i ^ 2 + 3 / 4 * mu * dl i ^ 2) = 2 / mu * ∑ i, a i ^ 2 + 3 / 4 * mu * ∑ i, dl i ^ 2 := by
      rw [Finset.sum_add_distrib, ← Finset.mul_sum, ← Finset.mul_sum]
    have c4 : 2 / mu * ∑ i, a i ^ 2 ≤ 2 / mu * (frob A * ∑ j, d j ^ 2) :=
      mul_le_mul_of_nonneg_left (row_le_frob A d) (by positivity)
    have c5 : (k.L / 2 + 2 * frob A / mu) * ∑ j, d j ^ 2 ≤ (k.L / 2 + 2 * frob A / mu) / k.lo * (k.lo * ∑ j, d j ^ 2) := by
      have : (k.L / 2 + 2 * frob A / mu) / k.lo * (k.lo * ∑ j, d j ^ 2) = (k.L / 2 + 2 * frob A / mu) * ∑ j, d j ^ 2 := by
        have := h0.ne'
        field_simp
      rw [this]
    have hG : 0 ≤ (k.L / 2 + 2 * frob A / mu) / k.lo := by positivity
    have c6 : (k.L / 2 + 2 * frob A / mu) / k.lo * (k.lo * ∑ j, d j ^ 2) + 3 / 4 * mu * ∑ i, dl i ^ 2 ≤ k.kappa A mu * D := by
      unfold ConvexConst.kappa
      have e1 := mul_le_mul_of_nonneg_left b1' hG
      have e2 : 3 / 4 * mu * ∑ i, dl i ^ 2 ≤ 3 / 2 * D := by
        have : mu / 2 * ∑ i, dl i ^ 2 ≤ D := by linarith
        linarith
      linarith
    have c7 : k.L / 2 * ∑ j, d j ^ 2 + 2 / mu * (frob A * ∑ j, d j ^ 2) = (k.L / 2 + 2 * frob A / mu) * ∑ j, d j ^ 2 := by ring
    linarith
  · intro j
    have e : g j + ∑ i, A i j * lam i = -(∑ k, Hs j k * d k + ∑ i, A i j * dl i) := by rw [h1 j]; ring
    rw [e, neg_sq]
    have r1 := hb.row h0 d j
    have r2 := col_le_frob A dl j
    have r3 : k.hi * quad Hs d ≤ k.hi * D := mul_le_mul_of_nonneg_left b2 hhi
    have r4 : frob A * ∑ i, dl i ^ 2 ≤ frob A * (2 / mu * D) := mul_le_mul_of_nonneg_left b3 hF
    have r5 : k.gain A mu * D = 2 * (k.hi * D) + 2 * (frob A * (2 / mu * D)) + 2 * mu * D := by
      unfold ConvexConst.gain
      field_simp
      ring
    have r6 : 0 ≤ 2 * mu * D := by positivity
    rw [r5]
    nlinarith [sq_nonneg (∑ k, Hs j k * d k - ∑ i, A i j * dl i)]
  · intro i
    have hle : P i + mu / 2 * dl i ^ 2 ≤ D := by
      have : P i + mu / 2 * dl i ^ 2 ≤ ∑ i, (P i + mu / 2 * dl i ^ 2) :=
        Finset.single_le_sum (f := fun i => P i + mu / 2 * dl i ^ 2) (fun i _ => by have := hP0 i; positivity) (Finset.mem_univ i)
      rw [Finset.sum_add_distrib, ← Finset.mul_sum] at this
      linarith
    have r5 : 2 * mu * D ≤ k.gain A mu * D := by
      refine mul_le_mul_of_nonneg_right ?_ hD0
      unfold ConvexConst.gain
      have : 0 ≤ 4 * frob A / mu := by positivity
      linarith
    refine le_trans ?_ r5
    have := h2 i
    have hPi := hP0 i
    by_cases hk : keep i = true
    · rw [if_pos hk] at this
      have hPk : P i = 2 / mu * (a i - mu / 2 * dl i) ^ 2 := by simp only [hP]; rw [if_pos hk]
      exact pd_row_kept mu (a i - mu / 2 * dl i) (dl i) _ D hmu (by simp only [ha]; linarith) (by rw [← hPk]; exact hle)
    · rw [if_neg hk] at this
      exact pd_row_dropped mu (dl i) _ D hmu (by linarith) (by linarith)

end ProxNLP

namespace ProxNLP

open Spec

variable {K : Type} {n m : ℕ} [Field K] [LinearOrder K] [IsStrictOrderedRing K]

theorem ConvexConst.kappa_pos (k : ConvexConst K) (A : Fin m → Fin n → K) (mu : K) (hmu : 0 < mu) (h0 : 0 < k.lo) (hL : 0 ≤ k.L) :
    0 < k.kappa A mu := by
  unfold Spec.ConvexConst.kappa
  have := frob_nonneg A
  positivity

theorem ConvexConst.gain_pos (k : ConvexConst K) (A : Fin m → Fin n → K) (mu : K) (hmu : 0 < mu) (hhi : 0 ≤ k.hi) :
    0 < k.gain A mu := by
  unfold Spec.ConvexConst.gain
  have := frob_nonneg A
  positivity

/-- what the solver knows at a point of the problem -/
structure CvInput (C : StepCfg (Fin n → K) K n m) (f : (Fin n → K) → K) (A : Fin m → Fin n → K) (b : Fin m → K)
    (leaf : Fin m → LeafSet K × ℕ) (k : ConvexConst K) (i : StepIn (Fin n → K) K (Hidden K n m) n m) : Prop where
  rho : i.rho = 0
  mu : 0 < i.mu
  setMu : i.setMu = i.mu
  c : i.ev.c = fun k => ∑ j, A k j * i.x j - b k
  grad : i.ev.grad = C.grad i.x
  jac : i.ev.jac = A
  merit : i.ev.merit = cvMerit f A b leaf i.mu i.lamPrev i.x i.lam
  hess : Between i.hidden.hess k.lo k.hi
  vhps : ∀ p ∈ i.hidden.vhps, p.2 = 0

theorem Spec.IsConvex.valid {C : StepCfg (Fin n → K) K n m} {f : (Fin n → K) → K} {A : Fin m → Fin n → K} {b : Fin m → K}
    {leaf : Fin m → LeafSet K × ℕ} {k : ConvexConst K} (hC : IsConvex C f A b leaf k) (i : Fin m) : ValidAt (leaf i).1 (leaf i).2 := by
  have := hC.boxes i
  cases h : (leaf i).1 with
  | box lo hi => exact this lo hi h
  | _ => trivial

/-- one step from a point whose residual exceeds `tol` decreases the merit function by a fixed amount -/
theorem cv_step (C : StepCfg (Fin n → K) K n m) (f : (Fin n → K) → K) (A : Fin m → Fin n → K) (b : Fin m → K)
    (leaf : Fin m → LeafSet K × ℕ) (k : ConvexConst K) (hC : IsConvex C f A b leaf k) (hhi : 0 ≤ k.hi)
    (hp : GoodParams C.inertia) (h0 : C.inertia.deltaInit = 0) (hmax : 0 ≤ C.inertia.deltaMax) (hB : LibraryBackend C.backend)
    (hls : GoodLS C.ls) (hsing : InRange C.sing)
    (i : StepIn (Fin n → K) K (Hidden K n m) n m) (hi : CvInput C f A b leaf k i) (tol : K) (htol : 0 < tol)
    (hsb : SearchBudget C.ls k A i.mu tol)
    (hres : tol < max (inftyNorm (fun j => C.grad i.x j + ∑ l, A l j * i.lam l))
      (inftyNorm (fun l => 1 / 2 * i.mu * ((leaf l).1.normalAt i.mu (leaf l).2
        (∑ j, A l j * i.x j - b l + i.mu * i.lamPrev l - 1 / 2 * i.mu * i.lam l) * (1 / i.mu / (1 / 2)) - i.lam l))))
    (o : StepOut (Fin n → K) K (Hidden K n m) m) (ho : stepFull C i = .ok o) :
    cvMerit f A b leaf i.mu i.lamPrev o.x o.lam ≤ i.ev.merit - k.decrease A C.ls i.mu tol ∧ o.hidden.vhps = i.hidden.vhps := by
  obtain ⟨d, st, r, hd, hr, hx, hl, -, hhid⟩ := stepFull_ok C i o ho
  refine ⟨?_, by rw [hhid]⟩
  set M := computeMultipliers C.sets i.mu i.setMu C.beta i.ev.c i.lam i.lamPrev with hM
  have hmu := hi.mu
  have hmu' := hmu.ne'
  set keep := keptRows C.kkt C.sets i.setMu M with hkeep
  have hmat : stepMatrix C i M = kktMatrix i.hidden.hess (maskRows keep A) (kktDual C.kkt i.mu keep) := by
    unfold stepMatrix
    simp only [← hkeep, hi.jac, hi.rho, kktHessian_zero _ _ _ _ hi.vhps]
  obtain ⟨hsol, -, -⟩ := stepDirection_exact C hp h0 hmax i M (by
    rw [hmat]; exact C79_exact hB _ hi.hess.symm (hi.hess.posDef hC.lo0) _ _ (kktDual_neg C.kkt i.mu hi.mu _)) d st hd
  set dx : Fin n → K := fun j => d (.inl j) with hdx
  set dl : Fin m → K := fun k => d (.inr k) with hdl
  have he : Sum.elim dx dl = d := by funext a; cases a <;> rfl
  have hN := (C23_symmetric_iff_newton C.kkt C.sets i.mu i.setMu C.beta i.rho hi.mu.ne' i.hidden.hess i.ev.jac i.ev.grad i.ev.proxGrad
    i.ev.c i.lam i.lamPrev dx dl M hM).1 (by
      rw [he, ← hkeep, hi.jac, ← hmat, hsol]
      unfold stepRhs
      simp only [← hkeep, hi.jac])
  rw [← hkeep] at hN
  have hpd : ∀ l, M.lamsPdal l = (leaf l).1.normalAt i.mu (leaf l).2
      (∑ j, A l j * i.x j - b l + i.mu * i.lamPrev l - 1 / 2 * i.mu * i.lam l) * (1 / i.mu / (1 / 2)) := by
    intro l
    rw [hM, hC.sets, hi.c, hC.beta, hi.setMu]
    rfl
  set g := C.grad i.x with hg
  have h1 : ∀ j, ∑ l, i.hidden.hess j l * dx l + ∑ l, A l j * dl l = -(g j + ∑ l, A l j * i.lam l) := by
    intro j
    have := hN.1 j
    simp only [rhsPrimal, hi.rho, lt_irrefl, if_false, add_zero, hi.jac, hi.grad] at this
    exact this
  have h2 : ∀ l, (if keep l = true then ∑ j, A l j * dx j - i.mu / 2 * dl l else 0) - i.mu / 2 * dl l =
      -(1 / 2 * i.mu * (M.lamsPdal l - i.lam l)) := by
    intro l
    have := hN.2
    rw [hC.kkt] at this
    have := this l
    simp only [rhsDual, hi.jac] at this
    exact this
  set slope := dmeritDir i.rho C.beta i.setMu i.ev.grad i.ev.proxGrad i.ev.jac i.lam M.lamsPdal dx dl with hslope
  have hs : slope = ∑ j, (g j + ∑ l, A l j * M.lamsPdal l) * dx j + ∑ l, 1 / 2 * i.mu * (i.lam l - M.lamsPdal l) * dl l := by
    rw [hslope]
    unfold dmeritDir meritGradient meritDualGradient
    simp only [hi.rho, lt_irrefl, if_false, add_zero, hi.grad, hi.jac, hC.beta, hi.setMu, hg]
  obtain ⟨p1, p2, p3, p4⟩ := pd_newton i.hidden.hess k hi.hess hC.lo0 hC.L0 hhi A i.mu hmu keep g i.lam M.lamsPdal dx dl h1 h2 slope hs
  -- the search function
  have hphi : ∀ a, stepPhi C i dx dl a = some (cvMerit f A b leaf i.mu i.lamPrev (i.x + a • dx) (i.lam + a • dl)) := by
    intro a
    unfold stepPhi
    have e1 : C.integrate i.x (fun j => a * dx j) = i.x + a • dx := by rw [hC.integrate]; rfl
    have e2 : (fun k => i.lam k + a * dl k) = i.lam + a • dl := rfl
    simp only [e1, e2, hC.eval, hC.sets, hC.beta, hi.setMu, hi.rho, hC.prox, Option.map_some, add_zero]
    rw [meritEvaluate_leaves]
    rfl
  have hkap := ConvexConst.kappa_pos k A i.mu hmu hC.lo0 hC.L0
  have hgain := ConvexConst.gain_pos k A i.mu hmu hhi
  have habar : 0 < k.abar A C.ls.armijoC1 i.mu := div_pos (by linarith [hsb.c1]) hkap
  -- upper bound along the direction
  have hup : ∀ a, 0 < a → cvMerit f A b leaf i.mu i.lamPrev (i.x + a • dx) (i.lam + a • dl) ≤
      i.ev.merit + a * slope + a ^ 2 * (k.kappa A i.mu * -slope) := by
    intro a ha
    have := cvMerit_descent f g A b leaf hC.valid k.L i.mu hmu i.lamPrev i.x (a • dx) i.lam (a • dl) (hC.smooth i.x (a • dx))
      M.lamsPdal hpd
    rw [hi.merit]
    refine le_trans this ?_
    have e1 : ∑ j, (g j + ∑ l, A l j * M.lamsPdal l) * (a • dx) j + ∑ l, 1 / 2 * i.mu * (i.lam l - M.lamsPdal l) * (a • dl) l = a * slope := by
      rw [hs, mul_add, Finset.mul_sum, Finset.mul_sum]
      congr 1
      · exact Finset.sum_congr rfl fun j _ => by simp only [Pi.smul_apply, smul_eq_mul]; ring
      · exact Finset.sum_congr rfl fun j _ => by simp only [Pi.smul_apply, smul_eq_mul]; ring
    have e2 : k.L / 2 * ∑ j, (a • dx) j ^ 2 + ∑ l, (1 / i.mu * (∑ j, A l j * (a • dx) j - i.mu / 2 * (a • dl) l) ^ 2 +
          i.mu / 4 * (a • dl) l ^ 2) =
        a ^ 2 * (k.L / 2 * ∑ j, dx j ^ 2 + ∑ l, (1 / i.mu * (∑ j, A l j * dx j - i.mu / 2 * dl l) ^ 2 + i.mu / 4 * dl l ^ 2)) := by
      rw [mul_add]
      congr 1
      · simp only [Pi.smul_apply, smul_eq_mul, mul_pow, ← Finset.mul_sum]
        ring
      · rw [Finset.mul_sum]
        refine Finset.sum_congr rfl fun l _ => ?_
        have e3 : ∑ j, A l j * (a • dx) j = a * ∑ j, A l j * dx j := by
          rw [Finset.mul_sum]
          exact Finset.sum_congr rfl fun j _ => by simp only [Pi.smul_apply, smul_eq_mul]; ring
        rw [e3]
        simp only [Pi.smul_apply, smul_eq_mul]
        ring
    rw [e1, e2]
    have := mul_le_mul_of_nonneg_left p2 (sq_nonneg a)
    linarith
  -- size of the slope
  have hslope_big : tol ^ 2 < k.gain A i.mu * -slope := by
    by_contra hc
    have hc := not_lt.1 hc
    have hall : ∀ w : K, w ^ 2 ≤ k.gain A i.mu * -slope → |w| ≤ tol := by
      intro w hw
      exact abs_le_of_sq_le_sq (le_trans hw hc) htol.le
    refine absurd hres (not_lt.2 (max_le ((inftyNorm_le_iff _ _).2 ⟨htol.le, fun j => hall _ (p3 j)⟩)
      ((inftyNorm_le_iff _ _).2 ⟨htol.le, fun l => hall _ ?_⟩)))
    rw [← hpd l]
    exact p4 l
  have hth : C.ls.dphiThresh ≤ |slope| := by
    rw [abs_of_nonpos p1]
    have h3 := lt_of_le_of_lt hsb.tol hslope_big
    exact (lt_of_mul_lt_mul_left h3 hgain.le).le
  obtain ⟨t, ht1, ht2⟩ := hsb.steps
  have hacc := lsRun_accepts C.sqrt C.sing hsing C.ls hls hsb.half_lo hsb.half_hi (stepPhi C i dx dl) i.ev.merit slope hsb.thresh hth
    (fun a => by rw [hphi]; simp) _ habar (fun a v ha hab hv => by
      rw [hphi] at hv
      cases hv
      have h3 := hup a ha
      have h4 : a * k.kappa A i.mu ≤ 1 - C.ls.armijoC1 := by
        unfold ConvexConst.abar at hab
        rwa [le_div_iff₀ hkap] at hab
      have h5 : a ^ 2 * (k.kappa A i.mu * -slope) ≤ a * ((1 - C.ls.armijoC1) * -slope) := by
        have : a * k.kappa A i.mu * (a * -slope) ≤ (1 - C.ls.armijoC1) * (a * -slope) :=
          mul_le_mul_of_nonneg_right h4 (mul_nonneg ha.le (by linarith))
        nlinarith
      nlinarith) hsb.alphaMin t ht1 ht2 C.fuel r hr
  have hval := hacc.val
  rw [hphi] at hval
  have ex : o.x = i.x + r.alpha • dx := by rw [hx, hC.integrate]; rfl
  have el : o.lam = i.lam + r.alpha • dl := by rw [hl]; rfl
  rw [ex, el, Option.some.inj hval]
  refine le_trans hacc.armijo ?_
  unfold ConvexConst.decrease
  have h6 : tol ^ 2 / k.gain A i.mu ≤ -slope := by
    rw [div_le_iff₀ hgain]
    linarith
  have h7 : 0 ≤ tol ^ 2 / k.gain A i.mu := by positivity
  have h8 : C.ls.armijoC1 * min 1 (C.ls.contractionMin * k.abar A C.ls.armijoC1 i.mu) ≤ C.ls.armijoC1 * r.alpha :=
    mul_le_mul_of_nonneg_left hacc.lo hsb.c1pos.le
  have h9 : 0 ≤ C.ls.armijoC1 * r.alpha := by
    refine mul_nonneg hsb.c1pos.le (le_trans ?_ hacc.lo)
    exact le_min zero_le_one (mul_nonneg hls.cmin.le habar.le)
  have := mul_le_mul h8 h6 h7 h9
  linarith

end ProxNLP
