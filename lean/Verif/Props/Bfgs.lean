import Verif.Model.Bfgs
import Verif.Spec.Kkt
import Verif.Lemmas.Check
import Mathlib.Algebra.BigOperators.Field
import Mathlib.LinearAlgebra.Matrix.Symmetric
import Mathlib.Algebra.Order.BigOperators.Ring.Finset
import Mathlib.LinearAlgebra.Matrix.Notation
import Mathlib.Tactic.Ring
import Mathlib.Tactic.FieldSimp
import Mathlib.Tactic.Linarith
import Mathlib.Tactic.LinearCombination

/-!
Property theorems C34 (secant equation), C35 (symmetric positive definite), C36 (update protocol) of the BFGS
strategy.
-/

set_option linter.unusedSectionVars false
namespace ProxNLP

variable {K : Type} [Field K] [LinearOrder K] [IsStrictOrderedRing K] {n : ℕ}

open Spec Matrix

/-- The formula in matrix notation: `(I - p qᵀ/sy) H (I - q pᵀ/sy) + p pᵀ / sy`, with `(p,q) = (y,s)` for the Hessian
and `(s,y)` for the inverse. -/
theorem bfgsMatrix_mulVec (ty : BFGSType) (s y : Fin n → K) (H : Matrix (Fin n) (Fin n) K) (v : Fin n → K) :
    let p := match ty with
      | .hessian => y
      | .inverseHessian => s
    let q := match ty with
      | .hessian => s
      | .inverseHessian => y
    let w := H *ᵥ (v - (p ⬝ᵥ v / (s ⬝ᵥ y)) • q)
    bfgsMatrix ty s y H *ᵥ v = w - ((q ⬝ᵥ w) / (s ⬝ᵥ y)) • p + (p ⬝ᵥ v / (s ⬝ᵥ y)) • p := by
  have hsy : (∑ i, s i * y i) = s ⬝ᵥ y := rfl
  have main : ∀ p q : Fin n → K, ∀ c : K,
      ((Matrix.of fun i j => (if i = j then 1 else 0) - (p i * q j) / c : Matrix (Fin n) (Fin n) K) * H *
        (Matrix.of fun i j => (if i = j then 1 else 0) - (p i * q j) / c : Matrix (Fin n) (Fin n) K)ᵀ +
        Matrix.of fun i j => (p i * p j) / c) *ᵥ v =
      H *ᵥ (v - (p ⬝ᵥ v / c) • q) - ((q ⬝ᵥ (H *ᵥ (v - (p ⬝ᵥ v / c) • q))) / c) • p + (p ⬝ᵥ v / c) • p := by
    intro p q c
    have hV : ∀ u : Fin n → K, (Matrix.of fun i j => (if i = j then 1 else 0) - (p i * q j) / c :
        Matrix (Fin n) (Fin n) K) *ᵥ u = u - ((q ⬝ᵥ u) / c) • p := by
      intro u
      funext i
      simp only [mulVec, dotProduct, of_apply, sub_mul, Finset.sum_sub_distrib, Pi.sub_apply, Pi.smul_apply,
        smul_eq_mul, ite_mul, one_mul, zero_mul, Finset.sum_ite_eq, Finset.mem_univ, if_true]
      congr 1
      rw [Finset.sum_div, Finset.sum_mul]
      refine Finset.sum_congr rfl fun j _ => by ring
    have hVt : (Matrix.of fun i j => (if i = j then 1 else 0) - (p i * q j) / c :
        Matrix (Fin n) (Fin n) K)ᵀ *ᵥ v = v - ((p ⬝ᵥ v) / c) • q := by
      funext i
      simp only [mulVec, dotProduct, transpose_apply, of_apply, sub_mul, Finset.sum_sub_distrib, Pi.sub_apply,
        Pi.smul_apply, smul_eq_mul, ite_mul, one_mul, zero_mul, Finset.sum_ite_eq', Finset.mem_univ, if_true]
      congr 1
      rw [Finset.sum_div, Finset.sum_mul]
      refine Finset.sum_congr rfl fun j _ => by ring
    have hP : (Matrix.of fun i j => (p i * p j) / c : Matrix (Fin n) (Fin n) K) *ᵥ v = ((p ⬝ᵥ v) / c) • p := by
      funext i
      simp only [mulVec, dotProduct, of_apply, Pi.smul_apply, smul_eq_mul]
      rw [Finset.sum_div, Finset.sum_mul]
      refine Finset.sum_congr rfl fun j _ => by ring
    rw [add_mulVec, ← mulVec_mulVec, ← mulVec_mulVec, hVt, hV, hP]
  cases ty
  · simp only [bfgsMatrix, hsy]; exact main y s (s ⬝ᵥ y)
  · simp only [bfgsMatrix, hsy]; exact main s y (s ⬝ᵥ y)

/-- C34: after an update with `sᵀy > 0` the Hessian approximation maps `s` to `y`, and the inverse approximation maps
`y` to `s`, whatever the matrix was before. -/
theorem C34_secant (b : Bfgs K n) (hb : b.isInit = true) (x g : Fin n → K) (H : Matrix (Fin n) (Fin n) K)
    (hsy : 0 < (x - b.xPrev) ⬝ᵥ (g - b.gPrev)) :
    (∃ b' H', b.update .hessian x g H = some (b', H') ∧ H' *ᵥ (x - b.xPrev) = g - b.gPrev) ∧
    (∃ b' H', b.update .inverseHessian x g H = some (b', H') ∧ H' *ᵥ (g - b.gPrev) = x - b.xPrev) := by
  have hcond : 0 < ∑ i, (x i - b.xPrev i) * (g i - b.gPrev i) := hsy
  have hne : (x - b.xPrev) ⬝ᵥ (g - b.gPrev) ≠ 0 := hsy.ne'
  have e1 : (fun i => x i - b.xPrev i) = x - b.xPrev := rfl
  have e2 : (fun i => g i - b.gPrev i) = g - b.gPrev := rfl
  constructor
  · refine ⟨{ b with isPsd := true, xPrev := x, gPrev := g }, bfgsMatrix .hessian (x - b.xPrev) (g - b.gPrev) H, ?_, ?_⟩
    · simp [Bfgs.update, hb, hcond, e1, e2]
    · rw [bfgsMatrix_mulVec]
      simp only
      rw [dotProduct_comm (g - b.gPrev), div_self hne, one_smul, sub_self, mulVec_zero]
      simp
  · refine ⟨{ b with isPsd := true, xPrev := x, gPrev := g },
      bfgsMatrix .inverseHessian (x - b.xPrev) (g - b.gPrev) H, ?_, ?_⟩
    · simp [Bfgs.update, hb, hcond, e1, e2]
    · rw [bfgsMatrix_mulVec]
      simp only
      rw [div_self hne, one_smul, sub_self, mulVec_zero]
      simp

/-! ### C35 -/

theorem quad_eq_dot (A : Matrix (Fin n) (Fin n) K) (v : Fin n → K) : quad A v = v ⬝ᵥ (A *ᵥ v) := rfl

theorem bfgs_posDef (ty : BFGSType) (s y : Fin n → K) (H : Matrix (Fin n) (Fin n) K) (hH : PosDef H)
    (hsy : 0 < s ⬝ᵥ y) : PosDef (bfgsMatrix ty s y H) := by
  intro v hv
  rw [quad_eq_dot, bfgsMatrix_mulVec]
  have key : ∀ p q : Fin n → K, 0 < v ⬝ᵥ (H *ᵥ (v - (p ⬝ᵥ v / (s ⬝ᵥ y)) • q) -
      ((q ⬝ᵥ (H *ᵥ (v - (p ⬝ᵥ v / (s ⬝ᵥ y)) • q))) / (s ⬝ᵥ y)) • p + (p ⬝ᵥ v / (s ⬝ᵥ y)) • p) := by
    intro p q
    generalize hc : s ⬝ᵥ y = c at hsy
    generalize hu : v - (p ⬝ᵥ v / c) • q = u
    have e : v ⬝ᵥ (H *ᵥ u - ((q ⬝ᵥ (H *ᵥ u)) / c) • p + (p ⬝ᵥ v / c) • p) =
        u ⬝ᵥ (H *ᵥ u) + (p ⬝ᵥ v) * (p ⬝ᵥ v) / c := by
      rw [dotProduct_add, dotProduct_sub, dotProduct_smul, dotProduct_smul]
      conv_rhs => rw [← hu]
      rw [sub_dotProduct, smul_dotProduct, hu, dotProduct_comm v p]
      simp only [smul_eq_mul]
      ring
    rw [e]
    by_cases hu0 : u = 0
    · have hpv : p ⬝ᵥ v ≠ 0 := by
        intro h0
        apply hv
        rw [h0, zero_div, zero_smul, sub_zero] at hu
        rw [hu, hu0]
      rw [hu0, mulVec_zero, dotProduct_zero, zero_add]
      exact div_pos (mul_self_pos.2 hpv) hsy
    · have := hH u hu0
      rw [quad_eq_dot] at this
      exact add_pos_of_pos_of_nonneg this (div_nonneg (mul_self_nonneg _) hsy.le)
  cases ty
  · exact key y s
  · exact key s y

theorem bfgs_symm (ty : BFGSType) (s y : Fin n → K) (H : Matrix (Fin n) (Fin n) K) (hH : H.IsSymm) :
    (bfgsMatrix ty s y H).IsSymm := by
  unfold bfgsMatrix
  simp only
  refine Matrix.IsSymm.add ?_ ?_
  · rw [Matrix.IsSymm, Matrix.transpose_mul, Matrix.transpose_transpose, Matrix.transpose_mul, hH.eq, Matrix.mul_assoc]
  · funext i j
    cases ty <;> simp [mul_comm]

/-- One update keeps the matrix symmetric positive definite. -/
theorem update_spd (ty : BFGSType) (b b' : Bfgs K n) (x g : Fin n → K) (H H' : Matrix (Fin n) (Fin n) K)
    (h : b.update ty x g H = some (b', H')) (hs : H.IsSymm) (hp : PosDef H) : H'.IsSymm ∧ PosDef H' := by
  unfold Bfgs.update at h
  simp only at h
  split_ifs at h with h1 h2
  · cases hi : b.init x g with
    | none => simp [hi] at h
    | some c => simp [hi] at h; rw [← h.2]; exact ⟨hs, hp⟩
  · cases h
    exact ⟨bfgs_symm _ _ _ _ hs, bfgs_posDef _ _ _ _ hp h2⟩
  · cases h; exact ⟨hs, hp⟩

/-- C35: from the identity, after any sequence of updates the matrix is symmetric positive definite. -/
theorem C35_spd (ty : BFGSType) (hist : List ((Fin n → K) × (Fin n → K))) (b b' : Bfgs K n)
    (H' : Matrix (Fin n) (Fin n) K) (h : Bfgs.run ty hist b 1 = some (b', H')) :
    H'.IsSymm ∧ ∀ v, v ≠ 0 → 0 < v ⬝ᵥ (H' *ᵥ v) := by
  have gen : ∀ hist (b : Bfgs K n) (H : Matrix (Fin n) (Fin n) K), H.IsSymm → PosDef H →
      Bfgs.run ty hist b H = some (b', H') → H'.IsSymm ∧ PosDef H' := by
    intro hist
    induction hist with
    | nil => intro b H hs hp h; cases h; exact ⟨hs, hp⟩
    | cons c l ih =>
      intro b H hs hp h
      obtain ⟨x, g⟩ := c
      simp only [Bfgs.run] at h
      cases hu : b.update ty x g H with
      | none => simp [hu] at h
      | some r =>
        rw [hu, Option.bind_some] at h
        have := update_spd ty b r.1 x g H r.2 hu hs hp
        exact ih r.1 r.2 this.1 this.2 h
  have hone : PosDef (1 : Matrix (Fin n) (Fin n) K) := by
    intro v hv
    rw [quad_eq_dot, one_mulVec]
    obtain ⟨i, hi⟩ := Function.ne_iff.1 hv
    exact Finset.sum_pos' (fun j _ => mul_self_nonneg _) ⟨i, Finset.mem_univ _, mul_self_pos.2 hi⟩
  exact gen hist b 1 Matrix.transpose_one hone h

/-- C35: any sequence of updates on a strategy constructed with the number of variables runs without exception. -/
theorem C35_runs (ty : BFGSType) (hist : List ((Fin n → K) × (Fin n → K))) (b : Bfgs K n) (hb : b.isValid = true)
    (H : Matrix (Fin n) (Fin n) K) : ∃ r, Bfgs.run ty hist b H = some r ∧ r.1.isValid = true := by
  induction hist generalizing b H with
  | nil => exact ⟨_, rfl, hb⟩
  | cons c l ih =>
    obtain ⟨x, g⟩ := c
    have hu : ∃ r, b.update ty x g H = some r ∧ r.1.isValid = true := by
      unfold Bfgs.update
      simp only
      split_ifs with h1 h2
      · simp [Bfgs.init, hb]
      · exact ⟨_, rfl, hb⟩
      · exact ⟨_, rfl, hb⟩
    obtain ⟨r, hr, hv⟩ := hu
    simp only [Bfgs.run, hr, Option.bind_some]
    exact ih r.1 hv r.2

/-- C35: an update with `sᵀy ≤ 0` leaves the matrix unchanged and clears `is_psd`; one with `sᵀy > 0` sets it. -/
theorem C35_skip (ty : BFGSType) (b : Bfgs K n) (hb : b.isInit = true) (x g : Fin n → K)
    (H : Matrix (Fin n) (Fin n) K) :
    ∃ b' H', b.update ty x g H = some (b', H') ∧
      ((x - b.xPrev) ⬝ᵥ (g - b.gPrev) ≤ 0 → H' = H ∧ b'.isPsd = false) ∧
      (0 < (x - b.xPrev) ⬝ᵥ (g - b.gPrev) → b'.isPsd = true) := by
  by_cases h : 0 < ∑ i, (x i - b.xPrev i) * (g i - b.gPrev i)
  · refine ⟨{ b with isPsd := true, xPrev := x, gPrev := g },
      bfgsMatrix ty (fun i => x i - b.xPrev i) (fun i => g i - b.gPrev i) H, ?_, fun hle => ?_, fun _ => rfl⟩
    · unfold Bfgs.update; simp only [hb, if_pos h]; simp
    · exact absurd (show (0 : K) < (x - b.xPrev) ⬝ᵥ (g - b.gPrev) from h) (not_lt.2 hle)
  · refine ⟨{ b with isPsd := false, xPrev := x, gPrev := g }, H, ?_, fun _ => ⟨rfl, rfl⟩, fun hlt => ?_⟩
    · unfold Bfgs.update; simp only [hb, if_neg h]; simp
    · exact absurd (show (0 : K) < ∑ i, (x i - b.xPrev i) * (g i - b.gPrev i) from hlt) h

/-! ### C36 -/

/-- C36: the first update only records the point and gradient. -/
theorem C36_first_update (ty : BFGSType) (x g : Fin n → K) (H : Matrix (Fin n) (Fin n) K) :
    ∃ b', (Bfgs.new : Bfgs K n).update ty x g H = some (b', H) ∧ b'.isInit = true ∧ b'.xPrev = x ∧ b'.gPrev = g ∧
      b'.isPsd = true :=
  ⟨{ isInit := true, isPsd := true, xPrev := x, gPrev := g, isValid := true }, by simp [Bfgs.update, Bfgs.init, Bfgs.new],
    rfl, rfl, rfl, rfl⟩

/-- C36: a default-constructed strategy throws, in `init` and in `update`. -/
theorem C36_default_throws (ty : BFGSType) (x g : Fin n → K) (H : Matrix (Fin n) (Fin n) K) :
    (Bfgs.default : Bfgs K n).init x g = none ∧ (Bfgs.default : Bfgs K n).update ty x g H = none := by
  simp [Bfgs.update, Bfgs.init, Bfgs.default]

/-- C36: the reference point of the update after a nonempty history is the last point and gradient of the history,
whether or not that update was accepted. -/
theorem C36_reference_is_previous (ty : BFGSType) (hist : List ((Fin n → K) × (Fin n → K)))
    (last : (Fin n → K) × (Fin n → K)) (b b' : Bfgs K n) (H H' : Matrix (Fin n) (Fin n) K)
    (h : Bfgs.run ty (hist ++ [last]) b H = some (b', H')) :
    b'.xPrev = last.1 ∧ b'.gPrev = last.2 ∧ b'.isInit = true := by
  induction hist generalizing b H with
  | nil =>
    simp only [List.nil_append, Bfgs.run] at h
    cases hu : b.update ty last.1 last.2 H with
    | none => simp [hu] at h
    | some r =>
      simp only [hu, Option.bind_some, Option.some.injEq] at h
      obtain ⟨rfl, rfl⟩ := Prod.mk.inj h
      unfold Bfgs.update at hu
      simp only at hu
      split_ifs at hu with h1 h2
      · unfold Bfgs.init at hu
        split_ifs at hu
        · simp at hu
        · simp only [Option.map_some, Option.some.injEq] at hu; rw [← hu]; simp
      · simp only [Option.some.injEq] at hu; rw [← hu]; simpa using h1
      · simp only [Option.some.injEq] at hu; rw [← hu]; simpa using h1
  | cons c l ih =>
    simp only [List.cons_append, Bfgs.run] at h
    cases hu : b.update ty c.1 c.2 H with
    | none => simp [hu] at h
    | some r =>
      rw [hu, Option.bind_some] at h
      exact ih r.1 r.2 h

/-- C36: hence the matrix after one more update is the formula (or the unchanged matrix) for the differences to that
last point. -/
theorem C36_update_after_history (ty : BFGSType) (hist : List ((Fin n → K) × (Fin n → K)))
    (last : (Fin n → K) × (Fin n → K)) (b b1 : Bfgs K n) (H H1 : Matrix (Fin n) (Fin n) K)
    (h : Bfgs.run ty (hist ++ [last]) b H = some (b1, H1)) (x g : Fin n → K) :
    ∃ b2, Bfgs.run ty (hist ++ [last] ++ [(x, g)]) b H =
      some (b2, if 0 < (x - last.1) ⬝ᵥ (g - last.2) then bfgsMatrix ty (x - last.1) (g - last.2) H1 else H1) := by
  have hr := C36_reference_is_previous ty hist last b b1 H H1 h
  have happ : ∀ (l1 l2 : List ((Fin n → K) × (Fin n → K))) (b : Bfgs K n) H,
      Bfgs.run ty (l1 ++ l2) b H = (Bfgs.run ty l1 b H).bind fun r => Bfgs.run ty l2 r.1 r.2 := by
    intro l1 l2
    induction l1 with
    | nil => intro b H; rfl
    | cons c l ih =>
      intro b H
      simp only [List.cons_append, Bfgs.run]
      cases hu : b.update ty c.1 c.2 H with
      | none => simp
      | some r => simp [ih]
  rw [happ, h, Option.bind_some]
  simp only [Bfgs.run, Bfgs.update, hr.2.2, hr.1, hr.2.1]
  by_cases hc : 0 < ∑ i, (x i - last.1 i) * (g i - last.2 i)
  · have hc' : 0 < (x - last.1) ⬝ᵥ (g - last.2) := hc
    rw [if_pos hc', if_pos hc]
    exact ⟨_, rfl⟩
  · have hc' : ¬ 0 < (x - last.1) ⬝ᵥ (g - last.2) := hc
    rw [if_neg hc', if_neg hc]
    exact ⟨_, rfl⟩

/-- a concrete history: three points of a quadratic in two variables, the last update accepted -/
example : ∃ r, Bfgs.run (K := ℚ) (n := 2) .hessian
    [(![0, 0], ![1, 1]), (![1, 0], ![3, 1]), (![1, 1], ![2, 4])] Bfgs.new 1 = some r ∧
    r.1.isPsd = true ∧ r.2 0 0 = 22 / 9 ∧ r.2 0 1 = -1 := by
  refine exists_of_check _ _ ?_; decide +kernel

end ProxNLP
