import Verif.Props.Sets
import Verif.Lemmas.Calc
import Mathlib.Tactic.FunProp

/-!
Property theorems C04 (Jacobians of the projection operators) and C05 (gradient of the Moreau envelope).
-/

set_option linter.unusedSectionVars false
namespace ProxNLP

open Spec Filter Topology

/-- Kink points of the scalar operators: where the pieces meet. -/
def Spec.Kink (s : LeafSet ℝ) (mu : ℝ) (i : ℕ) (z : ℝ) : Prop :=
  match s with
  | .equality => False
  | .negOrthant => z = 0
  | .box lo hi => z = lo i ∨ z = hi i
  | .l1 => |z| = mu

theorem hasDerivAt_of_eventuallyEq_const {f : ℝ → ℝ} {c z : ℝ} (h : ∀ᶠ x in 𝓝 z, f x = c) :
    HasDerivAt f 0 z := (hasDerivAt_const z c).congr_of_eventuallyEq h

theorem hasDerivAt_of_eventuallyEq_add {f : ℝ → ℝ} {c z : ℝ} (h : ∀ᶠ x in 𝓝 z, f x = x + c) :
    HasDerivAt f 1 z := ((hasDerivAt_id z).add_const c).congr_of_eventuallyEq h

/-- scalar derivative of the projection -/
theorem hasDerivAt_projAt (s : LeafSet ℝ) {n : ℕ} (h : Valid s n) (mu : ℝ) (hmu : 0 ≤ mu) (i : Fin n)
    (z : ℝ) (hk : ¬ Kink s mu i z) :
    HasDerivAt (fun x => s.projAt mu i x) (if s.activeAt mu i z then 0 else 1) z := by
  have hv := validAt_of s h i
  cases s with
  | equality => simpa [LeafSet.projAt, LeafSet.activeAt] using hasDerivAt_const z (0 : ℝ)
  | negOrthant =>
    simp only [Kink] at hk
    rcases lt_or_gt_of_ne hk with h1 | h1
    · have : ¬ (0 < z) := by linarith
      simp only [LeafSet.activeAt, this, decide_false, Bool.false_eq_true, if_false]
      refine hasDerivAt_of_eventuallyEq_add (c := 0) ?_
      filter_upwards [gt_mem_nhds h1] with x hx
      simp [LeafSet.projAt, hx.le]
    · simp only [LeafSet.activeAt, h1, decide_true, if_true]
      refine hasDerivAt_of_eventuallyEq_const (c := 0) ?_
      filter_upwards [lt_mem_nhds h1] with x hx
      simp [LeafSet.projAt, hx.le]
  | box lo hi =>
    simp only [Kink, not_or] at hk
    simp only [ValidAt] at hv
    rcases lt_or_gt_of_ne hk.1 with h1 | h1
    · simp only [LeafSet.activeAt, h1, decide_true, Bool.or_true, if_true]
      refine hasDerivAt_of_eventuallyEq_const (c := lo i) ?_
      filter_upwards [gt_mem_nhds h1] with x hx
      simp [LeafSet.projAt, hx.le]
    · rcases lt_or_gt_of_ne hk.2 with h2 | h2
      · have e1 : ¬ hi i < z := by linarith
        have e2 : ¬ z < lo i := by linarith
        simp only [LeafSet.activeAt, e1, e2, decide_false, Bool.or_false, Bool.false_eq_true, if_false]
        refine hasDerivAt_of_eventuallyEq_add (c := 0) ?_
        filter_upwards [lt_mem_nhds h1, gt_mem_nhds h2] with x hx hx'
        simp [LeafSet.projAt, hx.le, hx'.le]
      · simp only [LeafSet.activeAt, h2, decide_true, Bool.true_or, if_true]
        refine hasDerivAt_of_eventuallyEq_const (c := hi i) ?_
        filter_upwards [lt_mem_nhds h2] with x hx
        simp [LeafSet.projAt, hx.le, hv]
  | l1 =>
    simp only [Kink] at hk
    rcases lt_or_gt_of_ne hk with h1 | h1
    · simp only [LeafSet.activeAt, h1.le, decide_true, if_true]
      refine hasDerivAt_of_eventuallyEq_const (c := 0) ?_
      have hc : ContinuousAt (fun x : ℝ => |x|) z := continuous_abs.continuousAt
      filter_upwards [hc.eventually (gt_mem_nhds h1)] with x hx
      simp only [LeafSet.projAt]
      rw [max_eq_right (by linarith), mul_zero]
    · have e1 : ¬ |z| ≤ mu := by linarith
      simp only [LeafSet.activeAt, e1, decide_false, Bool.false_eq_true, if_false]
      rcases le_or_gt 0 z with h2 | h2
      · rw [abs_of_nonneg h2] at h1
        refine hasDerivAt_of_eventuallyEq_add (c := -mu) ?_
        filter_upwards [lt_mem_nhds h1] with x hx
        simp only [LeafSet.projAt]
        rw [signK_pos (by linarith), abs_of_nonneg (by linarith), max_eq_left (by linarith)]; ring
      · rw [abs_of_neg h2] at h1
        refine hasDerivAt_of_eventuallyEq_add (c := mu) ?_
        have h3 : z < -mu := by linarith
        filter_upwards [gt_mem_nhds h3] with x hx
        simp only [LeafSet.projAt]
        rw [signK_neg (by linarith), abs_of_neg (by linarith), max_eq_left (by linarith)]; ring

/-- C04: off the kinks, `applyProjectionJacobian` applied to the identity is the derivative of
`projection`. -/
theorem C04_projection_jacobian (s : LeafSet ℝ) {n : ℕ} (h : Valid s n) (mu : ℝ) (hmu : 0 ≤ mu)
    (z : Fin n → ℝ) (hk : ∀ i : Fin n, ¬ Kink s mu i (z i)) :
    HasFDerivAt (fun x : Fin n → ℝ => s.projection mu x)
      (matL (s.applyProjectionJacobian mu z (fun i j => if i = j then 1 else 0))) z := by
  rw [hasFDerivAt_pi']
  intro i
  have h1 := hasDerivAt_projAt s h mu hmu i (z i) (hk i)
  have h2 : HasFDerivAt (fun x : Fin n → ℝ => x i) (ContinuousLinearMap.proj (R := ℝ) i) z :=
    hasFDerivAt_apply i z
  have h3 := h1.comp_hasFDerivAt z h2
  refine h3.congr_fderiv ?_
  ext v
  simp only [smul_apply, ContinuousLinearMap.proj_apply, smul_eq_mul,
    ContinuousLinearMap.comp_apply, matL_apply]
  have e : s.applyProjectionJacobian mu z (fun i j : Fin n => if i = j then (1:ℝ) else 0) i
      = fun j => if s.activeAt mu i (z i) then 0 else if i = j then 1 else 0 := by
    cases s <;> funext j <;> simp [LeafSet.applyProjectionJacobian, LeafSet.computeActiveSet, LeafSet.activeAt]
  rw [e]
  by_cases ha : s.activeAt mu i (z i) <;> simp [ha]

/-- C04: off the kinks, `applyNormalConeProjectionJacobian` applied to the identity is the derivative of
`normalConeProjection`. -/
theorem C04_normal_jacobian (s : LeafSet ℝ) {n : ℕ} (h : Valid s n) (mu : ℝ) (hmu : 0 ≤ mu)
    (z : Fin n → ℝ) (hk : ∀ i : Fin n, ¬ Kink s mu i (z i)) :
    HasFDerivAt (fun x : Fin n → ℝ => s.normalConeProjection mu x)
      (matL (s.applyNormalConeProjectionJacobian mu z (fun i j => if i = j then 1 else 0))) z := by
  have h1 := C04_projection_jacobian s h mu hmu z hk
  have h2 := (hasFDerivAt_id z).sub h1
  have e : (fun x : Fin n → ℝ => s.normalConeProjection mu x) =
      fun x => id x - s.projection mu x := by
    funext x i
    have := C03_projection_add_normal s mu x i
    simp only [id, Pi.sub_apply]; linarith
  rw [e]
  refine h2.congr_fderiv ?_
  ext v i
  simp only [sub_apply, ContinuousLinearMap.id_apply, Pi.sub_apply, matL_apply]
  have e1 : s.applyProjectionJacobian mu z (fun i j : Fin n => if i = j then (1:ℝ) else 0) i
      = fun j => if s.activeAt mu i (z i) then 0 else if i = j then 1 else 0 := by
    cases s <;> funext j <;> simp [LeafSet.applyProjectionJacobian, LeafSet.computeActiveSet, LeafSet.activeAt]
  have e2 : s.applyNormalConeProjectionJacobian mu z (fun i j : Fin n => if i = j then (1:ℝ) else 0) i
      = fun j => if s.activeAt mu i (z i) then (if i = j then 1 else 0) else 0 := by
    cases s <;> funext j <;>
      simp only [LeafSet.applyNormalConeProjectionJacobian, LeafSet.computeActiveSet, LeafSet.activeAt] <;>
      grind
  rw [e1, e2]
  by_cases ha : s.activeAt mu i (z i) <;> simp [ha]

/-- C04: at every point the two masked matrices add up to the input matrix. -/
theorem C04_jacobians_complementary {K : Type*} [Field K] [LinearOrder K] (s : LeafSet K) {n : ℕ}
    {C : Type*} (mu : K) (z : Fin n → K) (J : Fin n → C → K) (i : Fin n) (c : C) :
    s.applyProjectionJacobian mu z J i c + s.applyNormalConeProjectionJacobian mu z J i c = J i c := by
  cases s <;>
    simp only [LeafSet.applyProjectionJacobian, LeafSet.applyNormalConeProjectionJacobian, zero_add] <;>
    (split_ifs <;> simp_all)

/-- non-vacuity of the hypotheses of C04: a point off the kinks with one active and one inactive row. -/
example : (∀ i : Fin 2, ¬ Kink (.negOrthant : LeafSet ℝ) 1 i (![2, -1] i)) ∧
    (LeafSet.negOrthant : LeafSet ℝ).computeActiveSet 1 ![2, -1] 0 = true ∧
    (LeafSet.negOrthant : LeafSet ℝ).computeActiveSet 1 ![2, -1] 1 = false := by
  refine ⟨fun i => ?_, ?_, ?_⟩
  · fin_cases i <;> norm_num [Kink]
  · norm_num [LeafSet.computeActiveSet, LeafSet.activeAt]
  · norm_num [LeafSet.computeActiveSet, LeafSet.activeAt]

/-- The exclusion of kinks matters even where the operator is differentiable there: for a box with
`lower = upper` the projection is constant (derivative 0 everywhere), yet at `z = lower` the returned
Jacobian is the identity. -/
theorem C04_degenerate_box_kink_false :
    ∃ (s : LeafSet ℝ) (z : Fin 1 → ℝ), Valid s 1 ∧
      HasFDerivAt (fun x : Fin 1 → ℝ => s.projection 0 x) (matL fun _ _ => 0) z ∧
      s.applyProjectionJacobian 0 z (fun i j => if i = j then 1 else 0) = fun _ _ => (1 : ℝ) := by
  refine ⟨.box (fun _ => 0) (fun _ => 0), fun _ => 0, fun _ _ => le_rfl, ?_, ?_⟩
  · have : (fun x : Fin 1 → ℝ => (LeafSet.box (fun _ => (0:ℝ)) (fun _ => 0)).projection 0 x) =
        fun _ _ => (0:ℝ) := by
      funext x i
      simp [LeafSet.projection, LeafSet.projAt]
    rw [this]
    refine (hasFDerivAt_const (fun _ => (0:ℝ)) _).congr_fderiv ?_
    ext v i; simp
  · funext i j
    have : i = j := Subsingleton.elim _ _
    simp [LeafSet.applyProjectionJacobian, LeafSet.computeActiveSet, LeafSet.activeAt, this]

/-! ## C05, gradient -/

/-- C05: the gradient of the Moreau envelope is `normalConeProjection(z)/mu`, at every point (kinks
included). -/
theorem C05_moreau_envelope_gradient (s : LeafSet ℝ) {n : ℕ} (h : Valid s n) (o : SetObj ℝ)
    (ho : o.kind = s) (mu : ℝ) (hmu : 0 < mu) :
    ∃ E : (Fin n → ℝ) → ℝ,
      (∀ z : Fin n → ℝ, (o.setProxParameter mu).computeMoreauEnvelope z =
        some (E z, s.normalConeProjection mu z)) ∧
      ∀ z, HasFDerivAt E (dotL fun i => s.normalConeProjection mu z i / mu) z := by
  choose E h1 h2 h3 h4 using fun z => C05_moreau_envelope_is_min s h o ho mu hmu (n := n) z
  refine ⟨E, h1, fun z => ?_⟩
  have hinv : 0 < 1 / (2 * mu) := by positivity
  -- one-sided quadratic bound
  have up : ∀ z z', E z' ≤ E z + ∑ i, s.normalConeProjection mu z i / mu * (z' i - z i)
      + (1 / (2 * mu)) * ∑ i, (z' i - z i) ^ 2 := by
    intro z z'
    have := h2 z' _ (h3 z)
    rw [h4 z]
    refine this.trans (le_of_eq ?_)
    rw [add_assoc, add_assoc]
    congr 1
    unfold distSq
    rw [Finset.mul_sum, Finset.mul_sum, Finset.mul_sum, ← Finset.sum_add_distrib,
      ← Finset.sum_add_distrib]
    refine Finset.sum_congr rfl fun i _ => ?_
    have e := C03_projection_add_normal s mu z i
    have e' : s.normalConeProjection mu z i = z i - s.projection mu z i := by linarith
    rw [e']; field_simp; ring
  refine hasFDerivAt_of_quadratic_bound E _ z (3 / (2 * mu)) (by positivity) fun z' => ?_
  simp only [dotL_apply, Pi.sub_apply]
  have u1 := up z z'
  have u2 := up z' z
  -- normal parts are nonexpansive
  have hn : ∑ i, s.normalConeProjection mu z' i / mu * (z i - z' i) ≤
      - ∑ i, s.normalConeProjection mu z i / mu * (z' i - z i) + (1 / mu) * ∑ i, (z' i - z i) ^ 2 := by
    rw [← Finset.sum_neg_distrib, Finset.mul_sum, ← Finset.sum_add_distrib]
    refine Finset.sum_le_sum fun i _ => ?_
    have e := C03_projection_add_normal s mu z i
    have e' := C03_projection_add_normal s mu z' i
    have m : (s.projection mu z' i - s.projection mu z i) * (z' i - z i) ≤ (z' i - z i) ^ 2 ∧
        0 ≤ (s.projection mu z' i - s.projection mu z i) * (z' i - z i) := by
      simp only [LeafSet.projection]
      rcases le_total (z i) (z' i) with hab | hab
      · obtain ⟨a, b⟩ := projAt_mono s mu hmu.le i _ _ (validAt_of s h i) hab
        constructor <;> nlinarith
      · obtain ⟨a, b⟩ := projAt_mono s mu hmu.le i _ _ (validAt_of s h i) hab
        constructor <;> nlinarith
    have e1 : s.normalConeProjection mu z i = z i - s.projection mu z i := by linarith
    have e2 : s.normalConeProjection mu z' i = z' i - s.projection mu z' i := by linarith
    rw [e1, e2]
    have : 0 ≤ ((z' i - z i) ^ 2 + ((z' i - s.projection mu z' i) - (z i - s.projection mu z i)) * (z' i - z i)) / mu := by
      apply div_nonneg _ hmu.le
      nlinarith [m.1]
    have e3 : -((z i - s.projection mu z i) / mu * (z' i - z i)) + 1 / mu * (z' i - z i) ^ 2 -
      (z' i - s.projection mu z' i) / mu * (z i - z' i) = ((z' i - z i) ^ 2 + ((z' i - s.projection mu z' i) - (z i - s.projection mu z i)) * (z' i - z i)) / mu := by
      field_simp; ring
    linarith
  have hs : 0 ≤ ∑ i, (z' i - z i) ^ 2 := Finset.sum_nonneg fun i _ => sq_nonneg _
  have hsym : ∑ i, (z i - z' i) ^ 2 = ∑ i, (z' i - z i) ^ 2 :=
    Finset.sum_congr rfl fun i _ => by ring
  rw [hsym] at u2
  have e4 : (3 / (2 * mu) : ℝ) = 1 / (2 * mu) + 1 / mu := by field_simp; norm_num
  have e5 : 0 ≤ (1 / mu) * ∑ i, (z' i - z i) ^ 2 := by positivity
  have e6 : 0 ≤ (1 / (2*mu)) * ∑ i, (z' i - z i) ^ 2 := by positivity
  rw [e4, add_mul, abs_le]
  constructor <;> linarith

end ProxNLP
