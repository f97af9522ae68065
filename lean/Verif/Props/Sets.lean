import Verif.Lemmas.Sets
import Verif.Lemmas.Math
import Verif.Model.Residual
import Mathlib.Data.Fin.VecNotation
import Mathlib.Tactic.FinCases
import Mathlib.Tactic.NormNum
import Mathlib.Algebra.BigOperators.Fin
import Mathlib.Tactic.Positivity

/-!
Property theorems C01, C02, C03, C05 (value), C06, C09, C10 about the built-in constraint sets.
-/

set_option linter.unusedSectionVars false
namespace ProxNLP

open Spec

variable {K : Type*} [Field K] [LinearOrder K] [IsStrictOrderedRing K]

/-! ## C01 -/

/-- C01: the projection is a nearest point of the set. -/
theorem C01_projection_is_nearest (s : LeafSet K) {n : ℕ} (h : IsIndicator s n) (mu : K)
    (z : Fin n → K) : IsNearest s z (s.projection mu z) := by
  refine ⟨(mem_iff s _).2 fun i => projAt_mem s mu i (z i) (validAt_of s (valid_of_indicator s h) i), ?_⟩
  intro y hy
  rw [mem_iff] at hy
  refine Finset.sum_le_sum fun i _ => ?_
  have h1 := normalAt_mul_le s mu i (z i) (y i) (indAt_of s h i) (hy i)
  have h2 := projAt_add_normalAt s mu i (z i)
  have h3 : s.normalAt mu i (z i) = z i - s.projAt mu i (z i) := by linarith
  rw [h3] at h1
  simp only [LeafSet.projection]
  nlinarith [sq_nonneg (y i - s.projAt mu i (z i))]

/-- C01: and the only one. -/
theorem C01_projection_unique (s : LeafSet K) {n : ℕ} (h : IsIndicator s n) (mu : K)
    (z p : Fin n → K) (hp : IsNearest s z p) : p = s.projection mu z := by
  have hle := hp.2 _ (C01_projection_is_nearest s h mu z).1
  have hm := (mem_iff s _).1 hp.1
  have key : ∀ i ∈ Finset.univ, (p i - s.projAt mu i (z i)) ^ 2 ≤
      (z i - p i) ^ 2 - (z i - s.projAt mu i (z i)) ^ 2 := by
    intro i _
    have h1 := normalAt_mul_le s mu i (z i) (p i) (indAt_of s h i) (hm i)
    have h2 := projAt_add_normalAt s mu i (z i)
    have h3 : s.normalAt mu i (z i) = z i - s.projAt mu i (z i) := by linarith
    rw [h3] at h1
    nlinarith
  have hsum := Finset.sum_le_sum key
  rw [Finset.sum_sub_distrib] at hsum
  have hz : ∑ i, (p i - s.projAt mu i (z i)) ^ 2 ≤ 0 := by
    refine hsum.trans ?_
    have : ∑ i, (z i - p i) ^ 2 ≤ ∑ i, (z i - s.projAt mu i (z i)) ^ 2 := hle
    linarith
  have hz0 : ∑ i, (p i - s.projAt mu i (z i)) ^ 2 = 0 :=
    le_antisymm hz (Finset.sum_nonneg fun i _ => sq_nonneg _)
  rw [Finset.sum_eq_zero_iff_of_nonneg (fun i _ => sq_nonneg _)] at hz0
  funext i
  have := hz0 i (Finset.mem_univ i)
  have := pow_eq_zero_iff (two_ne_zero) |>.1 this
  simp only [LeafSet.projection]; linarith

/-- C01 is not vacuous: a box in dimension 2, a point outside it in one coordinate. -/
example : IsIndicator (LeafSet.box (fun _ => (-1 : ℚ)) (fun _ => 1)) 2 ∧
    (LeafSet.box (fun _ => (-1 : ℚ)) (fun _ => 1)).projection 0 ![3, 1/2] = ![1, 1/2] := by
  refine ⟨fun i _ => by norm_num, ?_⟩
  funext i; fin_cases i <;> norm_num [LeafSet.projection, LeafSet.projAt]

/-! ## C02 -/

/-- C02: idempotence. -/
theorem C02_projection_idempotent (s : LeafSet K) {n : ℕ} (h : IsIndicator s n) (mu : K)
    (z : Fin n → K) : s.projection mu (s.projection mu z) = s.projection mu z := by
  funext i
  exact (projAt_eq_self_iff s mu i _ (indAt_of s h i)).2
    (projAt_mem s mu i (z i) (validAt_of s (valid_of_indicator s h) i))

/-- C02: the fixed points are exactly the members of the set. -/
theorem C02_projection_fixes_iff (s : LeafSet K) {n : ℕ} (h : IsIndicator s n) (mu : K)
    (z : Fin n → K) : s.projection mu z = z ↔ Mem s z := by
  rw [mem_iff, funext_iff]
  exact forall_congr' fun i => projAt_eq_self_iff s mu i _ (indAt_of s h i)

/-- C02: distances never increase (also for the proximal operator of the L1 penalty). -/
theorem C02_projection_nonexpansive (s : LeafSet K) {n : ℕ} (h : Valid s n) (mu : K) (hmu : 0 ≤ mu)
    (a b : Fin n → K) : distSq (s.projection mu a) (s.projection mu b) ≤ distSq a b := by
  refine Finset.sum_le_sum fun i _ => ?_
  exact sq_le_sq.2 (projAt_nonexp s mu hmu i _ _ (validAt_of s h i))

/-- C02 (stronger): the operators are firmly nonexpansive. -/
theorem C02_projection_firmly_nonexpansive (s : LeafSet K) {n : ℕ} (h : Valid s n) (mu : K)
    (hmu : 0 ≤ mu) (a b : Fin n → K) :
    distSq (s.projection mu a) (s.projection mu b) ≤
      inner (fun i => s.projection mu a i - s.projection mu b i) (fun i => a i - b i) := by
  refine Finset.sum_le_sum fun i _ => ?_
  simp only [LeafSet.projection]
  rcases le_total (a i) (b i) with hab | hab
  · obtain ⟨h1, h2⟩ := projAt_mono s mu hmu i _ _ (validAt_of s h i) hab
    nlinarith
  · obtain ⟨h1, h2⟩ := projAt_mono s mu hmu i _ _ (validAt_of s h i) hab
    nlinarith

/-- non-vacuity: the L1 proximal operator with mu = 1/2 moves two points closer. -/
example : Valid (LeafSet.l1 : LeafSet ℚ) 1 ∧
    distSq ((LeafSet.l1 : LeafSet ℚ).projection (1/2) ![2]) (LeafSet.l1.projection (1/2) ![0]) <
      distSq ![2] ![(0 : ℚ)] := by
  refine ⟨trivial, ?_⟩
  norm_num [distSq, LeafSet.projection, LeafSet.projAt, signK]

/-! ## C03 -/

/-- C03: Moreau decomposition, every set, every parameter. -/
theorem C03_projection_add_normal (s : LeafSet K) (mu : K) {n : ℕ} (z : Fin n → K) (i : Fin n) :
    s.projection mu z i + s.normalConeProjection mu z i = z i :=
  projAt_add_normalAt s mu i (z i)

/-- C03: the normal part lies in the normal cone at the projected point. -/
theorem C03_normal_in_cone (s : LeafSet K) {n : ℕ} (h : IsIndicator s n) (mu : K) (z : Fin n → K) :
    NormalCone s (s.projection mu z) (s.normalConeProjection mu z) := by
  intro y hy
  rw [mem_iff] at hy
  exact Finset.sum_nonpos fun i _ => normalAt_mul_le s mu i (z i) (y i) (indAt_of s h i) (hy i)

/-- non-vacuity: a nonzero normal part. -/
example : (LeafSet.negOrthant : LeafSet ℚ).normalConeProjection 0 ![2, -3] = ![2, 0] := by
  funext i; fin_cases i <;> norm_num [LeafSet.normalConeProjection, LeafSet.normalAt]

/-! ## C05 (value part; the gradient is in `Props/SetsDeriv.lean`) -/

/-- C05: after `setProxParameter mu` with `mu > 0`, `computeMoreauEnvelope z` returns the minimum over the
members `y` of the set of `penalty y + |y-z|²/(2 mu)`, and that minimum is attained at the projection. -/
theorem C05_moreau_envelope_is_min (s : LeafSet K) {n : ℕ} (h : Valid s n) (o : SetObj K)
    (ho : o.kind = s) (mu : K) (hmu : 0 < mu) (z : Fin n → K) :
    ∃ v, (o.setProxParameter mu).computeMoreauEnvelope z = some (v, s.normalConeProjection mu z) ∧
      (∀ y, Mem s y → v ≤ penalty s y + (1 / (2 * mu)) * distSq y z) ∧
      Mem s (s.projection mu z) ∧
      v = penalty s (s.projection mu z) + (1 / (2 * mu)) * distSq (s.projection mu z) z := by
  subst ho
  refine ⟨_, rfl, ?_, ?_, ?_⟩
  · intro y hy
    have e1 : ∀ i, z i - o.kind.normalConeProjection mu z i = o.kind.projection mu z i := fun i => by
      have := C03_projection_add_normal o.kind mu z i; linarith
    simp only [SetObj.setProxParameter, e1]
    cases hk : o.kind with
    | l1 =>
      simp only [LeafSet.evaluate, penalty, norm1, distSq]
      rw [Finset.mul_sum, Finset.mul_sum, ← Finset.sum_add_distrib, ← Finset.sum_add_distrib]
      refine Finset.sum_le_sum fun i _ => ?_
      have := soft_min mu (z i) (y i) hmu
      simp only [LeafSet.projection, LeafSet.projAt, LeafSet.normalConeProjection, LeafSet.normalAt]
      have e2 : (1 / (2 * mu)) * (y i - z i) ^ 2 = (1 / 2) * (1 / mu) * (z i - y i) ^ 2 := by
        field_simp; ring
      rw [e2]; exact this
    | equality | negOrthant | box lo hi =>
      have hind : IsIndicator o.kind n := by rw [hk]; simp_all [IsIndicator, Valid]
      rw [← hk]
      have hn := (C01_projection_is_nearest o.kind hind mu z).2 y hy
      have e2 : ∑ i, o.kind.normalConeProjection mu z i ^ 2 = distSq z (o.kind.projection mu z) := by
        refine Finset.sum_congr rfl fun i _ => ?_
        have := e1 i; congr 1; linarith
      have e3 : distSq z y = distSq y z := Finset.sum_congr rfl fun i _ => by ring
      have hp : (0 : K) ≤ 1 / (2 * mu) := by positivity
      have e4 : (1 / 2 : K) * (1 / mu) = 1 / (2 * mu) := by field_simp
      have := mul_le_mul_of_nonneg_left hn hp
      rw [e3] at this
      rw [e2, e4]
      simpa [hk, LeafSet.evaluate, penalty] using this
  · exact (mem_iff _ _).2 fun i => projAt_mem _ mu i (z i) (validAt_of _ h i)
  · have e1 : ∀ i, z i - o.kind.normalConeProjection mu z i = o.kind.projection mu z i := fun i => by
      have := C03_projection_add_normal o.kind mu z i; linarith
    have e2 : ∑ i, o.kind.normalConeProjection mu z i ^ 2 = distSq (o.kind.projection mu z) z := by
      refine Finset.sum_congr rfl fun i _ => ?_
      have := e1 i; rw [← this]; ring
    have e4 : (1 / 2 : K) * (1 / mu) = 1 / (2 * mu) := by field_simp
    simp only [SetObj.setProxParameter, e1, e2, e4]
    congr 1

/-- C05: before any `setProxParameter` call the envelope reads an indeterminate member. -/
theorem C05_envelope_before_parameter_is_undefined (s : LeafSet K) {n : ℕ} (z : Fin n → K) :
    (SetObj.new s).computeMoreauEnvelope z = none := rfl

/-- non-vacuity: envelope of the negative orthant at (2,-3) with mu = 1/2 is 4. -/
example : ((SetObj.new (.negOrthant : LeafSet ℚ)).setProxParameter (1/2)).computeMoreauEnvelope ![2, -3]
    = some (4, ![2, 0]) := by
  have : (LeafSet.negOrthant : LeafSet ℚ).normalConeProjection (1/2) ![2, -3] = ![2, 0] := by
    funext i; fin_cases i <;> norm_num [LeafSet.normalConeProjection, LeafSet.normalAt]
  simp only [SetObj.computeMoreauEnvelope, SetObj.setProxParameter, SetObj.new,
    SetObj.evaluateMoreauEnvelope, this]
  norm_num [LeafSet.evaluate, Fin.sum_univ_two]

/-! ## C06 -/

/-- C06: the L1 proximal operator minimises `|y|₁ + |y-z|²/(2mu)`. -/
theorem C06_l1_prox_minimises {n : ℕ} (mu : K) (hmu : 0 < mu) (z y : Fin n → K) :
    norm1 ((LeafSet.l1).projection mu z) + (1 / (2 * mu)) * distSq ((LeafSet.l1).projection mu z) z
      ≤ norm1 y + (1 / (2 * mu)) * distSq y z := by
  obtain ⟨v, _, h2, _, h4⟩ := C05_moreau_envelope_is_min (.l1 : LeafSet K) (n := n) trivial
    (SetObj.new .l1) rfl mu hmu z
  have := h2 y trivial
  rw [h4] at this; exact this

/-- C06: the scaled normal part is a subgradient of the 1-norm at the proximal point. -/
theorem C06_l1_normal_is_subgradient {n : ℕ} (mu : K) (hmu : 0 < mu) (z : Fin n → K) :
    SubgradL1 ((LeafSet.l1).projection mu z)
      (fun i => (LeafSet.l1).normalConeProjection mu z i / mu) := by
  intro y
  unfold norm1 inner
  rw [← Finset.sum_add_distrib]
  exact Finset.sum_le_sum fun i _ => soft_subgrad mu (z i) (y i) hmu

/-- C06: active coordinates are exactly those sent to 0. -/
theorem C06_l1_active_iff_zero {n : ℕ} (mu : K) (hmu : 0 < mu) (z : Fin n → K) (i : Fin n) :
    (LeafSet.l1).computeActiveSet mu z i = true ↔ (LeafSet.l1).projection mu z i = 0 := by
  simp only [LeafSet.computeActiveSet, LeafSet.activeAt, LeafSet.projection, LeafSet.projAt,
    decide_eq_true_eq]
  rcases soft_cases mu (z i) hmu.le with ⟨h1, h2⟩ | ⟨h1, h2⟩ | ⟨h1, h2⟩ <;> rw [h2]
  · constructor
    · intro h; rw [abs_le] at h; linarith
    · intro h; linarith
  · constructor
    · intro h; rw [abs_le] at h; linarith
    · intro h; linarith
  · simp [h1]

example : (LeafSet.l1 : LeafSet ℚ).projection (1/2) ![2, 1/4, -1] = ![3/2, 0, -1/2] := by
  funext i; fin_cases i <;> norm_num [LeafSet.projection, LeafSet.projAt, signK, abs_of_nonneg]

/-! ## C09 -/

/-- coordinate version of complementarity -/
theorem projAt_shift_eq_iff_ind (s : LeafSet K) (mu : K) (hmu : 0 < mu) (i : ℕ) (c l : K)
    (h : IndAt s i) :
    s.projAt mu i (c + mu * l) = c ↔ MemAt s i c ∧ ∀ y, MemAt s i y → l * (y - c) ≤ 0 := by
  constructor
  · intro e
    refine ⟨?_, fun y hy => ?_⟩
    · rw [← e]; refine projAt_mem s mu i _ ?_; cases s <;> simp_all [IndAt, ValidAt]
    · have h1 := normalAt_mul_le s mu i (c + mu * l) y h hy
      have h2 := projAt_add_normalAt s mu i (c + mu * l)
      rw [e] at h1 h2
      have h3 : s.normalAt mu i (c + mu * l) = mu * l := by linarith
      rw [h3] at h1
      by_contra hc
      push Not at hc
      have := mul_pos hmu hc
      linarith
  · rintro ⟨hc, hn⟩
    have hv : ValidAt s i := by cases s <;> simp_all [IndAt, ValidAt]
    have hp := projAt_mem s mu i (c + mu * l) hv
    have h1 := hn _ hp
    have h2 := normalAt_mul_le s mu i (c + mu * l) c h hc
    have h3 := projAt_add_normalAt s mu i (c + mu * l)
    set p := s.projAt mu i (c + mu * l)
    have h4 : s.normalAt mu i (c + mu * l) = c + mu * l - p := by linarith
    rw [h4] at h2
    have h5 := mul_le_mul_of_nonneg_left h1 hmu.le
    have : (p - c) ^ 2 ≤ 0 := by nlinarith
    have := pow_eq_zero_iff (two_ne_zero) |>.1 (le_antisymm this (sq_nonneg _))
    linarith

/-- coordinate version for L1 -/
theorem projAt_shift_eq_iff_l1 (mu : K) (hmu : 0 < mu) (i : ℕ) (c l : K) :
    (LeafSet.l1).projAt mu i (c + mu * l) = c ↔ ∀ y, |c| + l * (y - c) ≤ |y| := by
  constructor
  · intro e y
    have := soft_subgrad mu (c + mu * l) y hmu
    simp only [LeafSet.projAt] at e
    rw [e] at this
    rwa [show (c + mu * l - c) / mu = l by field_simp; ring] at this
  · intro hs
    simp only [LeafSet.projAt]
    have hsub := soft_subgrad mu (c + mu * l) c hmu
    set p := signK (c + mu * l) * max (|c + mu * l| - mu) 0
    have h1 := hs p
    have h2 : (c + mu * l - p) / mu * (c - p) + l * (p - c) ≤ 0 := by linarith
    have h3 : (c - p) ^ 2 ≤ 0 := by
      have := mul_le_mul_of_nonneg_left h2 hmu.le
      have e : mu * ((c + mu * l - p) / mu * (c - p) + l * (p - c)) = (c - p) ^ 2 := by
        field_simp; ring
      rw [e] at this; simpa using this
    have := pow_eq_zero_iff (two_ne_zero) |>.1 (le_antisymm h3 (sq_nonneg _))
    linarith

/-- C09: zero reported violation ⟺ first-order complementarity of (c, lambda). -/
theorem C09_zero_violation_iff_complementary (s : LeafSet K) {n : ℕ} (h : Valid s n) (mu : K)
    (hmu : 0 < mu) (c lam : Fin n → K) :
    violation s mu c lam = 0 ↔ Complementary s c lam := by
  have h0 : violation s mu c lam = 0 ↔ ∀ i : Fin n, s.projAt mu i (c i + mu * lam i) = c i := by
    simp only [violation]
    rw [inftyNorm_eq_zero_iff]
    refine forall_congr' fun i => ?_
    simp only [LeafSet.projection]
    constructor <;> intro e <;> linarith
  rw [h0]
  by_cases hl : s = .l1
  · subst hl
    simp only [Complementary, SubgradL1]
    constructor
    · intro e y
      unfold norm1 inner
      rw [← Finset.sum_add_distrib]
      exact Finset.sum_le_sum fun i _ => (projAt_shift_eq_iff_l1 mu hmu i _ _).1 (e i) (y i)
    · intro e i
      rw [projAt_shift_eq_iff_l1 mu hmu]
      intro t
      have := e (Function.update c i t)
      unfold norm1 inner at this
      rw [← Finset.sum_add_distrib] at this
      have h1 : ∑ j, (|c j| + lam j * (Function.update c i t j - c j)) =
          (|c i| + lam i * (t - c i)) + ∑ j ∈ Finset.univ.erase i, |c j| := by
        rw [← Finset.add_sum_erase _ _ (Finset.mem_univ i)]
        simp only [Function.update_self]
        congr 1
        refine Finset.sum_congr rfl fun j hj => ?_
        rw [Function.update_of_ne (Finset.ne_of_mem_erase hj)]; ring
      have h2 : ∑ j, |Function.update c i t j| = |t| + ∑ j ∈ Finset.univ.erase i, |c j| := by
        rw [← Finset.add_sum_erase _ _ (Finset.mem_univ i)]
        simp only [Function.update_self]
        congr 1
        refine Finset.sum_congr rfl fun j hj => ?_
        rw [Function.update_of_ne (Finset.ne_of_mem_erase hj)]
      rw [h1, h2] at this
      linarith
  · have hind : IsIndicator s n := by cases s <;> simp_all [IsIndicator, Valid]
    have hcomp : Complementary s c lam ↔ Mem s c ∧ NormalCone s c lam := by
      cases s <;> simp_all [Complementary]
    rw [hcomp]
    constructor
    · intro e
      refine ⟨(mem_iff s c).2 fun i =>
        ((projAt_shift_eq_iff_ind s mu hmu i _ _ (indAt_of s hind i)).1 (e i)).1, ?_⟩
      intro y hy
      rw [mem_iff] at hy
      exact Finset.sum_nonpos fun i _ =>
        ((projAt_shift_eq_iff_ind s mu hmu i _ _ (indAt_of s hind i)).1 (e i)).2 (y i) (hy i)
    · rintro ⟨hc, hn⟩ i
      rw [mem_iff] at hc
      rw [projAt_shift_eq_iff_ind s mu hmu i _ _ (indAt_of s hind i)]
      refine ⟨hc i, fun t ht => ?_⟩
      have hy : Mem s (Function.update c i t) := by
        rw [mem_iff]; intro j
        by_cases hj : j = i
        · subst hj; simpa using ht
        · rw [Function.update_of_ne hj]; exact hc j
      have := hn _ hy
      unfold inner at this
      rw [← Finset.add_sum_erase _ _ (Finset.mem_univ i)] at this
      simp only [Function.update_self] at this
      have h1 : ∑ j ∈ Finset.univ.erase i, lam j * (Function.update c i t j - c j) = 0 := by
        refine Finset.sum_eq_zero fun j hj => ?_
        rw [Function.update_of_ne (Finset.ne_of_mem_erase hj)]; ring
      rw [h1] at this
      linarith

/-- non-vacuity: an inequality pair with an active (multiplier 3) and an inactive coordinate. -/
example : violation (.negOrthant : LeafSet ℚ) (1/100) ![0, -2] ![3, 0] = 0 := by
  rw [violation, inftyNorm_eq_zero_iff]
  intro i; fin_cases i <;> norm_num [LeafSet.projection, LeafSet.projAt]

/-! ## C10 -/

/-- C10: a violation at most `t` puts the constraint value within `t` of the set in max norm. -/
theorem C10_violation_bounds_distance (s : LeafSet K) {n : ℕ} (h : IsIndicator s n) (mu t : K)
    (c lam : Fin n → K) (hv : violation s mu c lam ≤ t) :
    ∃ y, Mem s y ∧ ∀ i, |c i - y i| ≤ t :=
  ⟨s.projection mu (fun i => c i + mu * lam i), (C01_projection_is_nearest s h mu _).1,
    ((inftyNorm_le_iff _ t).1 hv).2⟩

/-- C10: equality constraints hold up to `t`. -/
theorem C10_equality (mu t : K) {n : ℕ} (c lam : Fin n → K)
    (hv : violation .equality mu c lam ≤ t) (i : Fin n) : |c i| ≤ t := by
  have := ((inftyNorm_le_iff _ t).1 hv).2 i
  simpa [LeafSet.projection, LeafSet.projAt] using this

/-- C10: approximate feasibility, dual sign and complementarity for inequality constraints. -/
theorem C10_inequality (mu t : K) (hmu : 0 < mu) {n : ℕ} (c lam : Fin n → K)
    (hv : violation .negOrthant mu c lam ≤ t) (i : Fin n) :
    c i ≤ t ∧ -(t / mu) ≤ lam i ∧ (c i < -t → |lam i| ≤ t / mu) := by
  have hi := ((inftyNorm_le_iff _ t).1 hv).2 i
  simp only [LeafSet.projection, LeafSet.projAt] at hi
  rw [abs_le] at hi
  rcases le_total (c i + mu * lam i) 0 with h | h
  · rw [min_eq_left h] at hi
    have h1 : mu * lam i ≤ t := by linarith [hi.1]
    have h2 : -t ≤ mu * lam i := by linarith [hi.2]
    have h3 : lam i ≤ t / mu := by rw [le_div_iff₀ hmu]; linarith
    have h4 : -(t / mu) ≤ lam i := by rw [neg_le, le_div_iff₀ hmu]; linarith
    exact ⟨by linarith, h4, fun _ => abs_le.2 ⟨h4, h3⟩⟩
  · rw [min_eq_right h] at hi
    refine ⟨by linarith [hi.2], ?_, fun h' => by linarith [hi.1]⟩
    rw [neg_le, le_div_iff₀ hmu]; linarith [hi.2]

/-- C10: the same for boxes: bounds up to `t`; a multiplier above `t/mu` forces the upper bound to be
attained up to `t`, one below `-t/mu` the lower bound. -/
theorem C10_box (lo hi : ℕ → K) (mu t : K) (hmu : 0 < mu) {n : ℕ} (hb : ∀ i < n, lo i ≤ hi i)
    (c lam : Fin n → K) (hv : violation (.box lo hi) mu c lam ≤ t) (i : Fin n) :
    lo i - t ≤ c i ∧ c i ≤ hi i + t ∧ (t / mu < lam i → |c i - hi i| ≤ t) ∧
      (lam i < -(t / mu) → |c i - lo i| ≤ t) := by
  have hi' := ((inftyNorm_le_iff _ t).1 hv).2 i
  simp only [LeafSet.projection, LeafSet.projAt] at hi'
  have hbi := hb i i.2
  rcases clamp_cases (lo i) (hi i) (c i + mu * lam i) hbi with ⟨h1, h2⟩ | ⟨h1, h2⟩ | ⟨h0, h1, h2⟩ <;>
    rw [h2, abs_le] at hi'
  · refine ⟨by linarith [hi'.1], by linarith [hi'.2], fun _ => abs_le.2 hi', fun hl => ?_⟩
    have : mu * lam i < -t := by
      have := mul_lt_mul_of_pos_left hl hmu
      rwa [mul_neg, mul_div_cancel₀ _ hmu.ne'] at this
    exact abs_le.2 ⟨by linarith [hi'.1], by linarith [hi'.2]⟩
  · refine ⟨by linarith [hi'.1], by linarith [hi'.2], fun hl => ?_, fun _ => abs_le.2 hi'⟩
    have : t < mu * lam i := by
      have := mul_lt_mul_of_pos_left hl hmu
      rwa [mul_div_cancel₀ _ hmu.ne'] at this
    exact abs_le.2 ⟨by linarith [hi'.1], by linarith [hi'.2]⟩
  · have h3 : -t ≤ mu * lam i ∧ mu * lam i ≤ t := ⟨by linarith [hi'.2], by linarith [hi'.1]⟩
    refine ⟨by linarith, by linarith, fun hl => ?_, fun hl => ?_⟩
    · have := mul_lt_mul_of_pos_left hl hmu
      rw [mul_div_cancel₀ _ hmu.ne'] at this; linarith
    · have := mul_lt_mul_of_pos_left hl hmu
      rw [mul_neg, mul_div_cancel₀ _ hmu.ne'] at this; linarith

example : violation (.negOrthant : LeafSet ℚ) (1/10) ![1/100, -1] ![5, 1/100] ≤ 1/100 := by
  rw [violation, inftyNorm_le_iff]
  refine ⟨by norm_num, fun i => ?_⟩
  fin_cases i <;> norm_num [LeafSet.projection, LeafSet.projAt, abs_le]

end ProxNLP
