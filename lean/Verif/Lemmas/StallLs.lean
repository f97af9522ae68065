import Verif.Model.Linesearch
import Mathlib.Tactic.Ring
import Mathlib.Tactic.Linarith
import Mathlib.Tactic.Positivity
import Mathlib.Tactic.FieldSimp
import Mathlib.Tactic.LinearCombination

/-! Helper lemmas for C93: the line search along a direction in which the function grows at least like its tangent. -/

set_option linter.unusedSectionVars false
namespace ProxNLP

variable {K : Type} [Field K] [LinearOrder K] [IsStrictOrderedRing K]

theorem polyEvaluate_quad (a b c x : K) : polyEvaluate [a, b, c] x = (a * x + b) * x + c := by
  simp [polyEvaluate]

theorem polyEvaluate_cubic (a b c d x : K) : polyEvaluate [a, b, c, d] x = ((a * x + b) * x + c) * x + d := by
  simp [polyEvaluate]

/-- the interpolating parabola of a rejected point above the tangent sends the search to the left end -/
theorem minimizeQuad_up (phi0 dphi0 al v lo hi : K) (hd : 0 < dphi0) (ha : 0 < al) (hq : 0 < v - phi0 - al * dphi0) (hlo : 0 < lo)
    (hlh : lo ≤ hi) : minimizeQuad phi0 dphi0 (LSSample.mk' al v) lo hi = some lo := by
  unfold minimizeQuad
  rw [if_neg (show ¬ (LSSample.mk' al v).alpha = 0 from ha.ne')]
  show safeguard (quadCoeffs phi0 dphi0 (LSSample.mk' al v)) lo hi (if 2 * ((v - phi0 - al * dphi0) / (al * al)) = 0 then _ else
    .fin (-dphi0 / (2 * ((v - phi0 - al * dphi0) / (al * al))))) = _
  set a := (v - phi0 - al * dphi0) / (al * al) with hadef
  have hapos : 0 < a := div_pos hq (mul_pos ha ha)
  have h2 : 2 * a ≠ 0 := by positivity
  rw [if_neg h2]
  have hneg : -dphi0 / (2 * a) < lo := lt_of_lt_of_le (div_neg_of_neg_of_pos (by linarith) (by positivity)) hlo.le
  unfold safeguard
  simp only
  rw [if_pos (Or.inr hneg)]
  rcases hlh.eq_or_lt with h | h
  · rw [h]; simp
  · rw [if_pos]
    show polyEvaluate [a, dphi0, phi0] lo < polyEvaluate [a, dphi0, phi0] hi
    simp only [polyEvaluate_quad]
    have h1 : lo * lo < hi * hi := mul_self_lt_mul_self hlo.le h
    nlinarith [mul_lt_mul_of_pos_left h1 hapos, mul_lt_mul_of_pos_left h hd]

theorem cubic_ends (u w a0 cmax dphi0 phi0 : K) (ha : 0 < a0) (hd : 0 < dphi0) (hw0 : 0 < w) (huw : a0 * u ≤ w) (hc : 1 / 2 < cmax)
    (hc' : cmax ≤ 4 / 5) :
    ((-u * (1 / 2 * a0) + w) * (1 / 2 * a0) + dphi0) * (1 / 2 * a0) + phi0 <
      ((-u * (cmax * a0) + w) * (cmax * a0) + dphi0) * (cmax * a0) + phi0 := by
  have hgap : 0 < cmax * a0 - 1 / 2 * a0 := by rw [← sub_mul]; exact mul_pos (by linarith) ha
  have h3 : 0 < (cmax * a0 - 1 / 2 * a0) * dphi0 := mul_pos hgap hd
  have hM : cmax ^ 2 + cmax / 2 + 1 / 4 ≤ cmax + 1 / 2 := by
    have := mul_nonneg (sub_nonneg.2 hc.le) (sub_nonneg.2 hc')
    nlinarith
  have h4 : a0 * u * (a0 * (cmax ^ 2 + cmax / 2 + 1 / 4)) ≤ w * (a0 * (cmax + 1 / 2)) :=
    mul_le_mul huw (mul_le_mul_of_nonneg_left hM ha.le) (mul_nonneg ha.le (by nlinarith)) hw0.le
  have h5 : 0 ≤ (cmax * a0 - 1 / 2 * a0) * (w * (a0 * (cmax + 1 / 2)) - a0 * u * (a0 * (cmax ^ 2 + cmax / 2 + 1 / 4))) :=
    mul_nonneg hgap.le (by linarith)
  linear_combination h3 + h5

/-- the same for the cubic through the last two points (with the right-hand side as in the code) -/
theorem minimizeCubic_up (sqrt : K → K) (hsq : ∀ y, 0 ≤ y → 0 ≤ sqrt y ∧ sqrt y ^ 2 = y)
    (sing : LSSample K → LSSample K → K → K → Option K) (phi0 dphi0 a0 a1 v0 v1 cmax : K) (hd : 0 < dphi0) (ha : 0 < a0) (h01 : a0 < a1)
    (hq : 0 < v0 - phi0 - a0 * dphi0) (hq1 : v0 - phi0 - a0 * dphi0 ≤ v1 - phi0 - a1 * dphi0) (hc : 1 / 2 ≤ cmax) (hc' : cmax ≤ 4 / 5) :
    minimizeCubic sqrt sing phi0 dphi0 (LSSample.mk' a0 v0) (LSSample.mk' a1 v1) (1 / 2 * a0) (cmax * a0) = some (1 / 2 * a0) := by
  have ha1 : 0 < a1 := lt_trans ha h01
  set q0 := v0 - phi0 - a0 * dphi0 with hq0
  set q1 := v1 - phi0 - a1 * dphi0 with hq1'
  set D := a0 * a0 * (a1 * a1) * (a1 - a0) with hD
  have hDpos : 0 < D := mul_pos (by positivity) (by linarith)
  have hdet : a0 * a0 * a0 * (a1 * a1) - a0 * a0 * (a1 * a1 * a1) = -D := by rw [hD]; ring
  set N3 := q1 * (a1 * a1) - a0 * a0 * q0 with hN3
  set N2 := q1 * (a1 * a1 * a1) - a0 * a0 * a0 * q0 with hN2
  have hsq1 : a0 * a0 < a1 * a1 := mul_self_lt_mul_self ha.le h01
  have hN3pos : 0 < N3 := by
    rw [hN3]
    nlinarith [mul_lt_mul_of_pos_left hsq1 hq, mul_le_mul_of_nonneg_right hq1 (mul_pos ha1 ha1).le]
  have hN23 : a0 * N3 ≤ N2 := by
    have : 0 ≤ q1 * (a1 * a1) * (a1 - a0) := mul_nonneg (mul_nonneg (by linarith) (by positivity)) (by linarith)
    rw [hN2, hN3]
    nlinarith
  have hN2pos : 0 < N2 := lt_of_lt_of_le (mul_pos ha hN3pos) hN23
  have hc3 : (cubicCoeffs phi0 dphi0 (LSSample.mk' a0 v0) (LSSample.mk' a1 v1)).1 = -(N3 / D) := by
    unfold cubicCoeffs
    simp only [LSSample.mk']
    rw [hdet, div_neg, hN3, hq0, hq1']
    congr 2
    ring
  have hc2 : (cubicCoeffs phi0 dphi0 (LSSample.mk' a0 v0) (LSSample.mk' a1 v1)).2 = N2 / D := by
    unfold cubicCoeffs
    simp only [LSSample.mk']
    rw [hdet, div_neg, ← neg_div, hN2, hq0, hq1']
    congr 1
    ring
  unfold minimizeCubic
  simp only [hc3, hc2]
  have e : (LSSample.mk' a0 v0).alpha = a0 := rfl
  have e1 : (LSSample.mk' a1 v1).alpha = a1 := rfl
  rw [e, e1, hdet, if_neg (neg_ne_zero.2 hDpos.ne')]
  set u := N3 / D with hu
  set w := N2 / D with hw
  have hu0 : 0 < u := div_pos hN3pos hDpos
  have hw0 : 0 < w := div_pos hN2pos hDpos
  have huw : a0 * u ≤ w := by
    rw [hu, hw, ← mul_div_assoc]
    exact div_le_div_of_nonneg_right hN23 hDpos.le
  have hdisc : w * w ≤ w * w - 3 * -u * dphi0 := by nlinarith [mul_pos hu0 hd]
  have hdisc0 : 0 ≤ w * w - 3 * -u * dphi0 := le_trans (mul_self_nonneg w) hdisc
  rw [if_neg (not_lt.2 hdisc0), if_neg (by intro h; linarith : ¬ 3 * -u = 0)]
  obtain ⟨s0, s1⟩ := hsq _ hdisc0
  have hs : w ≤ sqrt (w * w - 3 * -u * dphi0) := by
    by_contra hn
    have hn := not_le.1 hn
    nlinarith
  have hcand : (-w + sqrt (w * w - 3 * -u * dphi0)) / (3 * -u) < 1 / 2 * a0 :=
    lt_of_le_of_lt (div_nonpos_of_nonneg_of_nonpos (by linarith) (by linarith)) (by positivity)
  unfold safeguard
  simp only
  rw [if_pos (Or.inr hcand)]
  rcases hc.eq_or_lt with h | h
  · rw [← h]; simp
  · rw [if_pos]
    simp only [polyEvaluate_cubic]
    exact cubic_ends u w a0 cmax dphi0 phi0 ha hd hw0 huw h hc'

theorem lsNextAlpha_up (sqrt : K → K) (hsq : ∀ y, 0 ≤ y → 0 ≤ sqrt y ∧ sqrt y ^ 2 = y)
    (sing : LSSample K → LSSample K → K → K → Option K) (o : LSOptions K) (hc : o.contractionMin = 1 / 2)
    (hc1 : 1 / 2 ≤ o.contractionMax) (hc2 : o.contractionMax ≤ 4 / 5) (F : K → K) (phi0 dphi0 : K) (hd : 0 < dphi0)
    (hq : ∀ a, 0 < a → a ≤ 1 → 0 < F a - phi0 - a * dphi0)
    (hmono : ∀ a b, 0 < a → a ≤ b → b ≤ 1 → F a - phi0 - a * dphi0 ≤ F b - phi0 - b * dphi0)
    (al : K) (ha : 0 < al) (ha1 : al ≤ 1) (prev : LSSample K)
    (hp : prev = LSSample.default ∨ ∃ p, al < p ∧ p ≤ 1 ∧ prev = LSSample.mk' p (F p)) :
    lsNextAlpha sqrt sing o phi0 dphi0 al (LSSample.mk' al (F al)) prev = max (al * (1 / 2)) o.alphaMin := by
  have hquad : minimizeQuad phi0 dphi0 (LSSample.mk' al (F al)) (o.contractionMin * al) (o.contractionMax * al) = some (al * (1 / 2)) := by
    rw [hc, minimizeQuad_up phi0 dphi0 al (F al) _ _ hd ha (hq al ha ha1) (by positivity) (by nlinarith), mul_comm]
  unfold lsNextAlpha
  cases hi : o.interp with
  | bisection => rfl
  | quadratic => simp only [hquad]
  | cubic =>
    rcases hp with hp | ⟨p, hp1, hp2, hp⟩
    · rw [hp]
      simp only [LSSample.default, hquad, Bool.false_eq_true, if_false]
    · rw [hp]
      have : (LSSample.mk' p (F p)).valid = true := rfl
      simp only [this, if_true]
      rw [hc, minimizeCubic_up sqrt hsq sing phi0 dphi0 al p (F al) (F p) o.contractionMax hd ha hp1 (hq al ha ha1)
        (hmono al p ha hp1.le hp2) hc1 hc2]
      simp only [mul_comm]

theorem lsLoop_up (sqrt : K → K) (hsq : ∀ y, 0 ≤ y → 0 ≤ sqrt y ∧ sqrt y ^ 2 = y)
    (sing : LSSample K → LSSample K → K → K → Option K) (o : LSOptions K) (hc : o.contractionMin = 1 / 2)
    (hc1 : 1 / 2 ≤ o.contractionMax) (hc2 : o.contractionMax ≤ 4 / 5) (hA : o.armijoC1 ≤ 1) (F : K → K) (phi0 dphi0 : K)
    (hd : 0 < dphi0) (hq : ∀ a, 0 < a → a ≤ 1 → 0 < F a - phi0 - a * dphi0)
    (hmono : ∀ a b, 0 < a → a ≤ b → b ≤ 1 → F a - phi0 - a * dphi0 ≤ F b - phi0 - b * dphi0) (tr0 : List K) (k : ℕ) :
    ∀ (al : K), 0 < al → al ≤ 1 → ∀ (prev : LSSample K),
      (prev = LSSample.default ∨ ∃ p, al < p ∧ p ≤ 1 ∧ prev = LSSample.mk' p (F p)) → ∀ tr,
      (lsLoop sqrt sing (fun a => some (F a)) o phi0 dphi0 tr0 k al (LSSample.mk' al (F al)) prev tr).alpha =
        max (al * (1 / 2) ^ k) o.alphaMin := by
  induction k with
  | zero => intro al _ _ prev _ tr; rw [lsLoop]; simp
  | succ k ih =>
    intro al ha ha1 prev hp tr
    have hrej : ¬ (LSSample.mk' al (F al)).phi - phi0 ≤ o.armijoC1 * al * dphi0 := by
      have := hq al ha ha1
      have h2 : o.armijoC1 * (al * dphi0) ≤ 1 * (al * dphi0) := mul_le_mul_of_nonneg_right hA (mul_pos ha hd).le
      show ¬ F al - phi0 ≤ _
      rw [not_le]
      nlinarith
    rw [lsLoop, if_neg hrej, lsNextAlpha_up sqrt hsq sing o hc hc1 hc2 F phi0 dphi0 hd hq hmono al ha ha1 prev hp]
    simp only
    split_ifs with hle
    · have hhalf : al * (1 / 2) ≤ o.alphaMin := le_trans (le_max_left _ _) hle
      rw [max_eq_right hhalf, max_self, max_eq_right]
      refine le_trans ?_ hhalf
      refine mul_le_mul_of_nonneg_left ?_ ha.le
      rw [pow_succ]
      have : ((1 : K) / 2) ^ k ≤ 1 := pow_le_one₀ (by norm_num) (by norm_num)
      linarith
    · have hgt : o.alphaMin < al * (1 / 2) := by
        by_contra hn
        exact hle (by rw [max_eq_right (not_lt.1 hn)])
      rw [max_eq_left hgt.le, ih (al * (1 / 2)) (by positivity) (by linarith) _ (Or.inr ⟨al, by linarith, ha1, rfl⟩)]
      congr 1
      rw [pow_succ]
      ring

/-- Along a direction of ascent in which `phi` grows at least like its tangent, the search halves the step until it reaches its
lower bound. -/
theorem lsRun_up (sqrt : K → K) (hsq : ∀ y, 0 ≤ y → 0 ≤ sqrt y ∧ sqrt y ^ 2 = y)
    (sing : LSSample K → LSSample K → K → K → Option K) (o : LSOptions K) (hc : o.contractionMin = 1 / 2)
    (hc1 : 1 / 2 ≤ o.contractionMax) (hc2 : o.contractionMax ≤ 4 / 5) (hA : o.armijoC1 ≤ 1) (F : K → K) (phi0 dphi0 : K)
    (hd : 0 < dphi0) (hth : o.dphiThresh ≤ dphi0) (hq : ∀ a, 0 < a → a ≤ 1 → 0 < F a - phi0 - a * dphi0)
    (hmono : ∀ a b, 0 < a → a ≤ b → b ≤ 1 → F a - phi0 - a * dphi0 ≤ F b - phi0 - b * dphi0) (fuel : ℕ) (r : LSResult K)
    (h : lsRun sqrt sing (fun a => some (F a)) o phi0 dphi0 fuel = some r) : r.alpha = max ((1 / 2) ^ o.maxNumSteps) o.alphaMin := by
  unfold lsRun at h
  cases fuel with
  | zero => simp [lsFirst] at h
  | succ fuel =>
    rw [lsFirst] at h
    simp only at h
    rw [if_neg (by rw [abs_of_pos hd, not_lt]; exact hth)] at h
    cases h
    rw [lsLoop_up sqrt hsq sing o hc hc1 hc2 hA F phi0 dphi0 hd hq hmono _ _ 1 one_pos le_rfl _ (Or.inl rfl), one_mul]

end ProxNLP
