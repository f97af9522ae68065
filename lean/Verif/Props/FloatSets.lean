import Verif.Spec.FloatSets
import Verif.Lemmas.FloatSets
import Verif.Lemmas.FloatSolver
import Verif.Props.FloatLinesearch
import Mathlib.Tactic.NormNum

/-!
C103: projections, normal parts, flags and multiplier estimates in rounded arithmetic.
-/

set_option linter.unusedSectionVars false

namespace ProxNLP

open Spec

section general
variable {K : Type} [Field K] [LinearOrder K] [IsStrictOrderedRing K]

/-- **C103 (normal cone).**  With any rounding that respects the order, the computed normal part of a hard constraint is exactly in the
normal cone at the computed projection: it points outwards on an active bound and is zero inside. -/
theorem C103_normal_cone (R : Rounding K) (hR : MonoRounding R) (s : LeafSet K) (hs : Hard s) (i : ℕ) (hv : ValidAt s i) (mu z : K) :
    rowAllows (s, i) (s.flProjAt R mu i z) ∧ InNormalCone (s, i) (s.flProjAt R mu i z) (s.flNormalAt R mu i z) := by
  cases s with
  | equality =>
    refine ⟨rfl, fun y hy => ?_⟩
    simp only [rowAllows] at hy
    simp [LeafSet.flProjAt, hy]
  | negOrthant =>
    refine ⟨min_le_right _ _, fun y hy => ?_⟩
    simp only [rowAllows] at hy
    simp only [LeafSet.flNormalAt, LeafSet.flProjAt]
    rcases le_total z 0 with h | h
    · rw [max_eq_right h, zero_mul]
    · rw [max_eq_left h, min_eq_right h]
      exact mul_nonpos_of_nonneg_of_nonpos h (by linarith)
  | box lo hi =>
    have hv' : lo i ≤ hi i := hv
    refine ⟨⟨le_max_right _ _, max_le (min_le_right _ _) hv'⟩, ?_⟩
    simp only [LeafSet.flNormalAt, LeafSet.flProjAt]
    refine inNormalCone_rnd R hR _ _ _ fun y hy => ?_
    simp only [rowAllows] at hy
    rcases lt_or_ge (hi i) z with h | h
    · rw [min_eq_right h.le, max_eq_left hv']
      exact mul_nonpos_of_nonneg_of_nonpos (by linarith) (by linarith [hy.2])
    · rw [min_eq_left h]
      rcases lt_or_ge z (lo i) with h' | h'
      · rw [max_eq_right h'.le]
        exact mul_nonpos_of_nonpos_of_nonneg (by linarith) (by linarith [hy.1])
      · rw [max_eq_left h', sub_self, zero_mul]
  | l1 => exact hs.elim

/-- the hypotheses are met: a box in double precision, a point above it; the normal part is rounded and points outwards -/
example : MonoRounding binary64 ∧ Hard (.box (fun _ => 0) (fun _ => (1 / 2) ^ 60) : LeafSet ℚ) ∧
    ValidAt (.box (fun _ => 0) (fun _ => (1 / 2) ^ 60) : LeafSet ℚ) 0 ∧
    (LeafSet.box (fun _ => 0) (fun _ => (1 / 2) ^ 60) : LeafSet ℚ).flNormalAt binary64 1 0 1 = 1 ∧
    (1 : ℚ) - (LeafSet.box (fun _ => 0) (fun _ => (1 / 2) ^ 60) : LeafSet ℚ).flProjAt binary64 1 0 1 < 1 :=
  ⟨C101_ieee.1, trivial, by simp [ValidAt], by decide +kernel, by decide +kernel⟩

/-- **C103 (multipliers).**  Both multiplier estimates of a hard constraint, as computed, are exactly in the normal cone of the set at the
computed projection of the corresponding shifted value: right sign on active rows, exactly zero on inactive ones. -/
theorem C103_multiplier_cone (R : Rounding K) (hR : MonoRounding R) (s : LeafSet K) (hs : Hard s) (i : ℕ) (hv : ValidAt s i)
    (fused fused' : Bool) (mu beta c lamPrev lam : K) (hmu : 0 < mu) (hb : 0 < beta) :
    InNormalCone (s, i) (s.flProjAt R mu i (flShift R fused mu c lamPrev)) (flLamPlus R (s, i) fused mu c lamPrev) ∧
    InNormalCone (s, i) (s.flProjAt R mu i (flShiftPdal R fused' mu lam (flShift R fused mu c lamPrev)))
      (flLamPdal R (s, i) fused fused' mu beta c lamPrev lam) := by
  have m0 : 0 ≤ flMuInv R mu := hR.nonneg (by positivity)
  constructor
  · exact inNormalCone_rnd R hR _ _ _ (inNormalCone_mul _ _ _ _ m0 (C103_normal_cone R hR s hs i hv mu _).2)
  · refine inNormalCone_rnd R hR _ _ _ ?_
    rw [mul_comm]
    exact inNormalCone_mul _ _ _ _ (hR.nonneg (div_nonneg m0 hb.le)) (C103_normal_cone R hR s hs i hv mu _).2

/-- a positive and a zero multiplier -/
example : 0 < flLamPlus binary64 (.negOrthant, 0) false (1 / 4) 3 (1 / 2) ∧ flLamPlus binary64 (.negOrthant, 0) false (1 / 4) (-3) (1 / 2) = 0 ∧
    0 < flLamPdal binary64 (.negOrthant, 0) false true (1 / 4) (1 / 2) 3 (1 / 2) 1 := by
  refine ⟨?_, ?_, ?_⟩ <;> decide +kernel

/-- **C103 (error of the estimate).**  The computed first-order multiplier estimate differs from the exact one by at most the rounding
errors of the row divided by the penalty parameter, plus a relative error. -/
theorem C103_multiplier_error (R : Rounding K) (leaf : LeafSet K × ℕ) (hv : ValidAt leaf.1 leaf.2) (fused : Bool) (mu : K) (hmu : 0 < mu)
    (c lamPrev : K) :
    |flLamPlus R leaf fused mu c lamPrev - exactEstimate leaf mu c lamPrev| ≤
      estimateSlack R mu c lamPrev (exactEstimate leaf mu c lamPrev) := by
  have u0 := R.u_nonneg
  have e0 := R.eta_nonneg
  set S := rowSlack R mu c lamPrev with hS
  have h1 : |flShift R fused mu c lamPrev - (c + mu * lamPrev)| ≤ S := by
    refine (flShift_error R fused mu c lamPrev).trans ?_
    rw [hS]
    unfold rowSlack
    have a1 : (1 + R.u) ^ 2 ≤ (1 + R.u) ^ 3 := pow_le_pow_right₀ (by linarith) (by norm_num)
    have a2 : 1 ≤ (1 + R.u) ^ 2 := one_le_pow₀ (by linarith)
    have a3 : 0 ≤ |c| + |mu * lamPrev| := by positivity
    have b1 := mul_le_mul_of_nonneg_right a1 a3
    have b2 : 0 ≤ ((1 + R.u) ^ 3 - 1) * mu := mul_nonneg (by linarith) hmu.le
    have b3 := mul_le_mul_of_nonneg_left a1 e0
    have b4 : 0 ≤ R.eta * (1 + R.u) ^ 3 := by positivity
    linarith
  have h2 := flRow_slack R leaf hv fused mu hmu.le c lamPrev
  rw [← hS] at h2
  have h3 := flNormal_sub R leaf.1 mu leaf.2 (flShift R fused mu c lamPrev)
  set z := flShift R fused mu c lamPrev with hz
  set p := leaf.1.flProjAt R mu leaf.2 z with hp
  set nu := leaf.1.flNormalAt R mu leaf.2 z with hnu
  set ze := c + mu * lamPrev with hze
  set pe := leaf.1.projAt mu leaf.2 ze with hpe
  have hL : exactEstimate leaf mu c lamPrev = (ze - pe) / mu := rfl
  set L := exactEstimate leaf mu c lamPrev with hLdef
  have hN : ze - pe = L * mu := by rw [hL]; field_simp
  have S0 : 0 ≤ S := (abs_nonneg _).trans h1
  have hw : |(z - p) - L * mu| ≤ 2 * S := by
    have e : (z - p) - L * mu = (z - ze) - (p - pe) := by rw [← hN]; ring
    rw [e]
    have := abs_sub (z - ze) (p - pe)
    linarith
  have hwabs : |z - p| ≤ |L| * mu + 2 * S := by
    have e : z - p = ((z - p) - L * mu) + L * mu := by ring
    have := abs_add_le ((z - p) - L * mu) (L * mu)
    rw [← e, abs_mul, abs_of_pos hmu] at this
    linarith
  have hnuN : |nu - L * mu| ≤ (1 + R.u) * (2 * S) + R.u * (|L| * mu) + R.eta := by
    have e : nu - L * mu = (nu - (z - p)) + ((z - p) - L * mu) := by ring
    have := abs_add_le (nu - (z - p)) ((z - p) - L * mu)
    rw [← e] at this
    have := mul_le_mul_of_nonneg_left hwabs u0
    linarith
  have hm := R.err (1 / mu)
  rw [abs_of_pos (by positivity : 0 < 1 / mu)] at hm
  have hm' : |flMuInv R mu - 1 / mu| ≤ R.u * (1 / mu) + R.eta := hm
  set M := flMuInv R mu with hM
  have hMabs : |M| ≤ (1 + R.u) * (1 / mu) + R.eta := by
    have e : M = (M - 1 / mu) + 1 / mu := by ring
    have := abs_add_le (M - 1 / mu) (1 / mu)
    rw [← e, abs_of_pos (by positivity : 0 < 1 / mu)] at this
    linarith
  have L0 := abs_nonneg L
  -- the product before its rounding
  have hq : |M * nu - L| ≤ ((1 + R.u) * (1 / mu) + R.eta) * ((1 + R.u) * (2 * S) + R.u * (|L| * mu) + R.eta) +
      (R.u * (1 / mu) + R.eta) * (|L| * mu) := by
    have e : M * nu - L = M * (nu - L * mu) + (M - 1 / mu) * (L * mu) := by field_simp; ring
    rw [e]
    refine (abs_add_le _ _).trans ?_
    rw [abs_mul, abs_mul, abs_mul L mu, abs_of_pos hmu]
    have k1 := mul_le_mul hMabs hnuN (abs_nonneg _) (by positivity)
    have k2 := mul_le_mul_of_nonneg_right hm' (by positivity : 0 ≤ |L| * mu)
    linarith
  set Q := ((1 + R.u) * (1 / mu) + R.eta) * ((1 + R.u) * (2 * S) + R.u * (|L| * mu) + R.eta) +
      (R.u * (1 / mu) + R.eta) * (|L| * mu) with hQ
  have hfin : |flLamPlus R leaf fused mu c lamPrev - L| ≤ (1 + R.u) * Q + R.u * |L| + R.eta := by
    show |R.rnd (M * nu) - L| ≤ _
    have e : R.rnd (M * nu) - L = (R.rnd (M * nu) - M * nu) + (M * nu - L) := by ring
    have k1 := abs_add_le (R.rnd (M * nu) - M * nu) (M * nu - L)
    rw [← e] at k1
    have k2 := R.err (M * nu)
    have k3 : |M * nu| ≤ |L| + Q := by
      have e : M * nu = (M * nu - L) + L := by ring
      have := abs_add_le (M * nu - L) L
      rw [← e] at this
      linarith
    have := mul_le_mul_of_nonneg_left k3 u0
    linarith
  refine hfin.trans ?_
  unfold estimateSlack
  rw [← hS]
  have eQ : Q = (1 + R.u + R.eta * mu) * ((1 + R.u) * (2 * S) + R.eta) / mu + ((1 + R.u) ^ 2 - 1 + R.eta * mu * (1 + R.u)) * |L| := by
    rw [hQ]; field_simp; ring
  have k : (1 + R.u) * ((1 + R.u + R.eta * mu) * ((1 + R.u) * (2 * S) + R.eta) / mu) ≤
      (1 + R.u) ^ 3 * ((1 + R.eta * mu) * (2 * S + R.eta) / mu) := by
    rw [mul_div_assoc', mul_div_assoc']
    refine div_le_div_of_nonneg_right ?_ hmu.le
    have a1 : (1 + R.u) * (2 * S) + R.eta ≤ (1 + R.u) * (2 * S + R.eta) := by
      have : 0 ≤ R.u * R.eta := mul_nonneg u0 e0
      linarith
    have a2 : 1 + R.u + R.eta * mu ≤ (1 + R.u) * (1 + R.eta * mu) := by
      have := mul_nonneg u0 (mul_nonneg e0 hmu.le)
      linarith
    have a3 := mul_le_mul a2 a1 (by positivity) (by positivity)
    calc (1 + R.u) * ((1 + R.u + R.eta * mu) * ((1 + R.u) * (2 * S) + R.eta))
        ≤ (1 + R.u) * ((1 + R.u) * (1 + R.eta * mu) * ((1 + R.u) * (2 * S + R.eta))) := mul_le_mul_of_nonneg_left a3 (by linarith)
      _ = _ := by ring
  rw [eQ, mul_add]
  have e3 : (1 + R.u) * (((1 + R.u) ^ 2 - 1 + R.eta * mu * (1 + R.u)) * |L|) + R.u * |L| =
      ((1 + R.u) ^ 3 - 1) * |L| + (1 + R.u) ^ 2 * R.eta * mu * |L| := by ring
  linarith

/-- the error is not zero: 3 * (1/3), rounded twice -/
example : ValidAt (LeafSet.equality : LeafSet ℚ) 0 ∧ flLamPlus binary64 (.equality, 0) false 3 1 0 ≠ exactEstimate (.equality, 0) 3 1 0 :=
  ⟨by simp [ValidAt], by decide +kernel⟩

/-- **C103 (primal-dual estimate).**  The computed primal-dual shifted value differs from `c + mu (lamPrev - lam / 2)` by rounding errors
only, and the computed estimate is `(z - p) / (mu beta)`, `z` the computed shifted value and `p` its computed projection, with a rounding
of the difference, of the factor and of the product. -/
theorem C103_pdal_error (R : Rounding K) (leaf : LeafSet K × ℕ) (fused fused' : Bool) (mu beta : K) (hmu : 0 < mu) (hb : 0 < beta)
    (c lamPrev lam : K) :
    let z := flShiftPdal R fused' mu lam (flShift R fused mu c lamPrev)
    |z - (c + mu * (lamPrev - lam / 2))| ≤
      ((1 + R.u) ^ 3 - 1) * (|c| + |mu * lamPrev| + |mu * lam / 2|) + (4 + 2 * |lam|) * R.eta * (1 + R.u) ^ 3 ∧
    ∃ nu f, |nu - (z - leaf.1.flProjAt R mu leaf.2 z)| ≤ R.u * |z - leaf.1.flProjAt R mu leaf.2 z| + R.eta ∧
      |f - 1 / (mu * beta)| ≤ ((1 + R.u) ^ 2 - 1) / (mu * beta) + (1 + R.u) * R.eta / beta + R.eta ∧
      |flLamPdal R leaf fused fused' mu beta c lamPrev lam - nu * f| ≤ R.u * |nu * f| + R.eta := by
  have u0 := R.u_nonneg
  have e0 := R.eta_nonneg
  intro z
  constructor
  · have h1 := flShift_error R fused mu c lamPrev
    have h2 := R.err (1 / 2 * mu)
    rw [abs_of_pos (by positivity : 0 < 1 / 2 * mu)] at h2
    set w := flShift R fused mu c lamPrev with hw
    set h := R.rnd (1 / 2 * mu) with hh
    have e : |h * lam - mu * lam / 2| ≤ R.u * |mu * lam / 2| + R.eta * |lam| := by
      have : h * lam - mu * lam / 2 = (h - 1 / 2 * mu) * lam := by ring
      rw [this, abs_mul]
      have k := mul_le_mul_of_nonneg_right h2 (abs_nonneg lam)
      have : |mu * lam / 2| = 1 / 2 * mu * |lam| := by
        rw [abs_div, abs_mul, abs_of_pos hmu, abs_of_pos (by norm_num : (0 : K) < 2)]; ring
      rw [this]; linarith
    -- the term that is subtracted, with the rounding of the product or without
    obtain ⟨q, hq, hz⟩ : ∃ q, |q - mu * lam / 2| ≤ ((1 + R.u) ^ 2 - 1) * |mu * lam / 2| + (1 + R.u) * R.eta * |lam| + R.eta ∧
        z = R.rnd (w - q) := by
      have hm : |h * lam| ≤ (1 + R.u) * |mu * lam / 2| + R.eta * |lam| := by
        have := abs_add_le (h * lam - mu * lam / 2) (mu * lam / 2)
        rw [sub_add_cancel] at this
        linarith
      have p1 : 0 ≤ R.u * |mu * lam / 2| := by positivity
      have p2 : 0 ≤ R.u * (R.u * |mu * lam / 2|) := by positivity
      have p3 : 0 ≤ R.eta * |lam| := by positivity
      have p4 : 0 ≤ R.u * (R.eta * |lam|) := by positivity
      cases fused' with
      | true =>
        refine ⟨h * lam, ?_, rfl⟩
        nlinarith only [e, p1, p2, p3, p4, e0]
      | false =>
        refine ⟨R.rnd (h * lam), ?_, rfl⟩
        have k := R.err (h * lam)
        have k2 := abs_add_le (R.rnd (h * lam) - h * lam) (h * lam - mu * lam / 2)
        rw [sub_add_sub_cancel] at k2
        have k3 := mul_le_mul_of_nonneg_left hm u0
        nlinarith only [e, k, k2, k3, p1, p2, p3, p4]
    rw [hz]
    have k := R.err (w - q)
    have t : |w - q - (c + mu * (lamPrev - lam / 2))| ≤ |w - (c + mu * lamPrev)| + |q - mu * lam / 2| := by
      have := abs_sub (w - (c + mu * lamPrev)) (q - mu * lam / 2)
      have e : w - q - (c + mu * (lamPrev - lam / 2)) = (w - (c + mu * lamPrev)) - (q - mu * lam / 2) := by ring
      rw [e]; exact this
    have s1 := abs_add_le (R.rnd (w - q) - (w - q)) (w - q - (c + mu * (lamPrev - lam / 2)))
    rw [sub_add_sub_cancel] at s1
    have s2 : |w - q| ≤ |w - q - (c + mu * (lamPrev - lam / 2))| + (|c| + |mu * lamPrev| + |mu * lam / 2|) := by
      have a := abs_add_le (w - q - (c + mu * (lamPrev - lam / 2))) (c + mu * (lamPrev - lam / 2))
      rw [sub_add_cancel] at a
      have b : |c + mu * (lamPrev - lam / 2)| ≤ |c| + |mu * lamPrev| + |mu * lam / 2| := by
        have : c + mu * (lamPrev - lam / 2) = (c + mu * lamPrev) - mu * lam / 2 := by ring
        rw [this]
        exact (abs_sub _ _).trans (add_le_add_left (abs_add_le _ _) _)
      linarith
    have s3 := mul_le_mul_of_nonneg_left s2 u0
    generalize |w - q - (c + mu * (lamPrev - lam / 2))| = T at *
    have v1 : (1 : K) ≤ 1 + R.u := by linarith
    have v2 : 1 + R.u ≤ (1 + R.u) ^ 3 := le_self_pow₀ v1 (by norm_num)
    have v3 : (1 + R.u) ^ 2 ≤ (1 + R.u) ^ 3 := pow_le_pow_right₀ v1 (by norm_num)
    have v4 : 1 ≤ (1 + R.u) ^ 3 := one_le_pow₀ v1
    have l0 := abs_nonneg lam
    have el : 0 ≤ R.eta * |lam| := by positivity
    have w1 := mul_le_mul_of_nonneg_left v2 e0
    have w2 := mul_le_mul_of_nonneg_left v3 el
    have w3 := mul_le_mul_of_nonneg_left v4 e0
    have w4 : 0 ≤ R.eta * |lam| * (1 + R.u) ^ 3 := by positivity
    have hT := mul_le_mul_of_nonneg_left (t.trans (add_le_add h1 hq)) (by linarith : 0 ≤ 1 + R.u)
    have fin : (1 + R.u) * T + R.u * (|c| + |mu * lamPrev| + |mu * lam / 2|) + R.eta ≤
        ((1 + R.u) ^ 3 - 1) * (|c| + |mu * lamPrev| + |mu * lam / 2|) + (4 + 2 * |lam|) * R.eta * (1 + R.u) ^ 3 := by
      have e1 : (1 + R.u) * (((1 + R.u) ^ 2 - 1) * (|c| + |mu * lamPrev|) + 2 * R.eta * (1 + R.u) ^ 2 +
          (((1 + R.u) ^ 2 - 1) * |mu * lam / 2| + (1 + R.u) * R.eta * |lam| + R.eta)) +
          R.u * (|c| + |mu * lamPrev| + |mu * lam / 2|) + R.eta =
        ((1 + R.u) ^ 3 - 1) * (|c| + |mu * lamPrev| + |mu * lam / 2|) + (2 * (R.eta * (1 + R.u) ^ 3) + R.eta * |lam| * (1 + R.u) ^ 2 +
          R.eta * (1 + R.u) + R.eta * 1) := by ring
      have e2 : (4 + 2 * |lam|) * R.eta * (1 + R.u) ^ 3 = 4 * (R.eta * (1 + R.u) ^ 3) + 2 * (R.eta * |lam| * (1 + R.u) ^ 3) := by ring
      rw [e2]
      linarith
    linarith
  · refine ⟨leaf.1.flNormalAt R mu leaf.2 z, R.rnd (flMuInv R mu / beta), flNormal_sub R leaf.1 mu leaf.2 z, ?_, R.err _⟩
    have h1 := R.err (1 / mu)
    rw [abs_of_pos (by positivity : 0 < 1 / mu)] at h1
    have h1' : |flMuInv R mu - 1 / mu| ≤ R.u * (1 / mu) + R.eta := h1
    set M := flMuInv R mu
    have h2 := R.err (M / beta)
    have h3 : |M / beta - 1 / (mu * beta)| ≤ (R.u * (1 / mu) + R.eta) / beta := by
      have : M / beta - 1 / (mu * beta) = (M - 1 / mu) / beta := by field_simp
      rw [this, abs_div, abs_of_pos hb]
      exact div_le_div_of_nonneg_right h1' hb.le
    have h4 : |M / beta| ≤ (R.u * (1 / mu) + R.eta) / beta + 1 / (mu * beta) := by
      have := abs_add_le (M / beta - 1 / (mu * beta)) (1 / (mu * beta))
      rw [sub_add_cancel, abs_of_pos (by positivity : 0 < 1 / (mu * beta))] at this
      linarith
    have h5 := abs_add_le (R.rnd (M / beta) - M / beta) (M / beta - 1 / (mu * beta))
    rw [sub_add_sub_cancel] at h5
    have h6 := mul_le_mul_of_nonneg_left h4 u0
    have e : ((1 + R.u) ^ 2 - 1) / (mu * beta) + (1 + R.u) * R.eta / beta + R.eta =
      R.u * ((R.u * (1 / mu) + R.eta) / beta + 1 / (mu * beta)) + R.eta + (R.u * (1 / mu) + R.eta) / beta := by
      field_simp; ring
    rw [e]; linarith

/-- a case with all roundings -/
example : flLamPdal binary64 (.equality, 0) false false 3 (1 / 2) 1 (1 / 5) (1 / 7) ≠ (1 + 3 * (1 / 5 - 1 / 7 / 2)) / (3 * (1 / 2)) := by
  decide +kernel

/-- **C103 (L1 multipliers, bound).**  The computed multiplier of the L1 penalty is in [-1, 1] up to the error of the estimate. -/
theorem C103_l1_bound_partial (R : Rounding K) (i : ℕ) (fused : Bool) (mu : K) (hmu : 0 < mu) (c lamPrev : K) :
    |flLamPlus R (.l1, i) fused mu c lamPrev| ≤ 1 + estimateSlack R mu c lamPrev 1 := by
  have h := C103_multiplier_error R (.l1, i) (by simp [ValidAt]) fused mu hmu c lamPrev
  have h1 : |exactEstimate (.l1, i) mu c lamPrev| ≤ 1 := by
    unfold exactEstimate
    rw [abs_div, abs_of_pos hmu, div_le_one hmu]
    simp only [LeafSet.projAt]
    generalize c + mu * lamPrev = z
    unfold signK
    rcases le_total |z| mu with hz | hz
    · rw [max_eq_right (by linarith), mul_zero, sub_zero]; exact hz
    · rw [max_eq_left (by linarith)]
      have hz0 : 0 < |z| := by linarith
      rcases lt_trichotomy z 0 with h2 | h2 | h2
      · rw [if_neg (by linarith), if_pos h2, abs_of_neg h2, abs_le]; constructor <;> linarith
      · rw [h2, abs_zero] at hz0; exact absurd hz0 (lt_irrefl _)
      · rw [if_pos h2, abs_of_pos h2, abs_le]; constructor <;> linarith
  have h2 : estimateSlack R mu c lamPrev (exactEstimate (.l1, i) mu c lamPrev) ≤ estimateSlack R mu c lamPrev 1 := by
    unfold estimateSlack
    have u0 := R.u_nonneg
    have e0 := R.eta_nonneg
    have a1 : 1 ≤ (1 + R.u) ^ 3 := one_le_pow₀ (by linarith)
    rw [abs_one]
    have b1 := mul_le_mul_of_nonneg_left h1 (by linarith : 0 ≤ (1 + R.u) ^ 3 - 1)
    have b2 := mul_le_mul_of_nonneg_left h1 (by positivity : 0 ≤ (1 + R.u) ^ 2 * R.eta * mu)
    linarith
  have h3 : |flLamPlus R (.l1, i) fused mu c lamPrev| ≤ |flLamPlus R (.l1, i) fused mu c lamPrev - exactEstimate (.l1, i) mu c lamPrev| +
      |exactEstimate (.l1, i) mu c lamPrev| := by
    have := abs_add_le (flLamPlus R (.l1, i) fused mu c lamPrev - exactEstimate (.l1, i) mu c lamPrev) (exactEstimate (.l1, i) mu c lamPrev)
    rwa [sub_add_cancel] at this
  linarith

end general

/-! ### Double precision -/

/-- **C103 (projections in double precision).**  The computed projection on a hard constraint is a double, lies in the set, is a nearest
point of the set, and leaves points of the set unchanged: no rounding error at all. -/
theorem C103_projection (s : LeafSet ℚ) (hs : Hard s) (i : ℕ) (hb : DoubleBounds s i) (mu z : ℚ) (hz : IsDouble z) :
    IsDouble (s.flProjAt binary64 mu i z) ∧ rowAllows (s, i) (s.flProjAt binary64 mu i z) ∧
    (∀ y, rowAllows (s, i) y → |z - s.flProjAt binary64 mu i z| ≤ |z - y|) ∧
    (rowAllows (s, i) z → s.flProjAt binary64 mu i z = z) := by
  have near : ∀ y, rowAllows (s, i) y → |z - s.flProjAt binary64 mu i z| ≤ |z - y| := by
    intro y hy
    cases s with
    | equality => simp only [rowAllows] at hy; simp [LeafSet.flProjAt, hy]
    | negOrthant =>
      simp only [rowAllows] at hy
      simp only [LeafSet.flProjAt]
      rcases le_total z 0 with h | h
      · rw [min_eq_left h, sub_self, abs_zero]; exact abs_nonneg _
      · rw [min_eq_right h, sub_zero, abs_of_nonneg h]
        have := le_abs_self (z - y)
        linarith
    | box lo hi =>
      simp only [rowAllows] at hy
      simp only [LeafSet.flProjAt]
      rcases lt_or_ge (hi i) z with h | h
      · rw [min_eq_right h.le, max_eq_left hb.2.2, abs_of_pos (by linarith)]
        have := le_abs_self (z - y)
        linarith [hy.2]
      · rw [min_eq_left h]
        rcases lt_or_ge z (lo i) with h' | h'
        · rw [max_eq_right h'.le, abs_of_neg (by linarith)]
          have := neg_le_abs (z - y)
          linarith [hy.1]
        · rw [max_eq_left h', sub_self, abs_zero]
          exact abs_nonneg _
    | l1 => exact hs.elim
  refine ⟨flProj_double s i hb mu z hz, ?_, near, fun h => ?_⟩
  · exact (C103_normal_cone binary64 C101_ieee.1 s hs i (validAt_of_bounds s i hb) mu z).1
  · have := near z h
    rw [sub_self, abs_zero] at this
    exact (sub_eq_zero.1 (abs_eq_zero.1 (le_antisymm this (abs_nonneg _)))).symm

/-- 0.1, as a double, projected on [0, 2⁻⁴] -/
example : Hard (.box (fun _ => 0) (fun _ => (1 / 2) ^ 4) : LeafSet ℚ) ∧ DoubleBounds (.box (fun _ => 0) (fun _ => (1 / 2) ^ 4)) 0 ∧
    IsDouble (binary64.rnd (1 / 10)) ∧
    (LeafSet.box (fun _ => 0) (fun _ => (1 / 2) ^ 4) : LeafSet ℚ).flProjAt binary64 1 0 (binary64.rnd (1 / 10)) = (1 / 2) ^ 4 :=
  ⟨trivial, ⟨isFloat_zero _ _, isFloat_half_pow _ (by norm_num) _ _ (by norm_num), by norm_num⟩, ieeeRnd_isFloat 53 (by norm_num) _ _,
    by decide +kernel⟩

/-- **C103 (flags).**  In double precision the flag of `computeActiveSet` says exactly what the other operators computed: for an
inequality or a box, whether the normal part is nonzero; for the L1 penalty, whether the proximal point is zero.  (Subtraction of
different doubles never gives zero.) -/
theorem C103_flags (i : ℕ) (mu z : ℚ) (hz : IsDouble z) (hmu : IsDouble mu) :
    ((LeafSet.negOrthant : LeafSet ℚ).activeAt mu i z = true ↔ (LeafSet.negOrthant : LeafSet ℚ).flNormalAt binary64 mu i z ≠ 0) ∧
    (∀ lo hi : ℕ → ℚ, DoubleBounds (.box lo hi) i →
      ((LeafSet.box lo hi).activeAt mu i z = true ↔ (LeafSet.box lo hi).flNormalAt binary64 mu i z ≠ 0)) ∧
    (0 ≤ mu → ((LeafSet.l1 : LeafSet ℚ).activeAt mu i z = true ↔ (LeafSet.l1 : LeafSet ℚ).flProjAt binary64 mu i z = 0)) := by
  refine ⟨?_, fun lo hi hb => ?_, fun h0 => ?_⟩
  · simp only [LeafSet.activeAt, LeafSet.flNormalAt, decide_eq_true_eq]
    rcases le_or_gt z 0 with h | h
    · simp [h, not_lt.2 h]
    · simp [h, h.le, h.ne']
  · simp only [LeafSet.activeAt, LeafSet.flNormalAt, Bool.or_eq_true, decide_eq_true_eq]
    rcases lt_or_ge (hi i) z with h | h
    · rw [min_eq_right h.le, max_eq_left hb.2.2]
      exact ⟨fun _ => ((b64_sub hz hb.2.1).2.2 h).ne', fun _ => Or.inl h⟩
    · rw [min_eq_left h]
      rcases lt_or_ge z (lo i) with h' | h'
      · rw [max_eq_right h'.le]
        exact ⟨fun _ => ((b64_sub hz hb.1).2.1 h').ne, fun _ => Or.inr h'⟩
      · rw [max_eq_left h', sub_self, C101_ieee.1.zero]
        simp [not_lt.2 h, not_lt.2 h']
  · simp only [LeafSet.activeAt, LeafSet.flProjAt, decide_eq_true_eq]
    rcases le_or_gt |z| mu with h | h
    · have : binary64.rnd (|z| - mu) ≤ 0 := C101_ieee.1.nonpos (by linarith)
      simp [h, max_eq_right this]
    · have h1 := (b64_sub (isFloat_abs hz) hmu).2.2 h
      have hz0 : z ≠ 0 := fun e => by rw [e, abs_zero] at h; linarith
      have hs : signK z ≠ 0 := by
        unfold signK
        rcases lt_or_gt_of_ne hz0 with h2 | h2
        · rw [if_neg (by linarith), if_pos h2]; norm_num
        · rw [if_pos h2]; norm_num
      simp [not_le.2 h, max_eq_left h1.le, hs, h1.ne']

/-- the smallest possible violation is flagged and seen -/
example : (LeafSet.box (fun _ => 0) (fun _ => (1 / 2) ^ 1074) : LeafSet ℚ).activeAt 1 0 (2 * (1 / 2) ^ 1074) = true ∧
    (LeafSet.box (fun _ => 0) (fun _ => (1 / 2) ^ 1074) : LeafSet ℚ).flNormalAt binary64 1 0 (2 * (1 / 2) ^ 1074) = (1 / 2) ^ 1074 := by
  constructor <;> decide +kernel

/-- **C103 (decomposition).**  In double precision the computed projection and the computed normal part add up to the point with a
relative error of at most 2⁻⁵³ of the normal part, whatever the magnitudes (underflow included); and exactly for equality and inequality
constraints, and when projection and point are within a factor 2 of each other. -/
theorem C103_decomposition (s : LeafSet ℚ) (i : ℕ) (hb : DoubleBounds s i) (mu z : ℚ) (hz : IsDouble z) :
    |s.flProjAt binary64 mu i z + s.flNormalAt binary64 mu i z - z| ≤ (1 / 2) ^ 53 * |z - s.flProjAt binary64 mu i z| ∧
    (s = .equality ∨ s = .negOrthant ∨
      (z ≤ 2 * s.flProjAt binary64 mu i z ∧ s.flProjAt binary64 mu i z ≤ 2 * z) ∨
      (2 * s.flProjAt binary64 mu i z ≤ z ∧ 2 * z ≤ s.flProjAt binary64 mu i z) →
      s.flProjAt binary64 mu i z + s.flNormalAt binary64 mu i z = z) := by
  have hp := flProj_double s i hb mu z hz
  have hrnd : s.flNormalAt binary64 mu i z = z - s.flProjAt binary64 mu i z ∨
      s.flNormalAt binary64 mu i z = binary64.rnd (z - s.flProjAt binary64 mu i z) := by
    cases s with
    | equality => left; simp [LeafSet.flNormalAt, LeafSet.flProjAt]
    | negOrthant =>
      left
      simp only [LeafSet.flNormalAt, LeafSet.flProjAt]
      rcases le_total z 0 with h | h <;> simp [h]
    | box lo hi => right; rfl
    | l1 => right; rfl
  constructor
  · rcases hrnd with h | h
    · rw [h]
      have e : s.flProjAt binary64 mu i z + (z - s.flProjAt binary64 mu i z) - z = 0 := by ring
      rw [e, abs_zero]
      positivity
    · rw [h]
      have := (b64_sub hz hp).1
      have e : s.flProjAt binary64 mu i z + binary64.rnd (z - s.flProjAt binary64 mu i z) - z =
        binary64.rnd (z - s.flProjAt binary64 mu i z) - (z - s.flProjAt binary64 mu i z) := by ring
      rwa [e]
  · intro hc
    have key : s.flNormalAt binary64 mu i z = z - s.flProjAt binary64 mu i z := by
      rcases hc with rfl | rfl | ⟨h1, h2⟩ | ⟨h1, h2⟩
      · simp [LeafSet.flNormalAt, LeafSet.flProjAt]
      · simp only [LeafSet.flNormalAt, LeafSet.flProjAt]
        rcases le_total z 0 with h | h <;> simp [h]
      · rcases hrnd with h | h
        · exact h
        · rw [h]; exact ieeeRnd_float 53 (by norm_num) _ (isFloat_sub hz hp h1 h2)
      · rcases hrnd with h | h
        · exact h
        · rw [h]
          refine ieeeRnd_float 53 (by norm_num) _ ?_
          have := isFloat_sub (isFloat_neg hz) (isFloat_neg hp) (by linarith) (by linarith)
          have e : z - s.flProjAt binary64 mu i z = -(-z - -s.flProjAt binary64 mu i z) := by ring
          rw [e]
          exact isFloat_neg this
    rw [key]
    ring

/-- a decomposition with an error, and the case of the factor 2 -/
example : IsDouble 1 ∧ DoubleBounds (.box (fun _ => 0) (fun _ => (1 / 2) ^ 60)) 0 ∧
    (LeafSet.box (fun _ => 0) (fun _ => (1 / 2) ^ 60) : LeafSet ℚ).flProjAt binary64 1 0 1 +
      (LeafSet.box (fun _ => 0) (fun _ => (1 / 2) ^ 60) : LeafSet ℚ).flNormalAt binary64 1 0 1 ≠ 1 ∧
    (1 : ℚ) ≤ 2 * (LeafSet.box (fun _ => 0) (fun _ => 1 / 2) : LeafSet ℚ).flProjAt binary64 1 0 1 :=
  ⟨⟨1, 0, by norm_num, by norm_num, by norm_num⟩, ⟨isFloat_zero _ _, isFloat_half_pow _ (by norm_num) _ _ (by norm_num), by norm_num⟩,
    by decide +kernel, by decide +kernel⟩

/-- **C103 (soft threshold).**  The proximal point of the L1 penalty, as computed: 0 up to the threshold, beyond it the exact value up to
a relative error of 2⁻⁵³, with the sign of the argument. -/
theorem C103_soft_threshold (i : ℕ) (mu z : ℚ) (hz : IsDouble z) (hmu : IsDouble mu) (h0 : 0 ≤ mu) :
    (|z| ≤ mu → (LeafSet.l1 : LeafSet ℚ).flProjAt binary64 mu i z = 0 ∧ (LeafSet.l1 : LeafSet ℚ).flNormalAt binary64 mu i z = z) ∧
    (mu < |z| → 0 < (LeafSet.l1 : LeafSet ℚ).flProjAt binary64 mu i z * z ∧
      |(LeafSet.l1 : LeafSet ℚ).flProjAt binary64 mu i z - (LeafSet.l1 : LeafSet ℚ).projAt mu i z| ≤ (1 / 2) ^ 53 * (|z| - mu) ∧
      |(LeafSet.l1 : LeafSet ℚ).flProjAt binary64 mu i z| ≤ |z|) := by
  constructor
  · intro h
    have h1 : (LeafSet.l1 : LeafSet ℚ).flProjAt binary64 mu i z = 0 :=
      ((C103_flags i mu z hz hmu).2.2 h0).1 (by simpa [LeafSet.activeAt] using h)
    refine ⟨h1, ?_⟩
    show binary64.rnd (z - (LeafSet.l1 : LeafSet ℚ).flProjAt binary64 mu i z) = z
    rw [h1, sub_zero]
    exact ieeeRnd_float 53 (by norm_num) _ hz
  · intro h
    have h1 := (b64_sub (isFloat_abs hz) hmu).2.2 h
    have h2 := (b64_sub (isFloat_abs hz) hmu).1
    have h3 : binary64.rnd (|z| - mu) ≤ |z| := by
      have a : binary64.rnd (|z| - mu) ≤ binary64.rnd |z| := C101_ieee.1.mono _ _ (by linarith)
      rwa [C101_ieee.2.1 |z| (isFloat_abs hz)] at a
    rw [abs_of_pos (by linarith : 0 < |z| - mu)] at h2
    simp only [LeafSet.flProjAt, LeafSet.projAt]
    rw [max_eq_left h1.le, max_eq_left (by linarith : 0 ≤ |z| - mu)]
    have hz0 : z ≠ 0 := fun e => by rw [e, abs_zero] at h; linarith
    unfold signK
    rcases lt_or_gt_of_ne hz0 with hz' | hz'
    · rw [if_neg (by linarith), if_pos hz']
      refine ⟨by nlinarith, ?_, ?_⟩
      · rw [← mul_sub, abs_mul, abs_neg, abs_one, one_mul]; exact h2
      · rw [abs_mul, abs_neg, abs_one, one_mul, abs_of_pos h1]; exact h3
    · rw [if_pos hz']
      refine ⟨by nlinarith, ?_, ?_⟩
      · rw [← mul_sub, abs_mul, abs_one, one_mul]; exact h2
      · rw [abs_mul, abs_one, one_mul, abs_of_pos h1]; exact h3

/-- **C103 (L1 multipliers).**  The multiplier of the L1 penalty should be in [-1, 1], with absolute value 1 wherever the penalised value
is not zero.  In double precision it can be 0 at a nonzero value, and it can exceed 1: the subtraction of the threshold and its undoing
are two roundings of the size of the value, divided by the penalty parameter. -/
theorem C103_l1_bound_false :
    (∃ mu c : ℚ, IsDouble mu ∧ IsDouble c ∧ 0 < mu ∧ mu < c ∧
      (LeafSet.l1 : LeafSet ℚ).flProjAt binary64 mu 0 c ≠ 0 ∧ flLamPlus binary64 (.l1, 0) false mu c 0 = 0) ∧
    (∃ mu c : ℚ, IsDouble mu ∧ IsDouble c ∧ 0 < mu ∧ mu < c ∧ 5 / 4 < flLamPlus binary64 (.l1, 0) false mu c 0) := by
  refine ⟨⟨(1 / 2) ^ 60, 1, isFloat_half_pow _ (by norm_num) _ _ (by norm_num), ⟨1, 0, by norm_num, by norm_num, by norm_num⟩,
    by norm_num, by norm_num, by decide +kernel, by decide +kernel⟩,
    ⟨3 * (1 / 2) ^ 55, 1, ⟨3, -55, by norm_num, by norm_num, by norm_num⟩, ⟨1, 0, by norm_num, by norm_num, by norm_num⟩,
    by norm_num, by norm_num, by decide +kernel⟩⟩

end ProxNLP
