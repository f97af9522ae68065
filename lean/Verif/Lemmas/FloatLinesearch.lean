import Verif.Spec.FloatLinesearch
import Verif.Lemmas.Rounding
import Verif.Props.Linesearch
import Mathlib.Tactic.Linarith
import Mathlib.Tactic.Ring
import Mathlib.Tactic.Positivity

/-! Lemmas on the line search in floating-point arithmetic. -/

set_option linter.unusedSectionVars false

namespace ProxNLP

open Spec ExtScalar

/-! ### IEEE rounding -/

theorem ieeeRnd_mono (p : ℕ) (hp : 0 < p) (emin : ℤ) {x y : ℚ} (h : x ≤ y) : ieeeRnd p emin x ≤ ieeeRnd p emin y := by
  by_contra hc
  push Not at hc
  have h1 := ieeeRnd_nearest p hp emin x _ (ieeeRnd_isFloat p hp emin y)
  have h2 := ieeeRnd_nearest p hp emin y _ (ieeeRnd_isFloat p hp emin x)
  have hxy : x < y := lt_of_le_of_ne h (fun e => by subst e; exact lt_irrefl _ hc)
  generalize ieeeRnd p emin x = a at *
  generalize ieeeRnd p emin y = b at *
  have h3 : a + b ≤ 2 * x := by
    by_contra h4
    push Not at h4
    have : |b - x| < |a - x| := abs_lt.2 ⟨by have := le_abs_self (a - x); linarith, by have := le_abs_self (a - x); linarith⟩
    linarith
  have h5 : 2 * y ≤ a + b := by
    by_contra h4
    push Not at h4
    have : |a - y| < |b - y| := abs_lt.2 ⟨by have := neg_le_abs (b - y); linarith, by have := neg_le_abs (b - y); linarith⟩
    linarith
  linarith

/-- a floating-point number is not changed -/
theorem ieeeRnd_float (p : ℕ) (hp : 0 < p) (emin : ℤ) {x : ℚ} (h : IsFloat p emin x) : ieeeRnd p emin x = x := by
  have h1 := ieeeRnd_nearest p hp emin x x h
  simp only [sub_self, abs_zero] at h1
  exact sub_eq_zero.1 (abs_eq_zero.1 (le_antisymm h1 (abs_nonneg _)))

theorem isFloat_half_pow (p : ℕ) (hp : 0 < p) (emin : ℤ) (k : ℕ) (hk : emin ≤ -k) : IsFloat p emin ((1 / 2) ^ k) := by
  refine ⟨1, -k, hk, ?_, ?_⟩
  · simp only [abs_one]
    exact one_lt_pow₀ (by norm_num) hp.ne'
  · simp [zpow_neg]

/-! ### The search -/

variable {K : Type} [Field K] [LinearOrder K] [IsStrictOrderedRing K]

theorem flSafeguard_range (lo hi : K) (left : Bool) (c : ExtScalar K) (a : K) (h : flSafeguard lo hi left c = some a)
    (h0 : 0 ≤ lo) (h0' : 0 ≤ hi) (h1 : lo ≤ 1) (h1' : hi ≤ 1) : 0 ≤ a ∧ a ≤ 1 := by
  have key : 0 ≤ (if left = true then lo else hi) ∧ (if left = true then lo else hi) ≤ 1 := by
    split_ifs
    · exact ⟨h0, h1⟩
    · exact ⟨h0', h1'⟩
  cases c with
  | nan => simp [flSafeguard] at h
  | posInf => simp only [flSafeguard, Option.some.injEq] at h; rw [← h]; exact key
  | negInf => simp only [flSafeguard, Option.some.injEq] at h; rw [← h]; exact key
  | fin b =>
    simp only [flSafeguard] at h
    by_cases hc : hi < b ∨ b < lo
    · rw [if_pos hc, Option.some.injEq] at h; rw [← h]; exact key
    · rw [if_neg hc, Option.some.injEq] at h
      push Not at hc
      rw [← h]
      exact ⟨h0.trans hc.2, hc.1.trans h1'⟩

theorem MonoRounding.unit {R : Rounding K} (hR : MonoRounding R) {x : K} (h0 : 0 ≤ x) (h1 : x ≤ 1) : 0 ≤ R.rnd x ∧ R.rnd x ≤ 1 :=
  ⟨by have := hR.mono 0 x h0; rwa [hR.zero] at this, by have := hR.mono x 1 h1; rwa [hR.one] at this⟩

theorem flNextAlpha_range (R : Rounding K) (hR : MonoRounding R) (I : FlInterp K) (o : LSOptions K) (ho : GoodLS o)
    (phi0 dphi0 : ExtScalar K) (alpha : K) (latest previous : FlSample K) (h0 : 0 ≤ alpha) (h1 : alpha ≤ 1) (hp0 : 0 ≤ previous.alpha)
    (hp1 : previous.alpha ≤ 1) :
    0 ≤ flNextAlpha R I o phi0 dphi0 alpha latest previous ∧ flNextAlpha R I o phi0 dphi0 alpha latest previous ≤ 1 := by
  have hmax1 : o.contractionMax ≤ 1 := ho.cmax.le
  have hmin1 : o.contractionMin ≤ 1 := ho.cle.trans hmax1
  have hmax0 : 0 ≤ o.contractionMax := ho.cmin.le.trans ho.cle
  have hlo := MonoRounding.unit hR (mul_nonneg ho.cmin.le h0) (mul_le_one₀ hmin1 h0 h1)
  have hhi := MonoRounding.unit hR (mul_nonneg hmax0 h0) (mul_le_one₀ hmax1 h0 h1)
  have hhalf := MonoRounding.unit hR (mul_nonneg h0 (by norm_num : (0 : K) ≤ 1 / 2)) (by linarith : alpha * (1 / 2) ≤ 1)
  have hprev := MonoRounding.unit hR (mul_nonneg ho.cmin.le hp0) (mul_le_one₀ hmin1 hp0 hp1)
  have fin : ∀ c : Option K, (∀ a, c = some a → 0 ≤ a ∧ a ≤ 1) →
      0 ≤ (match c with | none => R.rnd (o.contractionMin * previous.alpha) | some a => max a o.alphaMin) ∧
      (match c with | none => R.rnd (o.contractionMin * previous.alpha) | some a => max a o.alphaMin) ≤ 1 := by
    intro c hc
    cases c with
    | none => exact hprev
    | some a => exact ⟨(hc a rfl).1.trans (le_max_left _ _), max_le (hc a rfl).2 ho.amin1⟩
  refine fin _ fun a ha => ?_
  cases hi : o.interp with
  | bisection =>
    rw [hi] at ha
    simp only [Option.some.injEq] at ha
    rw [← ha]
    exact hhalf
  | quadratic => rw [hi] at ha; exact flSafeguard_range _ _ _ _ _ ha hlo.1 hhi.1 hlo.2 hhi.2
  | cubic => rw [hi] at ha; exact flSafeguard_range _ _ _ _ _ ha hlo.1 hhi.1 hlo.2 hhi.2

theorem flFirst_range (R : Rounding K) (hR : MonoRounding R) (phi : K → Option (ExtScalar K)) (o : LSOptions K) (ho : GoodLS o) (fuel : ℕ) :
    ∀ (a : K) (tr : List K) (al : K) (s : FlSample K) (tr' : List K), flFirst R phi o.alphaMin fuel a tr = some (al, s, tr') →
      o.alphaMin ≤ a → a ≤ 1 → (∀ b ∈ tr, (0 : K) ≤ b ∧ b ≤ 1) →
      o.alphaMin ≤ al ∧ al ≤ 1 ∧ 0 ≤ s.alpha ∧ s.alpha ≤ 1 ∧ ∀ b ∈ tr', (0 : K) ≤ b ∧ b ≤ 1 := by
  induction fuel with
  | zero => intro a tr al s tr' h; simp [flFirst] at h
  | succ fuel ih =>
    intro a tr al s tr' h ha ha1 htr
    have ha0 : 0 ≤ a := ho.amin.le.trans ha
    have hc : ∀ b ∈ a :: tr, (0 : K) ≤ b ∧ b ≤ 1 := by
      intro b hb
      rcases List.mem_cons.1 hb with rfl | hb
      · exact ⟨ha0, ha1⟩
      · exact htr b hb
    rw [flFirst] at h
    cases hv : phi a with
    | some v =>
      simp only [hv, Option.some.injEq, Prod.mk.injEq] at h
      obtain ⟨rfl, rfl, rfl⟩ := h
      exact ⟨ha, ha1, ha0, ha1, hc⟩
    | none =>
      simp only [hv] at h
      by_cases h1 : R.rnd (a * (1 / 2)) ≤ o.alphaMin
      · rw [if_pos h1] at h
        simp only [Option.some.injEq, Prod.mk.injEq] at h
        obtain ⟨rfl, rfl, rfl⟩ := h
        exact ⟨le_rfl, ho.amin1, le_rfl, zero_le_one, hc⟩
      · rw [if_neg h1] at h
        exact ih _ _ _ _ _ h (not_le.1 h1).le
          (MonoRounding.unit hR (mul_nonneg ha0 (by norm_num : (0 : K) ≤ 1 / 2)) (by linarith)).2 hc

theorem flLoop_range (R : Rounding K) (hR : MonoRounding R) (I : FlInterp K) (phi : K → Option (ExtScalar K)) (o : LSOptions K) (ho : GoodLS o)
    (phi0 dphi0 : ExtScalar K) (tr0 : List K) (k : ℕ) :
    ∀ (alpha : K) (latest previous : FlSample K) (tr : List K), 0 ≤ alpha → alpha ≤ 1 → 0 ≤ latest.alpha → latest.alpha ≤ 1 →
      0 ≤ previous.alpha → previous.alpha ≤ 1 → (∀ b ∈ tr0 ++ tr, (0 : K) ≤ b ∧ b ≤ 1) →
      let r := flLoop R I phi o phi0 dphi0 tr0 k alpha latest previous tr
      o.alphaMin ≤ r.alpha ∧ r.alpha ≤ 1 ∧ ∀ b ∈ r.trace0 ++ r.trace, 0 ≤ b ∧ b ≤ 1 := by
  induction k with
  | zero => intro alpha _ _ _ _ h1 _ _ _ _ h; exact ⟨le_max_right _ _, max_le h1 ho.amin1, h⟩
  | succ k ih =>
    intro alpha latest previous tr h0 h1 hl0 hl1 hp0 hp1 htr
    have hn := flNextAlpha_range R hR I o ho phi0 dphi0 alpha latest previous h0 h1 hp0 hp1
    have hc : ∀ b ∈ tr0 ++ flNextAlpha R I o phi0 dphi0 alpha latest previous :: tr, (0 : K) ≤ b ∧ b ≤ 1 := by
      intro b hb
      rcases List.mem_append.1 hb with hb | hb
      · exact htr b (List.mem_append.2 (Or.inl hb))
      · rcases List.mem_cons.1 hb with rfl | hb
        · exact hn
        · exact htr b (List.mem_append.2 (Or.inr hb))
    rw [flLoop]
    by_cases hA : flArmijo R o phi0 dphi0 alpha latest.phi = true
    · rw [if_pos hA]
      exact ⟨le_max_right _ _, max_le h1 ho.amin1, htr⟩
    · rw [if_neg hA]
      simp only
      cases hv : phi (flNextAlpha R I o phi0 dphi0 alpha latest previous) with
      | none => exact ih _ _ _ _ hn.1 hn.2 hl0 hl1 hl0 hl1 hc
      | some v =>
        simp only
        by_cases hle : flNextAlpha R I o phi0 dphi0 alpha latest previous ≤ o.alphaMin
        · rw [if_pos hle]
          exact ⟨le_max_right _ _, max_le hn.2 ho.amin1, hc⟩
        · rw [if_neg hle]
          exact ih _ _ _ _ hn.1 hn.2 hn.1 hn.2 hl0 hl1 hc

theorem flFirst_count (R : Rounding K) (phi : K → Option (ExtScalar K)) (amin : K) (M : ℕ)
    (hpow : ∀ k ≤ M, R.rnd ((1 / 2) ^ k) = (1 / 2) ^ k) (hM : (1 / 2 : K) ^ M ≤ amin) :
    ∀ (N j : ℕ) (tr : List K) (fuel : ℕ), j + N + 1 = M → N + 1 ≤ fuel →
    ∃ al s tr', flFirst R phi amin fuel ((1 / 2) ^ j) tr = some (al, s, tr') ∧ tr'.length ≤ tr.length + N + 1 := by
  intro N
  induction N with
  | zero =>
    intro j tr fuel hj hf
    obtain ⟨k, rfl⟩ : ∃ k, fuel = k + 1 := ⟨fuel - 1, by omega⟩
    rw [flFirst]
    cases phi ((1 / 2) ^ j) with
    | some v => exact ⟨_, _, _, rfl, by simp⟩
    | none =>
      simp only
      rw [if_pos (by rw [← pow_succ, hpow _ (by omega), show j + 1 = M from by omega]; exact hM)]
      exact ⟨_, _, _, rfl, by simp⟩
  | succ N ih =>
    intro j tr fuel hj hf
    obtain ⟨k, rfl⟩ : ∃ k, fuel = k + 1 := ⟨fuel - 1, by omega⟩
    rw [flFirst]
    cases phi ((1 / 2) ^ j) with
    | some v => exact ⟨_, _, _, rfl, by simp⟩
    | none =>
      simp only
      by_cases h1 : R.rnd ((1 / 2) ^ j * (1 / 2)) ≤ amin
      · rw [if_pos h1]
        exact ⟨_, _, _, rfl, by simp⟩
      · rw [if_neg h1, ← pow_succ, hpow _ (by omega)]
        obtain ⟨al, s, tr', h, hl⟩ := ih (j + 1) ((1 / 2) ^ j :: tr) k (by omega) (by omega)
        exact ⟨al, s, tr', h, by simp at hl; omega⟩

theorem flLoop_trace (R : Rounding K) (I : FlInterp K) (phi : K → Option (ExtScalar K)) (o : LSOptions K) (phi0 dphi0 : ExtScalar K)
    (tr0 : List K) (k : ℕ) : ∀ (alpha : K) (latest previous : FlSample K) (tr : List K),
    (flLoop R I phi o phi0 dphi0 tr0 k alpha latest previous tr).trace0 = tr0 ∧
    (flLoop R I phi o phi0 dphi0 tr0 k alpha latest previous tr).trace.length ≤ tr.length + k := by
  induction k with
  | zero => intro alpha latest previous tr; simp [flLoop]
  | succ k ih =>
    intro alpha latest previous tr
    rw [flLoop]
    by_cases hA : flArmijo R o phi0 dphi0 alpha latest.phi = true
    · rw [if_pos hA]; simp
    · rw [if_neg hA]
      simp only
      cases phi (flNextAlpha R I o phi0 dphi0 alpha latest previous) with
      | none =>
        obtain ⟨h1, h2⟩ := ih (flNextAlpha R I o phi0 dphi0 alpha latest previous) latest latest
          (flNextAlpha R I o phi0 dphi0 alpha latest previous :: tr)
        simp only [List.length_cons] at h2
        refine ⟨h1, ?_⟩
        simp only
        omega
      | some v =>
        simp only
        by_cases hle : flNextAlpha R I o phi0 dphi0 alpha latest previous ≤ o.alphaMin
        · rw [if_pos hle]; simp
        · rw [if_neg hle]
          obtain ⟨h1, h2⟩ := ih (flNextAlpha R I o phi0 dphi0 alpha latest previous)
            ⟨flNextAlpha R I o phi0 dphi0 alpha latest previous, v, true⟩ latest
            (flNextAlpha R I o phi0 dphi0 alpha latest previous :: tr)
          simp only [List.length_cons] at h2
          exact ⟨h1, by omega⟩

/-- the loop ends with the test met by the returned value at the returned step, at `alpha_min`, or with all passes used -/
theorem flLoop_armijo (R : Rounding K) (I : FlInterp K) (phi : K → Option (ExtScalar K)) (o : LSOptions K) (phi0 dphi0 : ExtScalar K)
    (tr0 : List K) (k : ℕ) : ∀ (alpha : K) (latest previous : FlSample K) (tr : List K),
    let r := flLoop R I phi o phi0 dphi0 tr0 k alpha latest previous tr
    flArmijo R o phi0 dphi0 r.alpha r.ret = true ∨ r.alpha = o.alphaMin ∨ r.trace.length = tr.length + k := by
  induction k with
  | zero => intro alpha latest previous tr; exact Or.inr (Or.inr rfl)
  | succ k ih =>
    intro alpha latest previous tr
    rw [flLoop]
    by_cases hA : flArmijo R o phi0 dphi0 alpha latest.phi = true
    · rw [if_pos hA]
      by_cases hc : o.alphaMin ≤ alpha
      · left
        simp only [max_eq_left hc]
        exact hA
      · right; left
        exact max_eq_right (not_le.1 hc).le
    · rw [if_neg hA]
      simp only
      have hlen : ∀ a : K, (a :: tr).length + k = tr.length + (k + 1) := fun a => by simp; omega
      cases phi (flNextAlpha R I o phi0 dphi0 alpha latest previous) with
      | none =>
        have := ih (flNextAlpha R I o phi0 dphi0 alpha latest previous) latest latest
          (flNextAlpha R I o phi0 dphi0 alpha latest previous :: tr)
        rwa [hlen] at this
      | some v =>
        simp only
        by_cases hle : flNextAlpha R I o phi0 dphi0 alpha latest previous ≤ o.alphaMin
        · rw [if_pos hle]
          exact Or.inr (Or.inl (max_eq_right hle))
        · rw [if_neg hle]
          have := ih (flNextAlpha R I o phi0 dphi0 alpha latest previous)
            ⟨flNextAlpha R I o phi0 dphi0 alpha latest previous, v, true⟩ latest
            (flNextAlpha R I o phi0 dphi0 alpha latest previous :: tr)
          rwa [hlen] at this

theorem armijo_error (R : Rounding K) (d c s : K) :
    |R.rnd d - d| + |R.rnd (R.rnd c * s) - c * s| ≤ armijoSlack R d c s := by
  have hu := R.u_nonneg
  have he := R.eta_nonneg
  have h1 := R.err d
  have h2 := R.err (R.rnd c * s)
  have h3 := R.err c
  have h4 : |R.rnd c * s - c * s| ≤ (R.u * |c| + R.eta) * |s| := by
    rw [← sub_mul, abs_mul]
    exact mul_le_mul_of_nonneg_right h3 (abs_nonneg _)
  have h5 : |R.rnd c * s| ≤ |c * s| + (R.u * |c| + R.eta) * |s| := by
    have := abs_add_le (c * s) (R.rnd c * s - c * s)
    rw [add_sub_cancel] at this
    linarith
  have h6 : |R.rnd (R.rnd c * s) - c * s| ≤ |R.rnd (R.rnd c * s) - R.rnd c * s| + |R.rnd c * s - c * s| := by
    have := abs_add_le (R.rnd (R.rnd c * s) - R.rnd c * s) (R.rnd c * s - c * s)
    rwa [sub_add_sub_cancel] at this
  have h7 : R.u * |R.rnd c * s| ≤ R.u * (|c * s| + (R.u * |c| + R.eta) * |s|) := mul_le_mul_of_nonneg_left h5 hu
  unfold armijoSlack
  have e : |c * s| = |c| * |s| := abs_mul _ _
  rw [e] at h7 ⊢
  nlinarith [h1, h2, h4, h6, h7]

end ProxNLP
