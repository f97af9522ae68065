import Verif.Lemmas.FloatLinesearch

/-!
C101: the line search in floating-point arithmetic.

Every operation rounds, the merit function may throw or return NaN or an infinity, and nothing is assumed of the interpolation formulas.
-/

set_option linter.unusedSectionVars false

namespace ProxNLP

open Spec ExtScalar

variable {K : Type} [Field K] [LinearOrder K] [IsStrictOrderedRing K]

/-- C101, range: the step lies in `[alpha_min, 1]` and the merit function is only called at steps in `[0, 1]`, for every merit function,
every interpolation and every rounding that respects the order and keeps 0 and 1. -/
theorem C101_alpha_range (R : Rounding K) (hR : MonoRounding R) (I : FlInterp K) (phi : K → Option (ExtScalar K)) (o : LSOptions K)
    (ho : GoodLS o) (phi0 dphi0 : ExtScalar K) (fuel : ℕ) (r : FlLsResult K) (h : flLsRun R I phi o phi0 dphi0 fuel = some r) :
    o.alphaMin ≤ r.alpha ∧ r.alpha ≤ 1 ∧ ∀ a ∈ r.trace0 ++ r.trace, 0 ≤ a ∧ a ≤ 1 := by
  unfold flLsRun at h
  cases hf : flFirst R phi o.alphaMin fuel 1 [] with
  | none => simp [hf] at h
  | some q =>
    obtain ⟨al, s, tr⟩ := q
    simp only [hf] at h
    obtain ⟨h1, h2, h3, h4, htr⟩ := flFirst_range R hR phi o ho fuel 1 [] al s tr hf ho.amin1 le_rfl (by simp)
    by_cases hd : lt (ExtScalar.abs dphi0) (fin o.dphiThresh) = true
    · rw [if_pos hd, Option.some.injEq] at h
      rw [← h]
      exact ⟨h1, h2, by simpa using htr⟩
    · rw [if_neg hd, Option.some.injEq] at h
      rw [← h]
      exact flLoop_range R hR I phi o ho phi0 dphi0 tr _ al s _ _ (ho.amin.le.trans h1) h2 h3 h4 le_rfl zero_le_one (by simpa using htr)

/-- C101, termination: if `2^-(N+1) ≤ alpha_min` and the powers of 1/2 down to it are representable, the search ends after at most
`N + 1 + max_num_steps` evaluations, whatever the merit function does. -/
theorem C101_terminates (R : Rounding K) (I : FlInterp K) (phi : K → Option (ExtScalar K)) (o : LSOptions K) (phi0 dphi0 : ExtScalar K)
    (N : ℕ) (hpow : ∀ k ≤ N + 1, R.rnd ((1 / 2) ^ k) = (1 / 2) ^ k) (hN : (1 / 2 : K) ^ (N + 1) ≤ o.alphaMin) (fuel : ℕ) (hfuel : N + 1 ≤ fuel) :
    ∃ r, flLsRun R I phi o phi0 dphi0 fuel = some r ∧ r.trace0.length + r.trace.length ≤ N + 1 + o.maxNumSteps := by
  obtain ⟨al, s, tr, h, hl⟩ := flFirst_count R phi o.alphaMin (N + 1) hpow hN N 0 [] fuel (by omega) hfuel
  rw [pow_zero] at h
  simp only [List.length_nil, zero_add] at hl
  unfold flLsRun
  rw [h]
  simp only
  by_cases hd : lt (ExtScalar.abs dphi0) (fin o.dphiThresh) = true
  · rw [if_pos hd]
    exact ⟨_, rfl, by simp; omega⟩
  · rw [if_neg hd]
    obtain ⟨h1, h2⟩ := flLoop_trace R I phi o phi0 dphi0 tr o.maxNumSteps al s FlSample.default []
    refine ⟨_, rfl, ?_⟩
    rw [h1]
    simp only [List.length_nil, zero_add] at h2
    omega

/-- C101, decrease: for finite value and slope at 0, on return one of these holds: the slope was below the threshold; the step is
`alpha_min`; all `max_num_steps` trials were used; the value is `-∞`; or the value is finite and meets the Armijo inequality up to the
rounding of that one comparison.  NaN and `+∞` are never accepted by the test. -/
theorem C101_armijo (R : Rounding K) (I : FlInterp K) (phi : K → Option (ExtScalar K)) (o : LSOptions K) (p s : K) (fuel : ℕ)
    (r : FlLsResult K) (h : flLsRun R I phi o (fin p) (fin s) fuel = some r) :
    (∃ v, r.ret = fin v ∧ v - p ≤ o.armijoC1 * r.alpha * s + armijoSlack R (v - p) (o.armijoC1 * r.alpha) s) ∨ r.ret = negInf ∨
      |s| < o.dphiThresh ∨ r.alpha = o.alphaMin ∨ r.trace.length = o.maxNumSteps := by
  unfold flLsRun at h
  cases hf : flFirst R phi o.alphaMin fuel 1 [] with
  | none => simp [hf] at h
  | some q =>
    obtain ⟨al, sm, tr⟩ := q
    simp only [hf] at h
    by_cases hd : lt (ExtScalar.abs (fin s)) (fin o.dphiThresh) = true
    · exact Or.inr (Or.inr (Or.inl (by simpa [ExtScalar.abs, lt] using hd)))
    · rw [if_neg hd, Option.some.injEq] at h
      rcases flLoop_armijo R I phi o (fin p) (fin s) tr o.maxNumSteps al sm FlSample.default [] with h1 | h1 | h1
      · rw [h] at h1
        cases hr : r.ret with
        | fin v =>
          rw [hr] at h1
          have h2 : R.rnd (v + -p) ≤ R.rnd (R.rnd (o.armijoC1 * r.alpha) * s) := by
            simpa [flArmijo, HSub.hSub, Sub.sub, HMul.hMul, Mul.mul, ExtScalar.add, ExtScalar.neg, ExtScalar.mul, ExtScalar.rnd, le] using h1
          rw [← sub_eq_add_neg] at h2
          refine Or.inl ⟨v, rfl, ?_⟩
          have h3 := armijo_error R (v - p) (o.armijoC1 * r.alpha) s
          have h4 := neg_le_abs (R.rnd (v - p) - (v - p))
          have h5 := le_abs_self (R.rnd (R.rnd (o.armijoC1 * r.alpha) * s) - o.armijoC1 * r.alpha * s)
          linarith
        | negInf => exact Or.inr (Or.inl rfl)
        | nan => rw [hr] at h1; cases h1
        | posInf => rw [hr] at h1; cases h1
      · rw [h] at h1; exact Or.inr (Or.inr (Or.inr (Or.inl h1)))
      · rw [h] at h1; exact Or.inr (Or.inr (Or.inr (Or.inr (by simpa using h1))))

/-- C101, real decrease: with rounding that respects the order, a finite value accepted by the test is below the initial value, provided
the right-hand side of the test does not underflow to zero.  So no exit of the first kind raises the merit function, by rounding or
otherwise. -/
theorem C101_decrease (R : Rounding K) (hR : MonoRounding R) (I : FlInterp K) (phi : K → Option (ExtScalar K)) (o : LSOptions K) (p s : K)
    (fuel : ℕ) (r : FlLsResult K) (h : flLsRun R I phi o (fin p) (fin s) fuel = some r)
    (hs : R.rnd (R.rnd (o.armijoC1 * r.alpha) * s) < 0) :
    (∃ v, r.ret = fin v ∧ v < p) ∨ r.ret = negInf ∨ |s| < o.dphiThresh ∨ r.alpha = o.alphaMin ∨ r.trace.length = o.maxNumSteps := by
  unfold flLsRun at h
  cases hf : flFirst R phi o.alphaMin fuel 1 [] with
  | none => simp [hf] at h
  | some q =>
    obtain ⟨al, sm, tr⟩ := q
    simp only [hf] at h
    by_cases hd : lt (ExtScalar.abs (fin s)) (fin o.dphiThresh) = true
    · exact Or.inr (Or.inr (Or.inl (by simpa [ExtScalar.abs, lt] using hd)))
    · rw [if_neg hd, Option.some.injEq] at h
      rcases flLoop_armijo R I phi o (fin p) (fin s) tr o.maxNumSteps al sm FlSample.default [] with h1 | h1 | h1
      · rw [h] at h1
        cases hr : r.ret with
        | fin v =>
          rw [hr] at h1
          have h2 : R.rnd (v + -p) ≤ R.rnd (R.rnd (o.armijoC1 * r.alpha) * s) := by
            simpa [flArmijo, HSub.hSub, Sub.sub, HMul.hMul, Mul.mul, ExtScalar.add, ExtScalar.neg, ExtScalar.mul, ExtScalar.rnd, le] using h1
          refine Or.inl ⟨v, rfl, ?_⟩
          by_contra hc
          push Not at hc
          have h3 := hR.mono 0 (v + -p) (by linarith)
          rw [hR.zero] at h3
          linarith
        | negInf => exact Or.inr (Or.inl rfl)
        | nan => rw [hr] at h1; cases h1
        | posInf => rw [hr] at h1; cases h1
      · rw [h] at h1; exact Or.inr (Or.inr (Or.inr (Or.inl h1)))
      · rw [h] at h1; exact Or.inr (Or.inr (Or.inr (Or.inr (by simpa using h1))))

/-- C101, the full step: if the value at step 1 is below the Armijo line by more than what rounding can change, step 1 is returned after a
single evaluation. -/
theorem C101_full_step (R : Rounding K) (I : FlInterp K) (phi : K → Option (ExtScalar K)) (o : LSOptions K) (ho : GoodLS o) (p s v : K)
    (fuel : ℕ) (hfuel : 0 < fuel) (hv : phi 1 = some (fin v))
    (hA : v - p + armijoSlack R (v - p) o.armijoC1 s ≤ o.armijoC1 * s) :
    ∃ r, flLsRun R I phi o (fin p) (fin s) fuel = some r ∧ r.alpha = 1 ∧ r.ret = fin v ∧ r.trace0 = [1] ∧ r.trace = [] := by
  obtain ⟨k, rfl⟩ : ∃ k, fuel = k + 1 := ⟨fuel - 1, by omega⟩
  have hf : flFirst R phi o.alphaMin (k + 1) 1 [] = some (1, ⟨1, fin v, true⟩, [1]) := by rw [flFirst, hv]
  unfold flLsRun
  rw [hf]
  simp only
  by_cases hd : lt (ExtScalar.abs (fin s)) (fin o.dphiThresh) = true
  · rw [if_pos hd]
    exact ⟨_, rfl, rfl, rfl, rfl, rfl⟩
  · rw [if_neg hd]
    have hmax : max 1 o.alphaMin = 1 := max_eq_left ho.amin1
    cases hn : o.maxNumSteps with
    | zero => exact ⟨_, rfl, hmax, rfl, rfl, rfl⟩
    | succ n =>
      have hArm : flArmijo R o (fin p) (fin s) 1 (fin v) = true := by
        have h3 := armijo_error R (v - p) o.armijoC1 s
        have h4 := le_abs_self (R.rnd (v - p) - (v - p))
        have h5 := neg_le_abs (R.rnd (R.rnd o.armijoC1 * s) - o.armijoC1 * s)
        have h6 : R.rnd (v + -p) ≤ R.rnd (R.rnd (o.armijoC1 * 1) * s) := by
          rw [mul_one, ← sub_eq_add_neg]
          linarith
        simpa [flArmijo, HSub.hSub, Sub.sub, HMul.hMul, Mul.mul, ExtScalar.add, ExtScalar.neg, ExtScalar.mul, ExtScalar.rnd, le] using h6
      rw [flLoop, if_pos hArm]
      exact ⟨_, rfl, hmax, rfl, rfl, rfl⟩

/-! ### Double precision -/

/-- C101: IEEE rounding to nearest, ties to even, respects the order, leaves every floating-point number unchanged, in particular 0, 1 and
the powers of 1/2 down to `2^-1074`. -/
theorem C101_ieee : MonoRounding binary64 ∧ (∀ x, IsFloat 53 (-1074) x → binary64.rnd x = x) ∧
    ∀ k ≤ 1074, binary64.rnd ((1 / 2) ^ k) = (1 / 2) ^ k := by
  have hf : ∀ x, IsFloat 53 (-1074) x → binary64.rnd x = x := fun x hx => ieeeRnd_float 53 (by norm_num) (-1074) hx
  have hp : ∀ k ≤ 1074, binary64.rnd ((1 / 2) ^ k) = (1 / 2) ^ k := fun k hk =>
    hf _ (isFloat_half_pow 53 (by norm_num) (-1074) k (by omega))
  refine ⟨⟨fun x y h => ieeeRnd_mono 53 (by norm_num) (-1074) h, ieeeRnd_zero _ _, ?_⟩, hf, hp⟩
  simpa using hp 0 (by norm_num)

/-- C101 in double precision, with the default `alpha_min` of 1e-6: at most `20 + max_num_steps` evaluations, and a step in
`[alpha_min, 1]`, for every merit function and every interpolation. -/
theorem C101_double (I : FlInterp ℚ) (phi : ℚ → Option (ExtScalar ℚ)) (o : LSOptions ℚ) (ho : GoodLS o)
    (hmin : o.alphaMin = binary64.rnd (1 / 10 ^ 6)) (phi0 dphi0 : ExtScalar ℚ) :
    ∃ r, flLsRun binary64 I phi o phi0 dphi0 20 = some r ∧ r.trace0.length + r.trace.length ≤ 20 + o.maxNumSteps ∧
      o.alphaMin ≤ r.alpha ∧ r.alpha ≤ 1 := by
  obtain ⟨hR, -, hp⟩ := C101_ieee
  obtain ⟨r, h, hl⟩ := C101_terminates binary64 I phi o phi0 dphi0 19 (fun k hk => hp k (by omega))
    (by rw [hmin]; decide +kernel) 20 le_rfl
  obtain ⟨h1, h2, -⟩ := C101_alpha_range binary64 hR I phi o ho phi0 dphi0 20 r h
  exact ⟨r, h, hl, h1, h2⟩

/-! ### Exact arithmetic -/

/-- The candidate computed by the formulas of `Model/Linesearch.lean` (linesearch-armijo.hpp:151-206), for finite values. -/
def exactCand (sqrt : K → K) (sing : LSSample K → LSSample K → K → K → Option K) (t : LSInterp) (p s : K) (latest previous : LSSample K)
    (lo hi : K) : Option K :=
  match t with
  | .cubic => if previous.valid then minimizeCubic sqrt sing p s latest previous lo hi else minimizeQuad p s latest lo hi
  | _ => minimizeQuad p s latest lo hi

/-- the interpolation of the exact model -/
def exactInterp (sqrt : K → K) (sing : LSSample K → LSSample K → K → K → Option K) (t : LSInterp) : FlInterp K where
  raw := fun phi0 dphi0 l q lo hi =>
    match phi0, dphi0, l.phi, q.phi with
    | fin p, fin s, fin v, fin w =>
      match exactCand sqrt sing t p s ⟨l.alpha, v, l.valid⟩ ⟨q.alpha, w, q.valid⟩ lo hi with
      | none => nan
      | some a => fin a
    | _, _, _, _ => nan
  left := fun _ _ _ _ _ _ => false

/-- a sample of the exact model -/
def LSSample.toFl (s : LSSample K) : FlSample K := ⟨s.alpha, fin s.phi, s.valid⟩

/-- a result of the exact model -/
def LSResult.toFl (r : LSResult K) : FlLsResult K := ⟨r.alpha, fin r.ret, r.trace0, r.trace⟩

theorem exactCand_range (sqrt : K → K) (sing : LSSample K → LSSample K → K → K → Option K) (hsing : InRange sing) (t : LSInterp) (p s : K)
    (latest previous : LSSample K) (lo hi a : K) (h : lo ≤ hi) (ha : exactCand sqrt sing t p s latest previous lo hi = some a) :
    lo ≤ a ∧ a ≤ hi := by
  cases t with
  | bisection => exact minimizeQuad_range _ _ _ _ _ _ h ha
  | quadratic => exact minimizeQuad_range _ _ _ _ _ _ h ha
  | cubic =>
    simp only [exactCand] at ha
    by_cases hv : previous.valid = true
    · rw [if_pos hv] at ha; exact minimizeCubic_range _ _ hsing _ _ _ _ _ _ _ h ha
    · rw [if_neg hv] at ha; exact minimizeQuad_range _ _ _ _ _ _ h ha

theorem flNextAlpha_exact (R : Rounding K) (hR : ∀ x, R.rnd x = x) (sqrt : K → K) (sing : LSSample K → LSSample K → K → K → Option K)
    (hsing : InRange sing) (o : LSOptions K) (ho : GoodLS o) (p s alpha : K) (h0 : 0 ≤ alpha) (latest previous : LSSample K) :
    flNextAlpha R (exactInterp sqrt sing o.interp) o (fin p) (fin s) alpha latest.toFl previous.toFl =
      lsNextAlpha sqrt sing o p s alpha latest previous := by
  have hlo : o.contractionMin * alpha ≤ o.contractionMax * alpha := mul_le_mul_of_nonneg_right ho.cle h0
  have hpass : ∀ (c : Option K) (b : Bool), (∀ a, c = some a → o.contractionMin * alpha ≤ a ∧ a ≤ o.contractionMax * alpha) →
      flSafeguard (o.contractionMin * alpha) (o.contractionMax * alpha) b (match c with | none => nan | some a => fin a) = c := by
    intro c b hc
    cases c with
    | none => rfl
    | some a =>
      obtain ⟨h1, h2⟩ := hc a rfl
      simp only [flSafeguard]
      rw [if_neg (by push Not; exact ⟨h2, h1⟩)]
  have hc := fun t => hpass (exactCand sqrt sing t p s latest previous (o.contractionMin * alpha) (o.contractionMax * alpha)) false
    (fun a ha => exactCand_range sqrt sing hsing t p s latest previous _ _ a hlo ha)
  unfold flNextAlpha lsNextAlpha
  cases hi : o.interp with
  | bisection => simp only [hR]
  | quadratic =>
    have := hc .quadratic
    simp only [hR, exactInterp, LSSample.toFl]
    rw [this]
    rfl
  | cubic =>
    have := hc .cubic
    simp only [hR, exactInterp, LSSample.toFl]
    rw [this]
    rfl

theorem flArmijo_exact (R : Rounding K) (hR : ∀ x, R.rnd x = x) (o : LSOptions K) (p s alpha v : K) :
    flArmijo R o (fin p) (fin s) alpha (fin v) = decide (v - p ≤ o.armijoC1 * alpha * s) := by
  have : flArmijo R o (fin p) (fin s) alpha (fin v) = decide (R.rnd (v + -p) ≤ R.rnd (R.rnd (o.armijoC1 * alpha) * s)) := rfl
  rw [this, hR, hR, hR, sub_eq_add_neg]

theorem flLoop_exact (R : Rounding K) (hR : ∀ x, R.rnd x = x) (sqrt : K → K) (sing : LSSample K → LSSample K → K → K → Option K)
    (hsing : InRange sing) (phi : K → Option K) (o : LSOptions K) (ho : GoodLS o) (p s : K) (tr0 : List K) (k : ℕ) :
    ∀ (alpha : K) (latest previous : LSSample K) (tr : List K), 0 ≤ alpha → alpha ≤ 1 → 0 ≤ latest.alpha → latest.alpha ≤ 1 →
      0 ≤ previous.alpha → previous.alpha ≤ 1 →
    flLoop R (exactInterp sqrt sing o.interp) (fun a => (phi a).map fin) o (fin p) (fin s) tr0 k alpha latest.toFl previous.toFl tr =
      (lsLoop sqrt sing phi o p s tr0 k alpha latest previous tr).toFl := by
  have hM : MonoRounding R := ⟨fun x y h => by rwa [hR, hR], hR 0, hR 1⟩
  induction k with
  | zero => intros; rfl
  | succ k ih =>
    intro alpha latest previous tr h0 h1 hl0 hl1 hp0 hp1
    have hn := flNextAlpha_range R hM (exactInterp sqrt sing o.interp) o ho (fin p) (fin s) alpha latest.toFl previous.toFl h0 h1 hp0 hp1
    rw [flNextAlpha_exact R hR sqrt sing hsing o ho p s alpha h0] at hn
    rw [flLoop, lsLoop, flNextAlpha_exact R hR sqrt sing hsing o ho p s alpha h0]
    have hA : flArmijo R o (fin p) (fin s) alpha latest.toFl.phi = decide (latest.phi - p ≤ o.armijoC1 * alpha * s) :=
      flArmijo_exact R hR o p s alpha latest.phi
    by_cases h : latest.phi - p ≤ o.armijoC1 * alpha * s
    · rw [if_pos (by rw [hA]; exact decide_eq_true h), if_pos h]
      rfl
    · rw [if_neg (by rw [hA]; simpa using h), if_neg h]
      simp only
      cases hv : phi (lsNextAlpha sqrt sing o p s alpha latest previous) with
      | none => exact ih _ latest latest _ hn.1 hn.2 hl0 hl1 hl0 hl1
      | some v =>
        simp only [Option.map_some]
        by_cases hle : lsNextAlpha sqrt sing o p s alpha latest previous ≤ o.alphaMin
        · rw [if_pos hle, if_pos hle]
          rfl
        · rw [if_neg hle, if_neg hle]
          exact ih _ (LSSample.mk' _ v) latest _ hn.1 hn.2 hn.1 hn.2 hl0 hl1

theorem flFirst_exact (R : Rounding K) (hR : ∀ x, R.rnd x = x) (phi : K → Option K) (amin : K) (fuel : ℕ) : ∀ (a : K) (tr : List K),
    flFirst R (fun a => (phi a).map fin) amin fuel a tr = (lsFirst phi amin fuel a tr).map fun q => (q.1, q.2.1.toFl, q.2.2) := by
  induction fuel with
  | zero => intros; rfl
  | succ fuel ih =>
    intro a tr
    rw [flFirst, lsFirst, hR]
    cases phi a with
    | some v => rfl
    | none =>
      simp only [Option.map_none]
      by_cases h : a * (1 / 2) ≤ amin
      · rw [if_pos h, if_pos h]; rfl
      · rw [if_neg h, if_neg h]; exact ih _ _

/-- C101, link with the exact model: without rounding and on finite values the search is the one of C28-C33. -/
theorem C101_exact_arithmetic (R : Rounding K) (hR : ∀ x, R.rnd x = x) (sqrt : K → K) (sing : LSSample K → LSSample K → K → K → Option K)
    (hsing : InRange sing) (phi : K → Option K) (o : LSOptions K) (ho : GoodLS o) (p s : K) (fuel : ℕ) :
    flLsRun R (exactInterp sqrt sing o.interp) (fun a => (phi a).map fin) o (fin p) (fin s) fuel =
      (lsRun sqrt sing phi o p s fuel).map LSResult.toFl := by
  unfold flLsRun lsRun
  rw [flFirst_exact R hR]
  cases hf : lsFirst phi o.alphaMin fuel 1 [] with
  | none => rfl
  | some q =>
    obtain ⟨al, sm, tr⟩ := q
    obtain ⟨h1, h2, h3, h4⟩ := lsFirst_range phi o ho fuel al sm tr hf
    simp only [Option.map_some]
    have e : lt (ExtScalar.abs (fin s)) (fin o.dphiThresh) = decide (|s| < o.dphiThresh) := rfl
    by_cases hd : |s| < o.dphiThresh
    · rw [if_pos (by rw [e]; exact decide_eq_true hd), if_pos hd]
      rfl
    · rw [if_neg (by rw [e]; simpa using hd), if_neg hd]
      exact congrArg some (flLoop_exact R hR sqrt sing hsing phi o ho p s tr _ al sm LSSample.default [] (ho.amin.le.trans h1) h2 h3 h4
        le_rfl zero_le_one)

/-! ### Where rounding defeats the search -/

namespace Demo

/-- default options in double precision (linesearch-base.hpp:18-31) -/
def flLs (t : LSInterp) : LSOptions ℚ :=
  ⟨binary64.rnd (1 / 10 ^ 4), binary64.rnd (1 / 10 ^ 13), binary64.rnd (1 / 10 ^ 6), 20, t, 1 / 2, binary64.rnd (4 / 5)⟩

theorem flLs_good (t : LSInterp) : GoodLS (flLs t) := by
  cases t <;> exact ⟨by decide +kernel, by decide +kernel, by decide +kernel, by decide +kernel, by decide +kernel⟩

/-- an interpolation that always proposes NaN -/
def flI0 : FlInterp ℚ := ⟨fun _ _ _ _ _ _ => nan, fun _ _ _ _ _ _ => false⟩

/-- a large merit value with a moderate slope: `2^60 - a / 2` -/
def bigMerit (a : ℚ) : ℚ := 2 ^ 60 - a / 2

end Demo

open Demo

theorem flLoop_const (R : Rounding K) (I : FlInterp K) (o : LSOptions K) (p : K) (phi0 dphi0 : ExtScalar K) (phi : K → Option (ExtScalar K))
    (tr0 : List K) (hphi : ∀ a v, phi a = some v → v = fin p) (k : ℕ) :
    ∀ (alpha : K) (latest previous : FlSample K) (tr : List K), latest.phi = fin p →
    (flLoop R I phi o phi0 dphi0 tr0 k alpha latest previous tr).ret = fin p := by
  induction k with
  | zero => intro _ _ _ _ h; exact h
  | succ k ih =>
    intro alpha latest previous tr h
    rw [flLoop]
    by_cases hA : flArmijo R o phi0 dphi0 alpha latest.phi = true
    · rw [if_pos hA]; exact h
    · rw [if_neg hA]
      simp only
      cases hv : phi (flNextAlpha R I o phi0 dphi0 alpha latest previous) with
      | none => exact ih _ _ _ _ h
      | some v =>
        simp only
        by_cases hle : flNextAlpha R I o phi0 dphi0 alpha latest previous ≤ o.alphaMin
        · rw [if_pos hle]; exact hphi _ _ hv
        · rw [if_neg hle]; exact ih _ _ _ _ (hphi _ _ hv)

/-- C101, finding: "a step that meets the Armijo inequality is accepted" fails in double precision.  The merit function `2^60 - a/2` meets
the inequality at every step, in particular at 1; its rounded values are all `2^60`, the computed difference is 0, and with the default
options and any interpolation the search ends only at `alpha_min` or by its trial count.  With bisection it returns `alpha_min`, after 20
further evaluations. -/
theorem C101_accepts_false :
    (∀ t a, 0 ≤ a → bigMerit a ≤ bigMerit 0 + (flLs t).armijoC1 * a * (-1 / 2)) ∧
    (∀ (t : LSInterp) (I : FlInterp ℚ) (r : FlLsResult ℚ),
      flLsRun binary64 I (fun a => some (fin (binary64.rnd (bigMerit (max 0 (min a 1)))))) (flLs t) (fin (bigMerit 0)) (fin (-1 / 2)) 20 = some r →
      r.alpha = (flLs t).alphaMin ∨ r.trace.length = (flLs t).maxNumSteps) ∧
    ∃ r, flLsRun binary64 flI0 (fun a => some (fin (binary64.rnd (bigMerit a)))) (flLs .bisection) (fin (bigMerit 0)) (fin (-1 / 2)) 20 = some r ∧
      r.alpha = (flLs .bisection).alphaMin ∧ r.trace.length = 20 := by
  have hR := C101_ieee.1
  have hconst : ∀ a, binary64.rnd (bigMerit (max 0 (min a 1))) = 2 ^ 60 := by
    intro a
    have h0 : (0 : ℚ) ≤ max 0 (min a 1) := le_max_left _ _
    have h1 : max 0 (min a 1) ≤ (1 : ℚ) := max_le zero_le_one (min_le_right _ _)
    have h2 : binary64.rnd (bigMerit 1) = 2 ^ 60 := by decide +kernel
    have h3 : binary64.rnd (bigMerit 0) = 2 ^ 60 := by decide +kernel
    refine le_antisymm ?_ ?_
    · rw [← h3]; exact hR.mono _ _ (by unfold bigMerit; linarith)
    · rw [← h2]; exact hR.mono _ _ (by unfold bigMerit; linarith)
  refine ⟨fun t a ha => ?_, fun t I r h => ?_, ?_⟩
  · have h1 : (flLs t).armijoC1 ≤ 1 := by
      show binary64.rnd (1 / 10 ^ 4) ≤ 1
      decide +kernel
    have := mul_le_mul_of_nonneg_right h1 ha
    unfold bigMerit
    linarith
  · simp only [hconst] at h
    have hr := C101_alpha_range binary64 hR I _ _ (flLs_good t) _ _ _ _ h
    have hneg : binary64.rnd (binary64.rnd ((flLs t).armijoC1 * r.alpha) * (-1 / 2)) < 0 := by
      have hc : (0 : ℚ) ≤ (flLs t).armijoC1 := by
        show 0 ≤ binary64.rnd (1 / 10 ^ 4)
        decide +kernel
      have h1 := hR.mono _ _ (mul_le_mul_of_nonneg_left hr.1 hc)
      have h2 : binary64.rnd (binary64.rnd ((flLs t).armijoC1 * (flLs t).alphaMin) * (-1 / 2)) < 0 := by
        show binary64.rnd (binary64.rnd (binary64.rnd (1 / 10 ^ 4) * binary64.rnd (1 / 10 ^ 6)) * (-1 / 2)) < 0
        decide +kernel
      exact (hR.mono _ _ (by linarith)).trans_lt h2
    have hret : r.ret = fin (2 ^ 60) := by
      unfold flLsRun at h
      have hf : flFirst binary64 (fun _ : ℚ => some (fin (2 ^ 60))) (flLs t).alphaMin 20 1 [] = some (1, ⟨1, fin (2 ^ 60), true⟩, [1]) := rfl
      rw [hf] at h
      simp only at h
      by_cases hd : lt (ExtScalar.abs (fin (-1 / 2 : ℚ))) (fin (flLs t).dphiThresh) = true
      · rw [if_pos hd, Option.some.injEq] at h
        rw [← h]
      · rw [if_neg hd, Option.some.injEq] at h
        rw [← h]
        exact flLoop_const binary64 I _ _ _ _ _ _ (fun _ v hv => (Option.some.inj hv).symm) _ _ _ _ _ rfl
    rcases C101_decrease binary64 hR I _ _ _ _ _ _ h hneg with ⟨v, hv, hlt⟩ | h1 | h1 | h1 | h1
    · rw [hret] at hv
      cases hv
      unfold bigMerit at hlt
      norm_num at hlt
    · rw [hret] at h1; cases h1
    · exfalso
      have : ¬ |(-1 / 2 : ℚ)| < binary64.rnd (1 / 10 ^ 13) := by decide +kernel
      exact this h1
    · exact Or.inl h1
    · exact Or.inr h1
  · have h : (flLsRun binary64 flI0 (fun a => some (fin (binary64.rnd (bigMerit a)))) (flLs .bisection) (fin (bigMerit 0)) (fin (-1 / 2))
        20).map (fun r => (r.alpha, r.trace.length)) = some ((flLs .bisection).alphaMin, 20) := by decide +kernel
    obtain ⟨r, h1, h2⟩ := Option.map_eq_some_iff.1 h
    rw [Prod.mk.injEq] at h2
    exact ⟨r, h1, h2.1, h2.2⟩

/-! ### Non-vacuity -/

namespace Demo

/-- throws above 1/2, is NaN on (1/4, 1/2], and decreases below -/
def flPhi (a : ℚ) : Option (ExtScalar ℚ) :=
  if 1 / 2 < a then none else if 1 / 4 < a then some nan else some (fin (binary64.rnd (1 - a + a * a)))

theorem flPhi_run : (flLsRun binary64 flI0 flPhi (flLs .bisection) (fin 1) (fin (-1)) 20).map
    (fun r => (r.alpha, match r.ret with | fin v => some v | _ => none, r.trace0, r.trace)) =
    some (1 / 4, some (13 / 16), [1 / 2, 1], [1 / 4]) := by decide +kernel

end Demo

/-- A search in double precision on a merit function that throws and returns NaN before it decreases: the step 1/4 is accepted by the test,
not by one of the other exits, and the value really decreases. -/
example : ∃ r, flLsRun binary64 flI0 flPhi (flLs .bisection) (fin 1) (fin (-1)) 20 = some r ∧ r.alpha = 1 / 4 ∧
    ¬ |(-1 : ℚ)| < (flLs .bisection).dphiThresh ∧ r.alpha ≠ (flLs .bisection).alphaMin ∧
    r.trace.length ≠ (flLs .bisection).maxNumSteps ∧ (∃ v, r.ret = fin v ∧ v < 1) ∧
    r.trace0.length + r.trace.length ≤ 20 + (flLs .bisection).maxNumSteps := by
  obtain ⟨r, h, h2⟩ := Option.map_eq_some_iff.1 flPhi_run
  simp only [Prod.mk.injEq] at h2
  obtain ⟨ha, hm, -, ht⟩ := h2
  have e1 : ¬ |(-1 : ℚ)| < (flLs .bisection).dphiThresh := by decide +kernel
  have e2 : r.alpha ≠ (flLs .bisection).alphaMin := by rw [ha]; decide +kernel
  have e3 : r.trace.length ≠ (flLs .bisection).maxNumSteps := by rw [ht]; decide
  obtain ⟨r', h', hl, -⟩ := C101_double flI0 flPhi (flLs .bisection) (flLs_good _) rfl (fin 1) (fin (-1))
  rw [h, Option.some.injEq] at h'
  subst h'
  refine ⟨r, h, ha, e1, e2, e3, ?_, hl⟩
  rcases C101_decrease binary64 C101_ieee.1 _ _ _ _ _ _ _ h (by rw [ha]; decide +kernel) with h1 | h1 | h1 | h1 | h1
  · exact h1
  · rw [h1] at hm
    simp at hm
  · exact absurd h1 e1
  · exact absurd h1 e2
  · exact absurd h1 e3

/-- the hypotheses of `C101_full_step` in double precision -/
example : (1 / 4 - 1 : ℚ) + armijoSlack binary64 (1 / 4 - 1) (flLs .cubic).armijoC1 (-1) ≤ (flLs .cubic).armijoC1 * (-1) := by
  decide +kernel

end ProxNLP
