import Mathlib.Dynamics.PeriodicPts.Defs
import Verif.Model.FloatPenalty
import Verif.Props.FloatSolver
import Verif.Lemmas.FloatLinesearch
import Mathlib.Algebra.Order.Archimedean.Basic

/-!
C102: the penalty parameter and the tolerances in floating-point arithmetic.
-/

set_option linter.unusedSectionVars false

namespace ProxNLP

open Spec

variable {X K H : Type} {n m : ℕ} [Field K] [LinearOrder K] [IsStrictOrderedRing K]

/-! ### The loop -/

theorem flInner_keeps (R : Rounding K) (P : FlCtx X K H n m) (S : Settings K) : ∀ (st st' : FlSt X K H m), flInner R P S st = some st' →
    st'.mu = st.mu ∧ st'.resMu = st.resMu ∧ st'.tols = st.tols := by
  intro st
  induction hk : S.maxIters - st.numIters using Nat.strong_induction_on generalizing st with
  | _ k ih =>
    intro st' h
    rw [flInner] at h
    cases hev : flEval R P st with
    | none => rw [hev] at h; simp at h
    | some st1 =>
      rw [hev] at h
      simp only at h
      obtain ⟨⟨v, c⟩, he, hst1⟩ := Option.map_eq_some_iff.1 hev
      by_cases h2 : P.crit st.input ≤ st.tols.1 ∨ max st1.prim st1.dual ≤ S.targetTol
      · rw [if_pos h2] at h
        cases h
        subst hst1
        exact ⟨rfl, rfl, rfl⟩
      rw [if_neg h2] at h
      cases hs : P.step st1.input with
      | none => rw [hs] at h; simp at h
      | some o =>
        rw [hs] at h
        simp only at h
        by_cases h4 : st.numIters + 1 ≥ S.maxIters
        · rw [if_pos h4] at h
          cases h
          subst hst1
          exact ⟨rfl, rfl, rfl⟩
        · rw [if_neg h4] at h
          subst hst1
          have key := fun hx => ih (S.maxIters - (st.numIters + 1)) (by omega) _ hx st' h
          exact key rfl

/-- a property of penalties and tolerances that the updates keep holds at the end -/
theorem flOuter_invariant (R : Rounding K) (P : FlCtx X K H n m) (S : Settings K) (I : K → K × K → Prop)
    (hs : ∀ mu t, I mu t → I mu (P.tolSuccess mu t)) (hf : ∀ mu t, I mu t → I (P.nextMu mu) (P.tolFailure (P.nextMu mu))) :
    ∀ (st st' : FlSt X K H m), I st.mu st.tols → flOuter R P S st = some st' →
      I st'.mu st'.tols ∧ ((∃ t, I st.resMu t) ∨ (st.numIters < S.maxIters ∧ st.alIters < S.maxAlIters) → ∃ t, I st'.resMu t) := by
  intro st
  induction hk : S.maxAlIters - st.alIters using Nat.strong_induction_on generalizing st with
  | _ k ih =>
    intro st' hI h
    rw [flOuter] at h
    by_cases h0 : st.numIters < S.maxIters ∧ st.alIters < S.maxAlIters
    · rw [if_pos h0] at h
      cases hi : flInner R P S { st with resMu := st.mu, hidden := P.enterInner st.hidden } with
      | none => rw [hi] at h; simp at h
      | some s =>
        rw [hi] at h
        simp only at h
        obtain ⟨k1, k2, k3⟩ := flInner_keeps R P S _ s hi
        have hres : s.resMu = st.mu := k2
        have hmu : s.mu = st.mu := k1
        have htol : s.tols = st.tols := k3
        have hres2 : (flAfterInner P S s).resMu = st.mu := by rw [(flAfterInner_same P S s).2.2.2.1, hres]
        have hI2 : I (flAfterInner P S s).mu (flAfterInner P S s).tols := by
          unfold flAfterInner
          simp only
          split_ifs
          · simp only [hmu, htol]; exact hs _ _ hI
          · simp only [hmu]; exact hf _ _ hI
        by_cases h1 : max (flAfterInner P S s).prim (flAfterInner P S s).dual < S.targetTol
        · rw [if_pos h1] at h
          cases h
          exact ⟨hI2, fun _ => ⟨st.tols, by show I (flAfterInner P S s).resMu _; rw [hres2]; exact hI⟩⟩
        · rw [if_neg h1] at h
          have key := fun hx hy => ih (S.maxAlIters - (st.alIters + 1)) (by omega) _ hx st' hy h
          have := key rfl hI2
          exact ⟨this.1, fun _ => this.2 (.inl ⟨st.tols, by show I (flAfterInner P S s).resMu _; rw [hres2]; exact hI⟩)⟩
    · rw [if_neg h0] at h
      cases h
      exact ⟨hI, fun hc => hc.resolve_right h0⟩

/-! ### Safeguards -/

/-- C102, penalty: with `0 < mu_lower ≤ mu_init`, an update factor of at most 1 and order-preserving rounding, the penalty in use and the
one the reported residuals refer to lie in `[mu_lower, mu_init]`, for every problem and every history. -/
theorem C102_penalty_range_partial (R : Rounding K) (hR : MonoRounding R) (P : FlCtx X K H n m) (S : Settings K) (hlow : 0 < S.muLower)
    (hle : S.muLower ≤ S.muInit) (hf : S.muUpdateFactor ≤ 1) (hrep : R.rnd S.muInit = S.muInit) (st st' : FlSt X K H m) (x0 : X)
    (lams0 : Fin m → K) (h : flSolve R (P.withUpdates R S) S st x0 lams0 = some st') :
    (S.muLower ≤ st'.mu ∧ st'.mu ≤ S.muInit) ∧
      (0 < S.maxIters → 0 < S.maxAlIters → S.muLower ≤ st'.resMu ∧ st'.resMu ≤ S.muInit) := by
  have key := flOuter_invariant R (P.withUpdates R S) S (fun mu _ => S.muLower ≤ mu ∧ mu ≤ S.muInit) (fun _ _ h => h) (fun mu _ h => ?_)
    _ st' ⟨hle, le_rfl⟩ h
  · exact ⟨key.1, fun h1 h2 => (key.2 (.inr ⟨h1, h2⟩)).elim fun _ h => h⟩
  · show S.muLower ≤ flNextMu R S mu ∧ flNextMu R S mu ≤ S.muInit
    unfold flNextMu
    split_ifs with hc
    · exact ⟨hle, le_rfl⟩
    · refine ⟨le_max_right _ _, max_le ?_ hle⟩
      rw [← hrep]
      refine hR.mono _ _ (le_trans ?_ h.2)
      exact mul_le_of_le_one_right (hlow.le.trans h.1) hf

/-- C102, tolerances: the inner tolerance is never below `inner_tol_min` and the primal one never below `target_tol`, whatever `pow`
computes. -/
theorem C102_tolerances (R : Rounding K) (P : FlCtx X K H n m) (S : Settings K) (st st' : FlSt X K H m) (x0 : X) (lams0 : Fin m → K)
    (h : flSolve R (P.withUpdates R S) S st x0 lams0 = some st') : S.innerTolMin ≤ st'.tols.1 ∧ S.targetTol ≤ st'.tols.2 :=
  (flOuter_invariant R (P.withUpdates R S) S (fun _ t => S.innerTolMin ≤ t.1 ∧ S.targetTol ≤ t.2)
    (fun _ _ _ => ⟨le_max_right _ _, le_max_right _ _⟩) (fun _ _ _ => ⟨le_max_right _ _, le_max_right _ _⟩) _ st'
    ⟨le_max_right _ _, le_max_right _ _⟩ h).1

/-- one rounding followed by a floor stays within the rounding error of the exact value with that floor -/
theorem max_rnd_close (R : Rounding K) (a b : K) : |max (R.rnd a) b - max a b| ≤ R.u * |a| + R.eta :=
  (abs_max_sub_max_le_abs _ _ _).trans (R.err a)

/-- C102, values of the tolerances: after a failed iteration they are `inner_tol0 * pow(mu, dual_alpha)` and
`prim_tol0 * pow(mu, prim_alpha)`, after a successful one the present tolerances times `pow(mu / mu_upper, dual_beta)` and
`pow(mu / mu_upper, prim_beta)`, raised to their floors, up to one relative rounding error; the ratio is the rounded one. -/
theorem C102_tolerance_values (R : Rounding K) (S : Settings K) (mu : K) (t : K × K) :
    (|(flTolFailure R S mu).1 - max (S.innerTol0 * S.pow mu S.dualAlpha) S.innerTolMin| ≤
      R.u * |S.innerTol0 * S.pow mu S.dualAlpha| + R.eta) ∧
    (|(flTolFailure R S mu).2 - max (S.primTol0 * S.pow mu S.primAlpha) S.targetTol| ≤
      R.u * |S.primTol0 * S.pow mu S.primAlpha| + R.eta) ∧
    ∃ r, |r - mu / S.muUpper| ≤ R.u * |mu / S.muUpper| + R.eta ∧
      (|(flTolSuccess R S mu t).1 - max (t.1 * S.pow r S.dualBeta) S.innerTolMin| ≤ R.u * |t.1 * S.pow r S.dualBeta| + R.eta) ∧
      |(flTolSuccess R S mu t).2 - max (t.2 * S.pow r S.primBeta) S.targetTol| ≤ R.u * |t.2 * S.pow r S.primBeta| + R.eta :=
  ⟨max_rnd_close R _ _, max_rnd_close R _ _, R.rnd (mu / S.muUpper), R.err _, max_rnd_close R _ _, max_rnd_close R _ _⟩

/-- C102, tolerances after success: they do not increase if `pow` returns at most 1 for arguments in `[0, 1]`. -/
theorem C102_tolerances_decrease (R : Rounding K) (hR : MonoRounding R) (S : Settings K) (mu : K) (t : K × K) (h0 : 0 ≤ mu)
    (hmu : mu ≤ S.muUpper) (hup : 0 < S.muUpper) (ht : 0 ≤ t.1 ∧ 0 ≤ t.2) (hrep : R.rnd t.1 = t.1 ∧ R.rnd t.2 = t.2)
    (hmin : S.innerTolMin ≤ t.1 ∧ S.targetTol ≤ t.2)
    (hpow : ∀ x, 0 ≤ x → x ≤ 1 → S.pow x S.dualBeta ≤ 1 ∧ S.pow x S.primBeta ≤ 1) :
    (flTolSuccess R S mu t).1 ≤ t.1 ∧ (flTolSuccess R S mu t).2 ≤ t.2 := by
  obtain ⟨q0, q1⟩ := MonoRounding.unit hR (div_nonneg h0 hup.le) ((div_le_one hup).2 hmu)
  obtain ⟨p1, p2⟩ := hpow _ q0 q1
  refine ⟨max_le ?_ hmin.1, max_le ?_ hmin.2⟩
  · have := hR.mono _ _ (mul_le_of_le_one_right ht.1 p1)
    rwa [hrep.1] at this
  · have := hR.mono _ _ (mul_le_of_le_one_right ht.2 p2)
    rwa [hrep.2] at this

/-- C102, the floor is reached exactly: if rounding leaves a contraction factor `q`, then after at most `k` failed outer iterations the
penalty has been equal to `mu_lower`, so that the comparison `mu_ == mu_lower_` becomes true; `q^k mu_init ≤ mu_lower` suffices. -/
theorem C102_reaches_floor (R : Rounding K) (S : Settings K) (q : K) (hq : 0 ≤ q) (hlow : 0 < S.muLower) (hle : S.muLower ≤ S.muInit)
    (hf0 : 0 ≤ S.muUpdateFactor) (hf : S.muUpdateFactor * (1 + R.u) + R.eta / S.muLower ≤ q) (k : ℕ) (hk : q ^ k * S.muInit ≤ S.muLower) :
    ∃ j ≤ k, (flNextMu R S)^[j] S.muInit = S.muLower := by
  have step : ∀ mu, S.muLower ≤ mu → mu ≠ S.muLower → S.muLower ≤ flNextMu R S mu ∧
      (flNextMu R S mu = S.muLower ∨ flNextMu R S mu ≤ q * mu) := by
    intro mu h1 h2
    unfold flNextMu
    rw [if_neg h2]
    refine ⟨le_max_right _ _, ?_⟩
    rcases le_total (R.rnd (mu * S.muUpdateFactor)) S.muLower with h3 | h3
    · exact .inl (max_eq_right h3)
    · right
      rw [max_eq_left h3]
      have h0 : 0 ≤ mu := hlow.le.trans h1
      have he := R.err (mu * S.muUpdateFactor)
      rw [abs_of_nonneg (mul_nonneg h0 hf0)] at he
      have h4 := le_abs_self (R.rnd (mu * S.muUpdateFactor) - mu * S.muUpdateFactor)
      have h5 : R.eta ≤ R.eta / S.muLower * mu := by
        rw [div_mul_eq_mul_div, le_div_iff₀ hlow]
        exact mul_le_mul_of_nonneg_left h1 R.eta_nonneg
      have h6 := mul_le_mul_of_nonneg_right hf h0
      nlinarith
  have main : ∀ k, (∃ j ≤ k, (flNextMu R S)^[j] S.muInit = S.muLower) ∨
      (S.muLower ≤ (flNextMu R S)^[k] S.muInit ∧ (flNextMu R S)^[k] S.muInit ≤ q ^ k * S.muInit) := by
    intro k
    induction k with
    | zero => right; simpa using hle
    | succ k ih =>
      rcases ih with ⟨j, hj, h⟩ | ⟨h1, h2⟩
      · exact .inl ⟨j, by omega, h⟩
      · by_cases hc : (flNextMu R S)^[k] S.muInit = S.muLower
        · exact .inl ⟨k, by omega, hc⟩
        · obtain ⟨s1, s2⟩ := step _ h1 hc
          rw [← Function.iterate_succ_apply' (flNextMu R S)] at s1 s2
          rcases s2 with s2 | s2
          · exact .inl ⟨k + 1, le_rfl, s2⟩
          · right
            refine ⟨s1, s2.trans ?_⟩
            rw [pow_succ', mul_assoc]
            exact mul_le_mul_of_nonneg_left h2 hq
  rcases main k with h | ⟨h1, h2⟩
  · exact h
  · exact ⟨k, le_rfl, le_antisymm (h2.trans hk) h1⟩

/-! ### Double precision -/

/-- the largest double below 1 -/
theorem float_lt_one {f : ℚ} (hf : IsFloat 53 (-1074) f) (h1 : f < 1) (h0 : 1 / 2 ≤ f) : f ≤ 1 - 1 / 2 ^ 53 := by
  have hlog : Int.log 2 |f| = -1 := by
    rw [abs_of_pos (by linarith)]
    refine le_antisymm ?_ ?_
    · have := (Int.lt_zpow_iff_log_lt (R := ℚ) (b := 2) (by norm_num) (x := 0) (r := f) (by linarith)).1 (by simpa using h1)
      omega
    · exact (Int.zpow_le_iff_le_log (R := ℚ) (b := 2) (by norm_num) (x := -1) (r := f) (by linarith)).1 (by norm_num; linarith)
  have hulp : ulpExp 53 (-1074) f = -53 := by unfold ulpExp; rw [hlog]; norm_num
  rcases isFloat_ulp 53 (by norm_num) (-1074) f f (by linarith [h0] : f ≠ 0) hf with ⟨q, hq⟩ | h
  · rw [hulp] at hq
    have e : (2 : ℚ) ^ (-53 : ℤ) = 1 / 2 ^ 53 := by norm_num
    rw [e] at hq
    have hq1 : (q : ℚ) < 2 ^ 53 := by
      rw [hq] at h1
      have : (0 : ℚ) < 2 ^ 53 := by norm_num
      rwa [mul_one_div, div_lt_one this] at h1
    have hq2 : q ≤ 2 ^ 53 - 1 := by
      have : q < 2 ^ 53 := by exact_mod_cast hq1
      omega
    have hq3 : (q : ℚ) ≤ 2 ^ 53 - 1 := by exact_mod_cast hq2
    rw [hq]
    linarith
  · simp at h
    exact absurd h (not_lt.2 (abs_nonneg _))


/-- C102, double precision: an update factor below 1 really lowers the penalty, however close to 1 it is: for doubles `mu ≥ 2^-1021` and
`factor < 1` the rounded product is below `mu`. -/
theorem C102_penalty_decreases (mu f : ℚ) (hmu : IsFloat 53 (-1074) mu) (hf : IsFloat 53 (-1074) f) (hf1 : f < 1)
    (hn : 2 ^ (-1021 : ℤ) ≤ mu) : binary64.rnd (mu * f) < mu := by
  have hpos : 0 < mu := lt_of_lt_of_le (zpow_pos (by norm_num) _) hn
  have hmono : ∀ x y : ℚ, x ≤ y → binary64.rnd x ≤ binary64.rnd y := fun x y h => ieeeRnd_mono 53 (by norm_num) (-1074) h
  have hfix : ∀ x, IsFloat 53 (-1074) x → binary64.rnd x = x := fun x hx => ieeeRnd_float 53 (by norm_num) (-1074) hx
  have hnear : ∀ x y, IsFloat 53 (-1074) y → |binary64.rnd x - x| ≤ |y - x| := fun x y h => ieeeRnd_nearest 53 (by norm_num) (-1074) x y h
  have hg : f ≤ 1 - 1 / 2 ^ 53 := by
    rcases le_total (1 / 2) f with h | h
    · exact float_lt_one hf hf1 h
    · refine h.trans ?_
      norm_num
  have hx : mu * f ≤ mu - mu * (1 / 2 ^ 53) := by
    have := mul_le_mul_of_nonneg_left hg hpos.le
    linarith
  set e := Int.log 2 |mu| with he
  have hlo : (2 : ℚ) ^ e ≤ mu := by
    have := Int.zpow_log_le_self (R := ℚ) (b := 2) (by norm_num) (abs_pos.2 hpos.ne')
    rw [abs_of_pos hpos] at this he
    rw [he]
    simpa using this
  have hemin : -1021 ≤ e := by
    rw [he, abs_of_pos hpos]
    exact (Int.zpow_le_iff_le_log (R := ℚ) (b := 2) (by norm_num) (x := -1021) (r := mu) hpos).1 (by simpa using hn)
  have hulp : ulpExp 53 (-1074) mu = e - 52 := by
    unfold ulpExp
    rw [← he]
    push_cast
    omega
  have hu : (0 : ℚ) < 2 ^ (e - 52) := zpow_pos (by norm_num) _
  have hE : (2 : ℚ) ^ e = 2 ^ 52 * 2 ^ (e - 52) := by
    rw [← zpow_natCast, ← zpow_add₀ (by norm_num)]
    congr 1
    push_cast
    omega
  rcases isFloat_ulp 53 (by norm_num) (-1074) mu mu hpos.ne' hmu with ⟨q, hq⟩ | h
  swap
  · simp at h
    exact absurd h (not_lt.2 (abs_nonneg _))
  rw [hulp] at hq
  rcases eq_or_lt_of_le hlo with h | h
  · -- a power of 2
    have hfl : IsFloat 53 (-1074) (mu - mu * (1 / 2 ^ 53)) := by
      refine ⟨2 ^ 53 - 1, e - 53, by omega, by norm_num, ?_⟩
      rw [← h, show e = (e - 53) + (53 : ℕ) by push_cast; omega, zpow_add₀ (by norm_num), zpow_natCast]
      push_cast
      rw [show e - 53 + 53 - 53 = e - 53 by omega]
      ring
    have := hmono _ _ hx
    rw [hfix _ hfl] at this
    refine this.trans_lt ?_
    have : 0 < mu * (1 / 2 ^ 53) := mul_pos hpos (by norm_num)
    linarith
  · -- otherwise
    have hqlo : (2 : ℚ) ^ 52 < q := by
      rw [hE, hq] at h
      exact lt_of_mul_lt_mul_right h hu.le
    have hqlo' : (2 : ℤ) ^ 52 < q := by exact_mod_cast hqlo
    have hqhi : (q : ℚ) < 2 ^ 53 := by
      have h1 : mu < 2 ^ (e + 1) := by
        have := Int.lt_zpow_succ_log_self (R := ℚ) (b := 2) (by norm_num) |mu|
        rw [← he, abs_of_pos hpos] at this
        simpa using this
      rw [show e + 1 = (53 : ℕ) + (e - 52) by push_cast; omega, zpow_add₀ (by norm_num), zpow_natCast, hq] at h1
      exact lt_of_mul_lt_mul_right h1 hu.le
    have hqhi' : q < (2 : ℤ) ^ 53 := by exact_mod_cast hqhi
    have hfl : IsFloat 53 (-1074) (mu - 2 ^ (e - 52)) := by
      refine ⟨q - 1, e - 52, by omega, ?_, ?_⟩
      · rw [abs_lt]
        constructor <;> omega
      · rw [hq]
        push_cast
        rw [show e - 52 = e - 52 from rfl]
        ring
    have hhalf : mu * f < mu - 2 ^ (e - 52) / 2 := by
      refine hx.trans_lt ?_
      have : (2 : ℚ) ^ (e - 52) / 2 < mu * (1 / 2 ^ 53) := by
        rw [hE] at h
        linarith
      linarith
    rcases le_total (mu * f) (mu - 2 ^ (e - 52)) with h1 | h1
    · have := hmono _ _ h1
      rw [hfix _ hfl] at this
      linarith
    · have := hnear (mu * f) _ hfl
      rw [abs_of_nonpos (by linarith : mu - 2 ^ (e - 52) - mu * f ≤ 0)] at this
      have h2 := le_abs_self (binary64.rnd (mu * f) - mu * f)
      linarith

namespace Demo

/-- settings of the penalty: initial value 0.01, floor `low`, factor 0.01 (defaults of prox-solver.hpp and bcl-params.hpp, in double) -/
def flPen (low : ℚ) : Settings ℚ :=
  ⟨binary64.rnd (1 / 10 ^ 6), binary64.rnd (1 / 100), 0, low, 1, 1, 1, binary64.rnd (1 / 10 ^ 9), 1 / 2, 1, 1, 1, 1, binary64.rnd (1 / 100), 1, 100, 100,
    .newton, .classic, fun x _ => x⟩

end Demo

open Demo

/-- a run with these updates that satisfies the hypotheses of `C102_penalty_range_partial` -/
example : ∃ st', flSolve binary64 (flP.withUpdates binary64 flS) flS (flS0 2) (binary64.rnd (1 / 3)) ![binary64.rnd (-4 / 3), 1] = some st' ∧
    flS.muLower ≤ st'.mu ∧ st'.mu ≤ flS.muInit ∧ flS.innerTolMin ≤ st'.tols.1 := by
  obtain ⟨st', h, -⟩ := flSolve_first binary64 (flP.withUpdates binary64 flS) flS (by decide) (by decide) (flS0 2) (binary64.rnd (1 / 3))
    ![binary64.rnd (-4 / 3), 1] _ _ rfl (by decide +kernel)
  have h1 := C102_penalty_range_partial binary64 ⟨fun x y h => ieeeRnd_mono 53 (by norm_num) (-1074) h, ieeeRnd_zero _ _, by decide +kernel⟩ flP flS
    (by decide +kernel) (by decide +kernel) (by decide +kernel) (by decide +kernel) _ _ _ _ h
  exact ⟨st', h, h1.1.1, h1.1.2, (C102_tolerances binary64 flP flS _ _ _ _ h).1⟩

/-- the default floor of 1e-9 is reached exactly, after four failed iterations, and the penalty then starts again at `mu_init` -/
example : (flNextMu binary64 (flPen (binary64.rnd (1 / 10 ^ 9))))^[4] (binary64.rnd (1 / 100)) = binary64.rnd (1 / 10 ^ 9) ∧
    (flNextMu binary64 (flPen (binary64.rnd (1 / 10 ^ 9))))^[5] (binary64.rnd (1 / 100)) = binary64.rnd (1 / 100) := by
  decide +kernel

/-- the hypotheses of `C102_reaches_floor` for these settings -/
example : binary64.rnd (1 / 100) * (1 + binary64.u) + binary64.eta / binary64.rnd (1 / 10 ^ 9) ≤ (1 / 50 : ℚ) ∧
    (1 / 50 : ℚ) ^ 5 * binary64.rnd (1 / 100) ≤ binary64.rnd (1 / 10 ^ 9) := by
  decide +kernel

/-- C102, finding: "the penalty stays positive when `mu_init` and the factor are" holds in exact arithmetic for every floor `mu_lower ≥ 0`,
and fails in double precision for `mu_lower = 0` (an attribute that can be set): the products underflow and the penalty becomes 0, after
which the solver computes with `mu_inv_ = 1/0`. -/
theorem C102_positive_false :
    (∀ S : Settings ℚ, 0 < S.muInit → 0 < S.muUpdateFactor → 0 ≤ S.muLower → ∀ R : Rounding ℚ, (∀ x, R.rnd x = x) →
      ∀ k, 0 < (flNextMu R S)^[k] S.muInit) ∧
    (flNextMu binary64 (flPen 0))^[161] (flPen 0).muInit = 0 := by
  refine ⟨fun S h1 h2 h3 R hR k => ?_, by decide +kernel⟩
  induction k with
  | zero => exact h1
  | succ k ih =>
    rw [Function.iterate_succ_apply']
    unfold flNextMu
    split_ifs
    · exact h1
    · rw [hR]
      exact lt_max_of_lt_left (mul_pos ih h2)

/-- C102, the cycle: under the hypotheses of `C102_reaches_floor` the penalties of consecutive failed outer iterations repeat exactly, in
rounded arithmetic too: there is a period of at most `k + 1`, it starts at `mu_init` and its last value is `mu_lower`. -/
theorem C102_cycle (R : Rounding K) (S : Settings K) (q : K) (hq : 0 ≤ q) (hlow : 0 < S.muLower) (hle : S.muLower ≤ S.muInit)
    (hf0 : 0 ≤ S.muUpdateFactor) (hf : S.muUpdateFactor * (1 + R.u) + R.eta / S.muLower ≤ q) (k : ℕ) (hk : q ^ k * S.muInit ≤ S.muLower) :
    ∃ p ≤ k, (flNextMu R S)^[p] S.muInit = S.muLower ∧ (∀ j < p, (flNextMu R S)^[j] S.muInit ≠ S.muLower) ∧
      ∀ i, (flNextMu R S)^[i] S.muInit = (flNextMu R S)^[i % (p + 1)] S.muInit := by
  classical
  obtain ⟨j, hj, he⟩ := C102_reaches_floor R S q hq hlow hle hf0 hf k hk
  have hex : ∃ j, (flNextMu R S)^[j] S.muInit = S.muLower := ⟨j, he⟩
  refine ⟨Nat.find hex, (Nat.find_min' hex he).trans hj, Nat.find_spec hex, fun j hj => Nat.find_min hex hj, fun i => ?_⟩
  have hper : Function.IsPeriodicPt (flNextMu R S) (Nat.find hex + 1) S.muInit := by
    show (flNextMu R S)^[Nat.find hex + 1] S.muInit = S.muInit
    rw [Function.iterate_succ_apply', Nat.find_spec hex, flNextMu, if_pos rfl]
  exact (hper.iterate_mod_apply i).symm

/-! The examples above `C102_positive_false` meet the hypotheses of `C102_cycle`, and show its period 5 for the default settings. -/

end ProxNLP
