import Verif.Spec.FloatSolver
import Verif.Lemmas.Rounding
import Verif.Lemmas.Sets
import Verif.Lemmas.Math
import Mathlib.Algebra.BigOperators.Fin
import Mathlib.Algebra.Order.Group.MinMax

/-! Helper lemmas about the solver loop in rounded arithmetic. -/

set_option linter.unusedSectionVars false
namespace ProxNLP

open Spec

variable {X K H : Type} {n m : ℕ} [Field K] [LinearOrder K] [IsStrictOrderedRing K]

theorem flShift_error (R : Rounding K) (fused : Bool) (mu c lam : K) :
    |flShift R fused mu c lam - (c + mu * lam)| ≤ ((1 + R.u) ^ 2 - 1) * (|c| + |mu * lam|) + 2 * R.eta * (1 + R.u) ^ 2 := by
  have hA : |c + mu * lam| ≤ |c| + |mu * lam| := abs_add_le _ _
  have hA0 : 0 ≤ |c| + |mu * lam| := by positivity
  have u0 := R.u_nonneg
  have e0 := R.eta_nonneg
  cases fused with
  | true =>
    have := rnd_step R (v := c + mu * lam) (e := c + mu * lam) (A := |c| + |mu * lam|) (G := 1) (N := 0) hA le_rfl (by simp)
    refine (show |flShift R true mu c lam - _| ≤ _ from this).trans ?_
    have h1 : ((1 + R.u) * 1 - 1) * (|c| + |mu * lam|) ≤ ((1 + R.u) ^ 2 - 1) * (|c| + |mu * lam|) :=
      mul_le_mul_of_nonneg_right (by nlinarith) hA0
    have h2 : R.eta * (1 + R.u) ≤ R.eta * (2 * (1 + R.u) ^ 2) := mul_le_mul_of_nonneg_left (by nlinarith) e0
    nlinarith
  | false =>
    have h1 := rnd_step R (v := mu * lam) (e := mu * lam) (A := |mu * lam|) (G := 1) (N := 0) le_rfl le_rfl (by simp)
    have h2 : |c + R.rnd (mu * lam) - (c + mu * lam)| ≤ ((1 + R.u) - 1) * (|c| + |mu * lam|) + 1 * R.eta * (1 + R.u) := by
      rw [add_sub_add_left_eq_sub]
      have : 0 ≤ R.u * |c| := mul_nonneg u0 (abs_nonneg _)
      linarith
    have h3 := rnd_step R hA (by linarith) h2
    refine (show |flShift R false mu c lam - _| ≤ _ from h3).trans (le_of_eq ?_)
    ring

theorem signK_abs (z : K) : |signK z| ≤ 1 := by
  unfold signK
  split_ifs <;> simp

theorem flProj_error (R : Rounding K) (s : LeafSet K) (mu : K) (hmu : 0 ≤ mu) (i : ℕ) (z : K) :
    |s.flProjAt R mu i z - s.projAt mu i z| ≤ R.u * (|z| + mu) + R.eta := by
  have h0 : 0 ≤ R.u * (|z| + mu) + R.eta := by have := R.u_nonneg; have := R.eta_nonneg; positivity
  cases s with
  | equality => simpa [LeafSet.flProjAt, LeafSet.projAt] using h0
  | negOrthant => simpa [LeafSet.flProjAt, LeafSet.projAt] using h0
  | box lo hi => simpa [LeafSet.flProjAt, LeafSet.projAt] using h0
  | l1 =>
    simp only [LeafSet.flProjAt, LeafSet.projAt]
    rw [← mul_sub, abs_mul]
    have h1 : |max (R.rnd (|z| - mu)) 0 - max (|z| - mu) 0| ≤ |R.rnd (|z| - mu) - (|z| - mu)| := abs_max_sub_max_le_abs _ _ _
    have h2 := R.err (|z| - mu)
    have h3 : |(|z| - mu)| ≤ |z| + mu := by
      rw [abs_le]
      constructor <;> linarith [abs_nonneg z]
    have h4 := mul_le_mul_of_nonneg_left h3 R.u_nonneg
    calc |signK z| * _ ≤ 1 * _ := mul_le_mul_of_nonneg_right (signK_abs z) (abs_nonneg _)
      _ ≤ R.u * (|z| + mu) + R.eta := by linarith

/-- the computed projection of the computed shifted value, against the exact one -/
theorem flRow_slack (R : Rounding K) (leaf : LeafSet K × ℕ) (hv : ValidAt leaf.1 leaf.2) (fused : Bool) (mu : K) (hmu : 0 ≤ mu) (c lam : K) :
    |leaf.1.flProjAt R mu leaf.2 (flShift R fused mu c lam) - leaf.1.projAt mu leaf.2 (c + mu * lam)| ≤ rowSlack R mu c lam := by
  have h1 := flShift_error R fused mu c lam
  have h2 := flProj_error R leaf.1 mu hmu leaf.2 (flShift R fused mu c lam)
  have h3 := projAt_nonexp leaf.1 mu hmu leaf.2 (flShift R fused mu c lam) (c + mu * lam) hv
  have u0 := R.u_nonneg
  have e0 := R.eta_nonneg
  have hA0 : 0 ≤ |c| + |mu * lam| := by positivity
  have h4 : |flShift R fused mu c lam| ≤ (1 + R.u) ^ 2 * (|c| + |mu * lam|) + 2 * R.eta * (1 + R.u) ^ 2 := by
    have a1 : |flShift R fused mu c lam| ≤ |flShift R fused mu c lam - (c + mu * lam)| + |c + mu * lam| := by
      simpa using abs_add_le (flShift R fused mu c lam - (c + mu * lam)) (c + mu * lam)
    have a2 := abs_add_le c (mu * lam)
    nlinarith
  have h5 := mul_le_mul_of_nonneg_left (add_le_add_left h4 mu) u0
  have h6 : |leaf.1.flProjAt R mu leaf.2 (flShift R fused mu c lam) - leaf.1.projAt mu leaf.2 (c + mu * lam)| ≤
      (R.u * (|flShift R fused mu c lam| + mu) + R.eta) +
        (((1 + R.u) ^ 2 - 1) * (|c| + |mu * lam|) + 2 * R.eta * (1 + R.u) ^ 2) := by
    refine le_trans ?_ (add_le_add h2 (h3.trans h1))
    simpa using abs_add_le (leaf.1.flProjAt R mu leaf.2 (flShift R fused mu c lam) - leaf.1.projAt mu leaf.2 (flShift R fused mu c lam))
      (leaf.1.projAt mu leaf.2 (flShift R fused mu c lam) - leaf.1.projAt mu leaf.2 (c + mu * lam))
  refine h6.trans ?_
  have h7 : R.u * mu ≤ ((1 + R.u) ^ 3 - 1) * mu := mul_le_mul_of_nonneg_right (by nlinarith [mul_nonneg u0 u0, pow_nonneg u0 3]) hmu
  have h8 : R.eta ≤ R.eta * (1 + R.u) ^ 3 := by
    have := one_le_G R 3
    nlinarith
  unfold rowSlack
  nlinarith

theorem flRow_lower (R : Rounding K) (leaf : LeafSet K × ℕ) (hv : ValidAt leaf.1 leaf.2) (fused : Bool) (mu : K) (hmu : 0 ≤ mu) (c lam tol : K)
    (h : |flRowErr R leaf fused mu c lam| < tol) :
    |exactRow leaf mu c lam| < (tol + R.eta) / (1 - R.u) + rowSlack R mu c lam := by
  have h1 := flRow_slack R leaf hv fused mu hmu c lam
  set p := leaf.1.flProjAt R mu leaf.2 (flShift R fused mu c lam) with hp
  have h2 := R.err (c - p)
  have hlt : 0 < 1 - R.u := by linarith [R.u_lt_one]
  have h3 : |c - p| < (tol + R.eta) / (1 - R.u) := by
    rw [lt_div_iff₀ hlt]
    have h : |R.rnd (c - p)| < tol := h
    have h4 : |c - p| ≤ |R.rnd (c - p) - (c - p)| + |R.rnd (c - p)| := by
      have := abs_add_le (R.rnd (c - p)) (-(R.rnd (c - p) - (c - p)))
      rw [abs_neg] at this
      have e : R.rnd (c - p) + -(R.rnd (c - p) - (c - p)) = c - p := by ring
      rw [e] at this
      linarith
    nlinarith
  have h5 : |exactRow leaf mu c lam| ≤ |c - p| + |p - leaf.1.projAt mu leaf.2 (c + mu * lam)| := by
    have := abs_add_le (c - p) (p - leaf.1.projAt mu leaf.2 (c + mu * lam))
    simpa [exactRow] using this
  linarith

theorem flRow_upper (R : Rounding K) (leaf : LeafSet K × ℕ) (hv : ValidAt leaf.1 leaf.2) (fused : Bool) (mu : K) (hmu : 0 ≤ mu) (c lam : K) :
    |flRowErr R leaf fused mu c lam| ≤ (1 + R.u) * (|exactRow leaf mu c lam| + rowSlack R mu c lam) + R.eta := by
  have h1 := flRow_slack R leaf hv fused mu hmu c lam
  unfold flRowErr
  set p := leaf.1.flProjAt R mu leaf.2 (flShift R fused mu c lam) with hp
  have h2 := R.err (c - p)
  have h3 : |R.rnd (c - p)| ≤ |R.rnd (c - p) - (c - p)| + |c - p| := by simpa using abs_add_le (R.rnd (c - p) - (c - p)) (c - p)
  have h5 : |c - p| ≤ |exactRow leaf mu c lam| + rowSlack R mu c lam := by
    have := abs_add_le (exactRow leaf mu c lam) (-(p - leaf.1.projAt mu leaf.2 (c + mu * lam)))
    rw [abs_neg] at this
    have e : exactRow leaf mu c lam + -(p - leaf.1.projAt mu leaf.2 (c + mu * lam)) = c - p := by unfold exactRow; ring
    rw [e] at this
    linarith
  nlinarith [R.u_nonneg]

theorem rowsValid_at (P : FlCtx X K H n m) (h : RowsValid P) (i : Fin m) : ValidAt (P.sets i).1 (P.sets i).2 := by
  have := h i
  generalize P.sets i = q at this ⊢
  obtain ⟨s, k⟩ := q
  cases s <;> simp_all [ValidAt]

/-! ### sums -/

theorem sumsAll_sum {α : Type} [AddCommMonoid α] {l : List (Option (Fin m))} (h : l.Perm (none :: List.ofFn some)) (v : Option (Fin m) → α) :
    (l.map v).sum = v none + ∑ i, v (some i) := by
  rw [(h.map v).sum_eq, List.map_cons, List.sum_cons, List.map_ofFn, List.sum_ofFn]
  rfl

theorem flDual_error (R : Rounding K) (P : FlCtx X K H n m) {d N : ℕ} (hP : SumsAll P d N) (h : H) (x : X) (lam : Fin m → K) (j : Fin n) :
    |(P.order h j).eval R (P.grad x j) (fun i => (P.jac x i j, lam i)) - exactDual (P.grad x) (P.jac x) lam j| ≤
      dualSlack R d N (P.grad x) (P.jac x) lam j := by
  obtain ⟨h1, h2, h3⟩ := hP h j
  have key := sumTree_error R (P.grad x j) (fun i => (P.jac x i j, lam i)) (P.order h j)
  rw [SumTree.exact, SumTree.absSum, sumsAll_sum h1, sumsAll_sum h1] at key
  refine (show |_ - exactDual (P.grad x) (P.jac x) lam j| ≤ _ from key).trans ?_
  have hA : 0 ≤ |P.grad x j| + ∑ i, |P.jac x i j * lam i| := by positivity
  have g1 := G_mono R h2
  have g2 : (P.order h j).count * R.eta * (1 + R.u) ^ (P.order h j).depth ≤ N * R.eta * (1 + R.u) ^ d :=
    mul_le_mul (mul_le_mul_of_nonneg_right (Nat.cast_le.2 h3) R.eta_nonneg) g1 (by linarith [one_le_G R (P.order h j).depth])
      (mul_nonneg (Nat.cast_nonneg _) R.eta_nonneg)
  exact add_le_add (mul_le_mul_of_nonneg_right (by linarith) hA) g2

/-! ### the loop -/

/-- the residuals of the state are those computed at its point, multipliers and penalty -/
def FlTested (R : Rounding K) (P : FlCtx X K H n m) (mu : K) (st : FlSt X K H m) : Prop :=
  ∃ v c h, P.eval st.xOpt = some (v, c) ∧ st.prim = flPrim R P h mu c st.lamsOpt ∧ st.dual = flDual R P h st.xOpt st.lamsOpt

theorem flInner_spec (R : Rounding K) (P : FlCtx X K H n m) (S : Settings K) : ∀ (st st' : FlSt X K H m), flInner R P S st = some st' →
    (st.converged ≠ .success → st'.converged ≠ .success) ∧ st'.mu = st.mu ∧ st'.resMu = st.resMu ∧
      (FlTested R P st.mu st' ∨ ¬ max st'.prim st'.dual ≤ S.targetTol) := by
  intro st
  induction hk : S.maxIters - st.numIters using Nat.strong_induction_on generalizing st with
  | _ k ih =>
    intro st' h
    rw [flInner] at h
    cases hev : flEval R P st with
    | none => rw [hev] at h; simp at h
    | some st1 =>
      rw [hev] at h
      simp only at h
      obtain ⟨⟨v, c⟩, he, hst1⟩ := Option.map_eq_some_iff.1 hev
      by_cases h2 : P.crit st.input ≤ st.tols.1 ∨ max st1.prim st1.dual ≤ S.targetTol
      · rw [if_pos h2] at h
        cases h
        subst hst1
        exact ⟨id, rfl, rfl, .inl ⟨v, c, st.hidden, he, rfl, rfl⟩⟩
      rw [if_neg h2] at h
      cases hs : P.step st1.input with
      | none => rw [hs] at h; simp at h
      | some o =>
        rw [hs] at h
        simp only at h
        by_cases h4 : st.numIters + 1 ≥ S.maxIters
        · rw [if_pos h4] at h
          cases h
          subst hst1
          exact ⟨fun _ => by simp, rfl, rfl, .inr fun hc => h2 (.inr hc)⟩
        · rw [if_neg h4] at h
          subst hst1
          have key := fun hx => ih (S.maxIters - (st.numIters + 1)) (by omega) _ hx st' h
          exact key rfl

theorem flAfterInner_same (P : FlCtx X K H n m) (S : Settings K) (st : FlSt X K H m) : (flAfterInner P S st).xOpt = st.xOpt ∧
    (flAfterInner P S st).prim = st.prim ∧ (flAfterInner P S st).dual = st.dual ∧ (flAfterInner P S st).resMu = st.resMu ∧
    (S.mode = .newton → (flAfterInner P S st).lamsOpt = st.lamsOpt) ∧ (flAfterInner P S st).converged = st.converged ∧
    (flAfterInner P S st).numIters = st.numIters := by
  unfold flAfterInner
  simp only
  split_ifs <;> refine ⟨rfl, rfl, rfl, rfl, fun h => ?_, rfl, rfl⟩
  · simp only [h]
  · rfl

theorem flAfterInner_mu (P : FlCtx X K H n m) (S : Settings K) (hmu : ∀ t, 0 ≤ t → 0 ≤ P.nextMu t) (st : FlSt X K H m) (h : 0 ≤ st.mu) :
    0 ≤ (flAfterInner P S st).mu := by
  unfold flAfterInner
  simp only
  split_ifs
  · exact h
  · exact hmu _ h

theorem flOuter_spec (R : Rounding K) (P : FlCtx X K H n m) (S : Settings K) (hmu : ∀ t, 0 ≤ t → 0 ≤ P.nextMu t) : ∀ (st st' : FlSt X K H m),
    st.converged ≠ .success → 0 ≤ st.mu → flOuter R P S st = some st' → st'.converged = .success →
    ∃ s, FlTested R P s.resMu s ∧ st'.xOpt = s.xOpt ∧ st'.resMu = s.resMu ∧ (S.mode = .newton → st'.lamsOpt = s.lamsOpt) ∧
      max s.prim s.dual < S.targetTol ∧ 0 ≤ s.resMu := by
  intro st
  induction hk : S.maxAlIters - st.alIters using Nat.strong_induction_on generalizing st with
  | _ k ih =>
    intro st' hn hm h hs
    rw [flOuter] at h
    by_cases h0 : st.numIters < S.maxIters ∧ st.alIters < S.maxAlIters
    · rw [if_pos h0] at h
      cases hi : flInner R P S { st with resMu := st.mu, hidden := P.enterInner st.hidden } with
      | none => rw [hi] at h; simp at h
      | some s =>
        rw [hi] at h
        simp only at h
        obtain ⟨hcv, hmu', hres, ht⟩ := flInner_spec R P S _ s hi
        obtain ⟨a1, a2, a3, a4, a5, a6, -⟩ := flAfterInner_same P S s
        by_cases h1 : max (flAfterInner P S s).prim (flAfterInner P S s).dual < S.targetTol
        · rw [if_pos h1] at h
          cases h
          rw [a2, a3] at h1
          refine ⟨s, ?_, a1, a4, a5, h1, by rw [hres]; exact hm⟩
          rcases ht with ht | ht
          · rw [hres]; exact ht
          · exact absurd h1.le ht
        · rw [if_neg h1] at h
          refine ih (S.maxAlIters - (st.alIters + 1)) (by omega) _ ?_ st' ?_ ?_ h hs
          · rfl
          · show (flAfterInner P S s).converged ≠ .success
            rw [a6]
            exact hcv hn
          · exact flAfterInner_mu P S hmu s (by rw [hmu']; exact hm)
    · rw [if_neg h0] at h
      cases h
      exact absurd hs hn

theorem flSolve_spec (R : Rounding K) (P : FlCtx X K H n m) (S : Settings K) (hmu : ∀ t, 0 ≤ t → 0 ≤ P.nextMu t) (h0 : 0 ≤ S.muInit)
    (st st' : FlSt X K H m) (x0 : X) (lams0 : Fin m → K) (h : flSolve R P S st x0 lams0 = some st') (hs : st'.converged = .success) :
    ∃ s, FlTested R P s.resMu s ∧ st'.xOpt = s.xOpt ∧ st'.resMu = s.resMu ∧ (S.mode = .newton → st'.lamsOpt = s.lamsOpt) ∧
      max s.prim s.dual < S.targetTol ∧ 0 ≤ s.resMu :=
  flOuter_spec R P S hmu _ st' (by simp) h0 h hs

/-- a starting point that passes the test is returned -/
theorem flSolve_first (R : Rounding K) (P : FlCtx X K H n m) (S : Settings K) (hi : 0 < S.maxIters) (ho : 0 < S.maxAlIters)
    (st : FlSt X K H m) (x0 : X) (lams0 : Fin m → K) (v : K) (c : Fin m → K) (he : P.eval x0 = some (v, c))
    (ht : max (flPrim R P (P.enterInner st.hidden) S.muInit c lams0) (flDual R P (P.enterInner st.hidden) x0 lams0) < S.targetTol) :
    ∃ st', flSolve R P S st x0 lams0 = some st' ∧ st'.converged = .success ∧ st'.xOpt = x0 ∧ st'.numIters = 0 ∧ st'.resMu = S.muInit ∧
      (S.mode = .newton → st'.lamsOpt = lams0) ∧ st'.prim = flPrim R P (P.enterInner st.hidden) S.muInit c lams0 ∧
      st'.dual = flDual R P (P.enterInner st.hidden) x0 lams0 := by
  unfold flSolve
  generalize hs : ({ st with
    mu := S.muInit, rho := S.rhoInit, tols := P.tolFailure S.muInit, xOpt := x0, lamsOpt := lams0, lamsPrev := lams0
    converged := Flag.uninit, numIters := 0, alIters := 0 } : FlSt X K H m) = s0
  have q1 : s0.numIters = 0 := by rw [← hs]
  have q2 : s0.alIters = 0 := by rw [← hs]
  have q3 : s0.xOpt = x0 := by rw [← hs]
  have q4 : s0.lamsOpt = lams0 := by rw [← hs]
  have q5 : s0.mu = S.muInit := by rw [← hs]
  have q6 : s0.hidden = st.hidden := by rw [← hs]
  obtain ⟨s1, hs1, r1, r2, r3, r4, r5, r6⟩ : ∃ s1, flInner R P S { s0 with resMu := s0.mu, hidden := P.enterInner s0.hidden } = some s1 ∧
      s1.xOpt = x0 ∧ s1.lamsOpt = lams0 ∧ s1.numIters = 0 ∧ s1.resMu = S.muInit ∧
      s1.prim = flPrim R P (P.enterInner st.hidden) S.muInit c lams0 ∧ s1.dual = flDual R P (P.enterInner st.hidden) x0 lams0 := by
    rw [flInner]
    have hev : flEval R P { s0 with resMu := s0.mu, hidden := P.enterInner s0.hidden } = some
        { s0 with
          resMu := s0.mu
          prim := flPrim R P (P.enterInner s0.hidden) s0.mu c s0.lamsOpt
          dual := flDual R P (P.enterInner s0.hidden) s0.xOpt s0.lamsOpt
          lamsPlus := (P.estimates (FlSt.input { s0 with resMu := s0.mu, hidden := P.enterInner s0.hidden })).1
          lamsPdal := (P.estimates (FlSt.input { s0 with resMu := s0.mu, hidden := P.enterInner s0.hidden })).2
          hidden := P.updHess (P.enterInner s0.hidden) s0.xOpt (P.grad s0.xOpt)
            (P.estimates (FlSt.input { s0 with resMu := s0.mu, hidden := P.enterInner s0.hidden })).2 } := by
      unfold flEval
      simp only
      rw [q3, he]
      rfl
    rw [hev]
    simp only
    rw [if_pos (.inr (by rw [q3, q4, q5, q6]; exact ht.le))]
    exact ⟨_, rfl, q3, q4, q1, q5, by rw [q4, q5, q6], by rw [q3, q4, q6]⟩
  obtain ⟨a1, a2, a3, a4, a5, a6, a7⟩ := flAfterInner_same P S s1
  rw [flOuter, if_pos ⟨by omega, by omega⟩, hs1]
  simp only
  rw [if_pos (by rw [a2, a3, r5, r6]; exact ht)]
  exact ⟨_, rfl, rfl, a1.trans r1, a7.trans r3, a4.trans r4, fun hm => (a5 hm).trans r2, a2.trans r5, a3.trans r6⟩

/-- an error of relative size `γ` in a sum is a relative perturbation of size `γ` of its terms -/
theorem spread_error {ι : Type} [Fintype ι] (w v : ι → K) (a γ ε r : K) (hγ : 0 ≤ γ) (hε : 0 ≤ ε)
    (h : |r - (a + ∑ i, w i * v i)| ≤ γ * (|a| + ∑ i, |w i * v i|) + ε) :
    ∃ (a' : K) (w' : ι → K), |a' - a| ≤ γ * |a| ∧ (∀ i, |w' i - w i| ≤ γ * |w i|) ∧ |r - (a' + ∑ i, w' i * v i)| ≤ ε := by
  set A := |a| + ∑ i, |w i * v i| with hA
  have hA0 : 0 ≤ A := by positivity
  set e := r - (a + ∑ i, w i * v i) with he
  obtain ⟨ρ, hρ, hr⟩ : ∃ ρ, |ρ| ≤ γ ∧ |e - ρ * A| ≤ ε := by
    rcases hA0.eq_or_lt with h0 | h0
    · refine ⟨0, by simpa using hγ, ?_⟩
      rw [← h0] at h ⊢
      simpa using h
    · by_cases h1 : |e| ≤ γ * A
      · refine ⟨e / A, ?_, ?_⟩
        · rw [abs_div, abs_of_pos h0, div_le_iff₀ h0]; exact h1
        · rw [div_mul_cancel₀ _ h0.ne']; simpa using hε
      · rcases le_total 0 e with h2 | h2
        · refine ⟨γ, by rw [abs_of_nonneg hγ], ?_⟩
          rw [abs_of_nonneg h2] at h h1
          rw [abs_le]
          constructor <;> linarith
        · refine ⟨-γ, by rw [abs_neg, abs_of_nonneg hγ], ?_⟩
          rw [abs_of_nonpos h2] at h h1
          rw [abs_le]
          constructor <;> linarith
  refine ⟨a + ρ * |a|, fun i => w i + ρ * (signK (v i) * |w i|), ?_, fun i => ?_, ?_⟩
  · rw [add_sub_cancel_left, abs_mul, abs_abs]
    exact mul_le_mul_of_nonneg_right hρ (abs_nonneg _)
  · rw [add_sub_cancel_left, abs_mul, abs_mul, abs_abs]
    refine mul_le_mul hρ ?_ (by positivity) hγ
    simpa using mul_le_mul_of_nonneg_right (signK_abs (v i)) (abs_nonneg (w i))
  · have hsum : (a + ρ * |a|) + ∑ i, (w i + ρ * (signK (v i) * |w i|)) * v i = (a + ∑ i, w i * v i) + ρ * A := by
      rw [hA, mul_add, Finset.mul_sum]
      have : ∀ i, (w i + ρ * (signK (v i) * |w i|)) * v i = w i * v i + ρ * |w i * v i| := fun i => by
        have hs : signK (v i) * v i = |v i| := by
          unfold signK
          split_ifs with h1 h2
          · rw [abs_of_pos h1, one_mul]
          · rw [abs_of_neg h2]; ring
          · have : v i = 0 := le_antisymm (not_lt.1 h1) (not_lt.1 h2)
            simp [this]
        rw [abs_mul, ← hs]
        ring
      simp only [this]
      rw [Finset.sum_add_distrib]
      ring
    rw [hsum]
    have e1 : r - (a + ∑ i, w i * v i + ρ * A) = e - ρ * A := by rw [he]; ring
    rw [e1]
    exact hr

/-! ### single iterations, for concrete runs -/

theorem flInner_stop (R : Rounding K) (P : FlCtx X K H n m) (S : Settings K) (st st1 : FlSt X K H m) (h : flEval R P st = some st1)
    (ht : P.crit st.input ≤ st.tols.1 ∨ max st1.prim st1.dual ≤ S.targetTol) : flInner R P S st = some st1 := by
  rw [flInner, h]
  simp only
  rw [if_pos ht]

theorem flInner_step (R : Rounding K) (P : FlCtx X K H n m) (S : Settings K) (st st1 : FlSt X K H m) (o : FlOut X K H m)
    (h : flEval R P st = some st1) (ht : ¬ (P.crit st.input ≤ st.tols.1 ∨ max st1.prim st1.dual ≤ S.targetTol))
    (ho : P.step st1.input = some o) (hi : ¬ st.numIters + 1 ≥ S.maxIters) :
    flInner R P S st = flInner R P S { st1 with
      xOpt := o.x, lamsOpt := o.lam, lamsPlus := o.lamsPlus, lamsPdal := o.lamsPdal, hidden := o.hidden, numIters := st.numIters + 1 } := by
  conv_lhs => rw [flInner, h]
  simp only
  rw [if_neg ht, ho]
  simp only
  rw [if_neg hi]

theorem flOuter_success (R : Rounding K) (P : FlCtx X K H n m) (S : Settings K) (st s : FlSt X K H m)
    (hb : st.numIters < S.maxIters ∧ st.alIters < S.maxAlIters)
    (h : flInner R P S { st with resMu := st.mu, hidden := P.enterInner st.hidden } = some s) (ht : max s.prim s.dual < S.targetTol) :
    ∃ st', flOuter R P S st = some st' ∧ st'.converged = .success ∧ st'.xOpt = s.xOpt ∧ st'.numIters = s.numIters := by
  obtain ⟨a1, a2, a3, -, -, -, a7⟩ := flAfterInner_same P S s
  rw [flOuter, if_pos hb, h]
  simp only
  rw [if_pos (by rw [a2, a3]; exact ht)]
  exact ⟨_, rfl, rfl, a1, a7⟩

end ProxNLP
