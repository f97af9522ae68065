import Verif.Lemmas.Interrupt
import Verif.Props.StepHistory
import Verif.Props.Qp

/-! Property theorems for C110 (exceptions in the middle of a solve). -/

set_option linter.unusedSectionVars false
namespace ProxNLP

variable {X K H : Type} {n m : ℕ} [Field K] [LinearOrder K] [IsStrictOrderedRing K]

/-- **C110, flag**: after an exception at any point of `solve`, the flag in the results is UNINIT, unless the exception came from a callback
at the very end, when the solver is in the state in which `solve` would have returned. -/
theorem C110_flag (P : Ctx X K H n m) (S : Settings K) (st st' : St X K H m) (hs : st.hasSetup = true) (x0 : X) (k : ℕ)
    (lams0 : Fin k → K) (h : Interrupted P S st x0 k lams0 st') :
    st'.converged = .uninit ∨ ∃ r, solve P S st x0 k lams0 = .ok r ∧ Spec.SameButTrace st' r := by
  cases h with
  | loop _ h => exact .inl (stopped_outer P S _ x0 _ _ _ h (running_init S st hs x0 k lams0)).conv
  | final st1 done h hd hne =>
    refine .inr ⟨invokeCallbacks st1, ?_, (invokeSome st1 done).trace, rfl⟩
    unfold solve
    rw [if_neg (by rw [hs]; decide), h]

/-- **C110, no false success**: if the results show SUCCESS after an exception, the point and the multipliers are certified as in C13. -/
theorem C110_no_false_success (P : Ctx X K H n m) (S : Settings K) (hmode : S.mode = .newton) (st st' : St X K H m)
    (hs : st.hasSetup = true) (x0 : X) (k : ℕ) (lams0 : Fin k → K) (h : Interrupted P S st x0 k lams0 st')
    (hc : st'.converged = .success) : Spec.Certified P st'.resMu S.targetTol st'.xOpt st'.lamsOpt := by
  rcases C110_flag P S st st' hs x0 k lams0 h with h1 | ⟨r, hr, t, rfl⟩
  · rw [hc] at h1; cases h1
  · exact C13_success_certifies_partial P S st r x0 k lams0 hmode hr hc

/-- **C110, point**: after an exception in the loops the results hold the last point that was accepted (or the starting point), with its
multipliers in mode NEWTON (the default); the penalty parameter of the solver is that of the constraint sets; the callbacks are kept; and
`num_iters` is the number of accepted steps, or one less if a callback threw. -/
theorem C110_point (P : Ctx X K H n m) (S : Settings K) (st st' : St X K H m) (hs : st.hasSetup = true) (x0 : X) (k : ℕ)
    (lams0 : Fin k → K) (h : OuterInterrupted P S (initSolve S st x0 k lams0) st') :
    st'.xOpt = (Spec.lastReached x0 (startLams st k lams0) st'.accepted).1 ∧
    (S.mode = .newton → (st'.xOpt, st'.lamsOpt) = Spec.lastReached x0 (startLams st k lams0) st'.accepted) ∧
    st'.setMu = st'.mu ∧ st'.callbacks = st.callbacks ∧ st'.hasSetup = true ∧ st'.numIters < S.maxIters ∧
    (st'.accepted.length = st'.numIters ∨ st'.accepted.length = st'.numIters + 1) := by
  have := stopped_outer P S _ x0 _ _ _ h (running_init S st hs x0 k lams0)
  exact ⟨this.point, fun hm => Prod.ext this.point (this.pair hm), this.setMu, this.callbacks, this.setup, this.budget, this.count⟩

/-- **C110, callbacks**: after an exception at any point of `solve`, every callback has been invoked once for each of the first `num_iters`
accepted steps, in the order of registration, with the iterate of that step; beyond these only the callbacks before the one that threw (none, if
it was not a callback that threw) have been invoked, with the point, multipliers, merit value and `num_iters` that the results still show. -/
theorem C110_callbacks (P : Ctx X K H n m) (S : Settings K) (st st' : St X K H m) (x0 : X) (k : ℕ)
    (lams0 : Fin k → K) (h : Interrupted P S st x0 k lams0 st') :
    ∃ (snaps : List (Snap X K m)) (done : List ℕ), done <+: st.callbacks ∧
      st'.trace = snaps.flatMap (fun s => st.callbacks.map fun cb => (cb, s)) ++
        done.map (fun cb => (cb, (⟨st'.xOpt, st'.lamsOpt, st'.merit, st'.numIters⟩ : Snap X K m))) ∧
      snaps.length = st'.numIters ∧ snaps.map (fun s => (s.x, s.lam)) = st'.accepted.take st'.numIters ∧
      ∀ (i : ℕ) (s : Snap X K m), snaps[i]? = some s → s.numIters = i := by
  have hcb : (initSolve S st x0 k lams0).callbacks = st.callbacks := (initSolve_outerLog S st x0 k lams0).2.2.2.2.2.2.2.2.2.2.2.2.1
  cases h with
  | loop _ h => exact cut_outer P S _ _ _ h hcb ⟨[], traced_init S st x0 k lams0⟩
  | final st1 done h hd hne =>
    obtain ⟨snaps, g1, g2, g3, g4, _, _, g7⟩ := outer_trace P S _ st1 h
    obtain ⟨_, _, i3, i4, i5, _, _, _, _, _, _, _, i13, _⟩ := initSolve_outerLog S st x0 k lams0
    rw [i3, i13, List.nil_append] at g1
    rw [i4, List.nil_append] at g2
    rw [i5, Nat.zero_add] at g3
    refine ⟨snaps, done, by rw [← i13, ← g7]; exact hd, ?_, g3.symm, ?_, fun i s hs => ?_⟩
    · show st1.trace ++ _ = _
      rw [g1]; rfl
    · show _ = st1.accepted.take st1.numIters
      rw [g2, g3, List.take_of_length_le (by rw [List.length_map])]
    · rw [g4 i s hs, i5, Nat.zero_add]

theorem interrupted_frame (P : Ctx X K H n m) (S : Settings K) (st st' : St X K H m) (hs : st.hasSetup = true) (x0 : X) (k : ℕ)
    (lams0 : Fin k → K) (h : Interrupted P S st x0 k lams0 st') : st'.hasSetup = true ∧ st'.callbacks = st.callbacks := by
  cases h with
  | loop _ h =>
    have := stopped_outer P S _ x0 _ _ _ h (running_init S st hs x0 k lams0)
    exact ⟨this.setup, this.callbacks⟩
  | final st1 done h hd hne =>
    have key : ∀ st st1 : St X K H m, outerLoop P S st = .ok st1 → st.hasSetup = true →
        st1.hasSetup = true ∧ st1.callbacks = st.callbacks := by
      intro st st1 h
      have hset : ∀ st2 : St X K H m, (afterInner S st2).hasSetup = st2.hasSetup := by
        intro st2
        unfold afterInner updateToleranceSuccess updateToleranceFailure acceptMultipliers updatePenalty setPenalty tolerancePostUpdate
        dsimp only
        split
        · rfl
        · split <;> rfl
      refine outerLoop_ind P S (R := fun st st1 => st.hasSetup = true → st1.hasSetup = true ∧ st1.callbacks = st.callbacks)
        ?_ ?_ ?_ st st1 h
      · intro st _ hs; exact ⟨hs, rfl⟩
      · intro st st2 _ _ hin _ hs
        have hf := innerLoop_frame P S _ _ hin
        refine ⟨?_, ?_⟩
        · show (afterInner S st2).hasSetup = true
          rw [hset, hf.hasSetup]; exact hs
        · show (afterInner S st2).callbacks = _
          rw [afterInner_callbacks, hf.callbacks]; rfl
      · intro st st2 st' _ _ hin _ _ ih hs
        have hf := innerLoop_frame P S _ _ hin
        obtain ⟨h1, h2⟩ := ih (by show (afterInner S st2).hasSetup = true; rw [hset, hf.hasSetup]; exact hs)
        refine ⟨h1, h2.trans ?_⟩
        show (afterInner S st2).callbacks = _
        rw [afterInner_callbacks, hf.callbacks]; rfl
    have hr := running_init S st hs x0 k lams0
    obtain ⟨h1, h2⟩ := key _ _ h hr.setup
    exact ⟨h1, h2.trans hr.callbacks⟩

/-- **C110, the solver can be used again (partial)**: full statement: after an exception anywhere in a solve, a later
`solve(x1, lams1)` gives what it would have given without the interrupted one. Proved: for the whole solver, with multipliers of the right
size, exact or Gauss-Newton Hessian and no proximal term (the default). Missing: the cases in which earlier solves influence later ones also
without an exception (C21). -/
theorem C110_reuse_partial (C : StepCfg X K n m) (hA : C.approx = .exact ∨ C.approx = .gaussNewton)
    (hd : C.inertia.deltaInit ≤ C.inertia.deltaMax) (hC : Spec.ProxCentreFree C) (S : Settings K) (hr : S.rhoInit = 0)
    (hi : 0 < S.maxIters) (ho : 0 < S.maxAlIters) (st st' : St X K (Hidden K n m) m) (hs : st.hasSetup = true) (x0 : X) (k : ℕ)
    (lams0 : Fin k → K) (h : Interrupted (concreteCtx C) S st x0 k lams0 st') (x1 : X) (lams1 : Fin m → K) :
    SameResult (SameResults fun _ _ => True) (solve (concreteCtx C) S st' x1 m lams1) (solve (concreteCtx C) S st x1 m lams1) := by
  obtain ⟨h1, h2⟩ := interrupted_frame (concreteCtx C) S st st' hs x0 k lams0 h
  exact C21_any_state_partial C hA hd hC S hr hi ho st' st x1 lams1 (by rw [h1, hs]) h2

/-- **C110, with `setup()` after the exception**: the solver then behaves like a new one with the same callbacks, also with BFGS and without
multipliers (the proximal centre excepted, C21). -/
theorem C110_setup (P : Ctx X K H n m) (S S0 : Settings K) (h0 h1 : H) (st st' : St X K H m) (hs : st.hasSetup = true) (x0 : X) (k : ℕ)
    (lams0 : Fin k → K) (h : Interrupted P S st x0 k lams0 st') (hr : S.rhoInit = 0) (hP : CentreFree P) (hi : 0 < S.maxIters)
    (ho : 0 < S.maxAlIters) (x1 : X) (k1 : ℕ) (lams1 : Fin k1 → K) :
    SameResult (SameResults (· = ·)) (solve P S (setup P h0 st') x1 k1 lams1)
      (solve P S (setup P h0 { St.fresh P S0 h1 with callbacks := st.callbacks }) x1 k1 lams1) := by
  obtain ⟨-, h2⟩ := interrupted_frame P S st st' hs x0 k lams0 h
  have := (C21_setup_partial P S S0 h0 h1 st' x1 k1 lams1 (.inr ⟨hr, hP⟩) hi ho).2
  rw [h2] at this
  exact this

/-- every exception of the deterministic model is one of these: if `solve` throws, there is a state it leaves -/
theorem C110_thrown (P : Ctx X K H n m) (S : Settings K) (st : St X K H m) (hs : st.hasSetup = true) (x0 : X) (k : ℕ)
    (lams0 : Fin k → K) (e : String) (h : solve P S st x0 k lams0 = .error e) : ∃ st', Interrupted P S st x0 k lams0 st' := by
  have inner : ∀ N (st : St X K H m), S.maxIters - st.numIters = N → innerLoop P S st = .error e → ∃ st', InnerInterrupted P S st st' := by
    intro N
    induction N using Nat.strong_induction_on with
    | _ N ih =>
      intro st hN h
      rw [innerLoop] at h
      cases hev : evalAt P S st.mu st.setMu st.rho st.target st.xOpt st.lamsOpt st.lamsPrev with
      | none => exact ⟨st, .eval st st ⟨_, _, _, _, _, _, _, _, _, rfl⟩⟩
      | some ev =>
        simp only [hev] at h
        by_cases hc : ev.innerCrit ≤ st.innerTol ∨ ev.outerCrit ≤ S.targetTol
        · rw [if_pos hc] at h; cases h
        · rw [if_neg hc] at h
          cases ho : P.step (stepIn (afterEval P st ev) ev) with
          | error e' => exact ⟨_, .step st _ ev hev hc st.lamsPlus st.lamsPdal st.hidden rfl⟩
          | ok o =>
            simp only [ho] at h
            by_cases hm : st.numIters + 1 ≥ S.maxIters
            · rw [if_pos hm] at h; cases h
            · rw [if_neg hm] at h
              obtain ⟨st', h'⟩ := ih _ (by simp only; omega) _ rfl h
              exact ⟨st', .next st st' ev o hev hc ho hm h'⟩
  have outer : ∀ N (st : St X K H m), S.maxAlIters - st.alIters = N → outerLoop P S st = .error e → ∃ st', OuterInterrupted P S st st' := by
    intro N
    induction N using Nat.strong_induction_on with
    | _ N ih =>
      intro st hN h
      rw [outerLoop] at h
      by_cases hb : st.numIters < S.maxIters ∧ st.alIters < S.maxAlIters
      · rw [if_pos hb] at h
        cases hin : innerLoop P S (startOuter P st) with
        | error e' =>
          simp only [hin] at h
          injection h with h
          subst h
          obtain ⟨st', h'⟩ := inner _ _ rfl hin
          exact ⟨st', .inner st st' hb h'⟩
        | ok st1 =>
          simp only [hin] at h
          by_cases hc : max (afterInner S st1).prim (afterInner S st1).dual < S.targetTol
          · rw [if_pos hc] at h; cases h
          · rw [if_neg hc] at h
            obtain ⟨st', h'⟩ := ih _ (by simp only; omega) _ rfl h
            exact ⟨st', .next st st1 st' hb hin hc h'⟩
      · rw [if_neg hb] at h; cases h
  unfold solve at h
  rw [if_neg (by rw [hs]; decide)] at h
  cases hout : outerLoop P S (initSolve S st x0 k lams0) with
  | ok st1 => simp only [hout] at h; cases h
  | error e' =>
    simp only [hout] at h
    injection h with h
    subst h
    obtain ⟨st', h'⟩ := outer _ _ rfl hout
    exact ⟨st', .loop st' h'⟩

/-! ### Witnesses -/

namespace Demo

/-- the solver of `min x²/2` subject to `x = 3` -/
def cbCfg : StepCfg (Fin 1 → ℚ) ℚ 1 1 := qpCfg (qp1 3) .classic (denseBackend 0 (DenseObj.init 2)) 40

/-- the solver after `setup()`, with one callback registered -/
def cbReady : St (Fin 1 → ℚ) ℚ (Hidden ℚ 1 1) 1 := { qpReady cbCfg qpSettings with callbacks := [7] }

/-- its state at the beginning of the inner loop of `solve(5, [0])` -/
def cbStart : St (Fin 1 → ℚ) ℚ (Hidden ℚ 1 1) 1 := startOuter (concreteCtx cbCfg) (initSolve qpSettings cbReady (fun _ => 5) 1 (fun _ => 0))

/-- the evaluation there -/
def cbEval : EvalOut ℚ 1 1 :=
  (evalAt (concreteCtx cbCfg) qpSettings cbStart.mu cbStart.setMu cbStart.rho cbStart.target cbStart.xOpt cbStart.lamsOpt
    cbStart.lamsPrev).get rfl

end Demo

/-- **C110 is false for the reported quantities**: `min x²/2` subject to `x = 3` from `x0 = 5`, with a callback that throws after the first
step: the results show the new point, but 0 iterations, and the value and the primal infeasibility of the starting point. -/
theorem C110_reports_false : ∃ st', Interrupted (concreteCtx Demo.cbCfg) Demo.qpSettings Demo.cbReady (fun _ => 5) 1 (fun _ => 0) st' ∧
    st'.accepted.length = 1 ∧ st'.numIters = 0 ∧ st'.xOpt 0 ≠ 5 ∧ |st'.xOpt 0 - 3| < 1 / 10 ∧
    st'.value = 5 ^ 2 / 2 ∧ st'.value ≠ st'.xOpt 0 ^ 2 / 2 ∧ st'.prim = 2 := by
  have hchk : (match stepFull Demo.cbCfg (stepIn (afterEval (concreteCtx Demo.cbCfg) Demo.cbStart Demo.cbEval) Demo.cbEval) with
      | .ok o => decide (o.x 0 ≠ 5 ∧ |o.x 0 - 3| < 1 / 10 ∧ (5 : ℚ) ^ 2 / 2 ≠ o.x 0 ^ 2 / 2)
      | .error _ => false) = true := by decide +kernel
  cases ho : stepFull Demo.cbCfg (stepIn (afterEval (concreteCtx Demo.cbCfg) Demo.cbStart Demo.cbEval) Demo.cbEval) with
  | error e => rw [ho] at hchk; cases hchk
  | ok o =>
    rw [ho] at hchk
    obtain ⟨h1, h2, h3⟩ := of_decide_eq_true hchk
    have hv : Demo.cbEval.value = 5 ^ 2 / 2 := by decide +kernel
    refine ⟨acceptInterrupted (afterEval (concreteCtx Demo.cbCfg) Demo.cbStart Demo.cbEval) o [], .loop _ (.inner _ _ (by decide +kernel)
      (.callback _ _ Demo.cbEval o [] (Option.some_get _).symm (by decide +kernel) ho List.nil_prefix rfl)),
      rfl, rfl, h1, h2, hv, ?_, ?_⟩
    · show Demo.cbEval.value ≠ o.x 0 ^ 2 / 2
      rw [hv]; exact h3
    · show Demo.cbEval.prim = 2
      decide +kernel

/-- non-vacuity: the exception of `C110_reports_false` meets the hypotheses of the theorems above, and the solver then solves the problem -/
example : Demo.cbReady.hasSetup = true ∧ Demo.cbCfg.approx = .exact ∧ Demo.cbCfg.inertia.deltaInit ≤ Demo.cbCfg.inertia.deltaMax ∧
    Spec.ProxCentreFree Demo.cbCfg ∧ Demo.qpSettings.rhoInit = 0 ∧ Demo.qpSettings.mode = .newton ∧
    ∃ r, solve (concreteCtx Demo.cbCfg) Demo.qpSettings Demo.cbReady (fun _ => 5) 1 (fun _ => -3) = .ok r ∧ r.converged = .success := by
  refine ⟨rfl, rfl, by decide +kernel, ?_, rfl, rfl, ?_⟩
  · refine ⟨fun t t' x => ?_, fun t t' x => ?_, fun t t' x => rfl⟩ <;> simp [Demo.cbCfg, Demo.qpCfg]
  · obtain ⟨st', h, hp⟩ := checkSolve_sound (concreteCtx Demo.cbCfg) Demo.qpSettings 40 Demo.cbReady (fun _ => 5) 1 (fun _ => -3)
      (fun s => decide (s.converged = .success)) (by decide +kernel)
    exact ⟨st', h, of_decide_eq_true hp⟩

end ProxNLP
