import Verif.Props.Solver
import Verif.Lemmas.Blocks
import Verif.Spec.Blocks

/-!
C20 (warm start) and C21 (reproducibility of `solve`).
-/

set_option linter.unusedSectionVars false
namespace ProxNLP

variable {X K H : Type} {n m : ℕ} [Field K] [LinearOrder K] [IsStrictOrderedRing K]

/-! ### C21 -/

/-- Two states agree on everything that `solve` reads after its initialisation, the proximal centre excepted; the
quasi-Newton states are related by `R`. -/
structure SameCore (R : H → H → Prop) (a b : St X K H m) : Prop where
  xOpt : a.xOpt = b.xOpt
  xPrev : a.xPrev = b.xPrev
  lamsOpt : a.lamsOpt = b.lamsOpt
  lamsPrev : a.lamsPrev = b.lamsPrev
  mu : a.mu = b.mu
  setMu : a.setMu = b.setMu
  rho : a.rho = b.rho
  primTol : a.primTol = b.primTol
  innerTol : a.innerTol = b.innerTol
  converged : a.converged = b.converged
  numIters : a.numIters = b.numIters
  alIters : a.alIters = b.alIters
  hidden : R a.hidden b.hidden
  callbacks : a.callbacks = b.callbacks
  trace : a.trace = b.trace
  endLog : a.endLog = b.endLog
  accepted : a.accepted = b.accepted
  hasSetup : a.hasSetup = b.hasSetup

/-- ... and on the members written by an evaluation. -/
structure SameOut (R : H → H → Prop) (a b : St X K H m) : Prop extends SameCore R a b where
  lamsPlus : a.lamsPlus = b.lamsPlus
  lamsPdal : a.lamsPdal = b.lamsPdal
  prim : a.prim = b.prim
  dual : a.dual = b.dual
  value : a.value = b.value
  merit : a.merit = b.merit

/-- Both calls throw the same exception or both return, with related states. -/
def SameResult (R : St X K H m → St X K H m → Prop) : Except String (St X K H m) → Except String (St X K H m) → Prop
  | .error e, .error e' => e = e'
  | .ok a, .ok b => R a b
  | _, _ => False

/-- `h'` gives the same step as `h`, up to the state left behind. -/
def SameStep (R : H → H → Prop) : Except String (StepOut X K H m) → Except String (StepOut X K H m) → Prop
  | .error e, .error e' => e = e'
  | .ok a, .ok b => a.x = b.x ∧ a.lam = b.lam ∧ a.merit = b.merit ∧ a.lamsPlus = b.lamsPlus ∧ a.lamsPdal = b.lamsPdal ∧
      R a.hidden b.hidden
  | _, _ => False

/-- A relation between quasi-Newton states that no step can tell apart: `R0` between calls, `R` at the top of the
inner loop, `R1` after the Hessian update. -/
structure Indist (P : Ctx X K H n m) (R0 R R1 : H → H → Prop) : Prop where
  enter : ∀ h h', R0 h h' → R (P.enterInner h) (P.enterInner h')
  upd : ∀ h h' x g l, R h h' → R1 (P.updHess h x g l) (P.updHess h' x g l)
  step : ∀ (i : StepIn X K H n m) h', R1 i.hidden h' → SameStep R (P.step i) (P.step { i with hidden := h' })
  leave : ∀ h h', R h h' → R0 h h'
  leave1 : ∀ h h', R1 h h' → R0 h h'

theorem Indist.eq (P : Ctx X K H n m) : Indist P (· = ·) (· = ·) (· = ·) where
  enter _ _ h := by rw [h]
  upd _ _ _ _ _ h := by rw [h]
  step i h' h := by
    subst h
    unfold SameStep
    cases P.step i <;> simp
  leave _ _ h := h
  leave1 _ _ h := h

/-- The problem does not look at the proximal centre when the proximal weight is zero. -/
def CentreFree (P : Ctx X K H n m) : Prop :=
  (∀ t t' x, P.proxGrad 0 t x = P.proxGrad 0 t' x) ∧
  (∀ (i : StepIn X K H n m) t', i.rho = 0 → P.step { i with target := t' } = P.step i)

theorem evalAt_same (P : Ctx X K H n m) (S : Settings K) {R : H → H → Prop} (a b : St X K H m) (h : SameCore R a b)
    (ht : a.target = b.target ∨ a.rho = 0 ∧ CentreFree P) : evalSt P S a = evalSt P S b := by
  unfold evalSt evalAt
  rw [h.mu, h.setMu, h.xOpt, h.lamsOpt, h.lamsPrev]
  rcases ht with ht | ⟨h0, hP, _⟩
  · rw [ht, h.rho]
  · have hb : b.rho = 0 := h.rho ▸ h0
    rw [h0, hb]
    have : P.proxGrad 0 a.target b.xOpt = P.proxGrad 0 b.target b.xOpt := hP _ _ _
    simp [this]

theorem innerLoop_same (P : Ctx X K H n m) (S : Settings K) {R0 R R1 : H → H → Prop} (hR : Indist P R0 R R1)
    (a b : St X K H m) (h : SameCore R a b) (ht : a.target = b.target ∨ a.rho = 0 ∧ CentreFree P) :
    SameResult (SameOut R0) (innerLoop P S a) (innerLoop P S b) := by
  generalize hk : S.maxIters - a.numIters = k
  induction k using Nat.strong_induction_on generalizing a b with
  | _ k ih =>
    have hev := evalAt_same P S a b h ht
    rw [innerLoop, innerLoop]
    cases hb : evalSt P S b with
    | none =>
      rw [hb] at hev
      simp only [hev, hb, SameResult]
    | some ev =>
      rw [hb] at hev
      simp only [hev, hb]
      have h1 : SameOut R1 (afterEval P a ev) (afterEval P b ev) := by
        refine { h with lamsPlus := rfl, lamsPdal := rfl, prim := rfl, dual := rfl, value := rfl, merit := rfl, hidden := ?_ }
        simp only [afterEval, h.xOpt]
        exact hR.upd _ _ _ _ _ h.hidden
      by_cases hst : stopTest S a ev
      · have hst' : stopTest S b ev := by unfold stopTest at *; rw [← h.innerTol]; exact hst
        rw [if_pos hst, if_pos hst']
        exact { h1 with hidden := hR.leave1 _ _ h1.hidden }
      · have hst' : ¬ stopTest S b ev := by unfold stopTest at *; rw [← h.innerTol]; exact hst
        rw [if_neg hst, if_neg hst']
        have hs : SameStep R (P.step (stepIn (afterEval P a ev) ev)) (P.step (stepIn (afterEval P b ev) ev)) := by
          have e := hR.step (stepIn (afterEval P a ev) ev) (afterEval P b ev).hidden h1.hidden
          rcases ht with ht | ⟨h0, _, hP⟩
          · convert e using 2
            simp only [stepIn]
            rw [h1.xOpt, h1.lamsOpt, h1.lamsPrev, h1.mu, h1.setMu, h1.rho]
            simp only [afterEval, ht]
          · have hr : (stepIn (afterEval P b ev) ev).rho = 0 := by
              show b.rho = 0
              rw [← h.rho]; exact h0
            rw [← hP (stepIn (afterEval P b ev) ev) a.target hr]
            convert e using 2
            simp only [stepIn]
            rw [h1.xOpt, h1.lamsOpt, h1.lamsPrev, h1.mu, h1.setMu, h1.rho]
            rfl
        cases hoa : P.step (stepIn (afterEval P a ev) ev) with
        | error e =>
          cases ho : P.step (stepIn (afterEval P b ev) ev) with
          | error e' => rw [hoa, ho] at hs; exact hs
          | ok o => rw [hoa, ho] at hs; exact absurd hs (by simp [SameStep])
        | ok oa =>
          cases ho : P.step (stepIn (afterEval P b ev) ev) with
          | error e' => rw [hoa, ho] at hs; exact absurd hs (by simp [SameStep])
          | ok o =>
            rw [hoa, ho] at hs
            obtain ⟨s1, s2, s3, s4, s5, s6⟩ := hs
            simp only
            have h2 : SameOut R (nextIter P a ev oa) (nextIter P b ev o) := by
              have hc := h1.callbacks
              have ht := h1.trace
              have ha := h1.accepted
              have hn := h.numIters
              constructor
              · constructor
                · exact s1
                · exact h.xPrev
                · exact s2
                · exact h.lamsPrev
                · exact h.mu
                · exact h.setMu
                · exact h.rho
                · exact h.primTol
                · exact h.innerTol
                · exact h.converged
                · show a.numIters + 1 = b.numIters + 1
                  rw [hn]
                · exact h.alIters
                · exact s6
                · exact hc
                · simp only [acceptStep, invokeCallbacks]
                  rw [ht, hc, s1, s2, s3]
                  simp only [afterEval, hn]
                · exact h.endLog
                · simp only [acceptStep, invokeCallbacks, ha, s1, s2]
                · exact h.hasSetup
              · exact s4
              · exact s5
              · rfl
              · rfl
              · rfl
              · exact s3
            by_cases hm : a.numIters + 1 ≥ S.maxIters
            · have hm' : b.numIters + 1 ≥ S.maxIters := by rw [← h.numIters]; exact hm
              rw [if_pos hm, if_pos hm']
              exact { h2 with converged := rfl, hidden := hR.leave _ _ h2.hidden }
            · have hm' : ¬ b.numIters + 1 ≥ S.maxIters := by rw [← h.numIters]; exact hm
              rw [if_neg hm, if_neg hm']
              refine ih _ ?_ (nextIter P a ev oa) (nextIter P b ev o) h2.toSameCore ht rfl
              show S.maxIters - (a.numIters + 1) < k
              omega

/-- the observable results of two executions agree (everything in `Results`, plus the callback trace) -/
structure SameResults (R : H → H → Prop) (a b : St X K H m) : Prop extends SameOut R a b where
  resMu : a.resMu = b.resMu
  resRho : a.resRho = b.resRho
  target : a.target = b.target

theorem afterInner_same (S : Settings K) {R : H → H → Prop} (a b : St X K H m) (h : SameOut R a b) :
    SameOut R (afterInner S a) (afterInner S b) := by
  unfold afterInner
  simp only
  by_cases hc : a.prim < a.primTol
  · have hc' : b.prim < b.primTol := by rw [← h.prim, ← h.primTol]; exact hc
    rw [if_pos hc, if_pos hc']
    unfold updateToleranceSuccess tolerancePostUpdate acceptMultipliers
    refine { h with xPrev := ?_, lamsOpt := ?_, lamsPrev := ?_, primTol := ?_, innerTol := ?_, endLog := ?_ }
    · exact h.xOpt
    · simp only; rw [h.lamsOpt, h.lamsPlus, h.lamsPdal]
    · simp only; rw [h.lamsOpt, h.lamsPlus, h.lamsPdal]
    · simp only; rw [h.mu, h.primTol]
    · simp only; rw [h.mu, h.innerTol]
    · simp only; rw [h.endLog, h.dual, h.xOpt, h.prim]
  · have hc' : ¬ b.prim < b.primTol := by rw [← h.prim, ← h.primTol]; exact hc
    rw [if_neg hc, if_neg hc']
    unfold updateToleranceFailure tolerancePostUpdate updatePenalty
    simp only
    by_cases hl : a.mu = S.muLower
    · have hl' : b.mu = S.muLower := by rw [← h.mu]; exact hl
      simp only [if_pos hl, if_pos hl']
      refine { h with xPrev := ?_, mu := rfl, setMu := rfl, primTol := rfl, innerTol := rfl, endLog := ?_ }
      · exact h.xOpt
      · simp only [setPenalty]; rw [h.endLog, h.dual, h.xOpt, h.prim]
    · have hl' : ¬ b.mu = S.muLower := by rw [← h.mu]; exact hl
      simp only [if_neg hl, if_neg hl']
      refine { h with xPrev := ?_, mu := ?_, setMu := ?_, primTol := ?_, innerTol := ?_, endLog := ?_ }
      · exact h.xOpt
      · simp only [setPenalty, h.mu]
      · simp only [setPenalty, h.mu]
      · simp only [setPenalty, h.mu]
      · simp only [setPenalty, h.mu]
      · simp only [setPenalty]; rw [h.endLog, h.dual, h.xOpt, h.prim]

theorem outerLoop_same (P : Ctx X K H n m) (S : Settings K) {R0 R R1 : H → H → Prop} (hR : Indist P R0 R R1)
    (a b : St X K H m) (h : SameCore R0 a b)
    (ht : a.target = b.target ∨ a.rho = 0 ∧ CentreFree P)
    (hgo : (a.numIters < S.maxIters ∧ a.alIters < S.maxAlIters) ∨ SameResults R0 a b) :
    SameResult (SameResults R0) (outerLoop P S a) (outerLoop P S b) := by
  generalize hk : S.maxAlIters - a.alIters = k
  induction k using Nat.strong_induction_on generalizing a b with
  | _ k ih =>
    rw [outerLoop, outerLoop]
    by_cases hc : a.numIters < S.maxIters ∧ a.alIters < S.maxAlIters
    · have hc' : b.numIters < S.maxIters ∧ b.alIters < S.maxAlIters := by
        rw [← h.numIters, ← h.alIters]; exact hc
      rw [if_pos hc, if_pos hc']
      have hs : SameCore R (startOuter P a) (startOuter P b) := { h with hidden := hR.enter _ _ h.hidden }
      have hin := innerLoop_same P S hR _ _ hs ht
      cases ha : innerLoop P S (startOuter P a) with
      | error e =>
        cases hb : innerLoop P S (startOuter P b) with
        | error e' => rw [ha, hb] at hin; simpa only [SameResult] using hin
        | ok b1 => rw [ha, hb] at hin; exact absurd hin (by simp [SameResult])
      | ok a1 =>
        cases hb : innerLoop P S (startOuter P b) with
        | error e' => rw [ha, hb] at hin; exact absurd hin (by simp [SameResult])
        | ok b1 =>
          rw [ha, hb] at hin
          have hin : SameOut R0 a1 b1 := hin
          have hfa := innerLoop_frame P S _ _ ha
          have hfb := innerLoop_frame P S _ _ hb
          have h2 := afterInner_same S a1 b1 hin
          have hmu : (afterInner S a1).resMu = (afterInner S b1).resMu := by
            rw [afterInner_resMu, afterInner_resMu, hfa.resMu, hfb.resMu]; exact h.mu
          have hrho : (afterInner S a1).resRho = (afterInner S b1).resRho := by
            rw [afterInner_resRho, afterInner_resRho, hfa.resRho, hfb.resRho]; exact h.rho
          have htg : (afterInner S a1).target = (afterInner S b1).target := by
            rw [afterInner_target, afterInner_target, hin.xOpt]
          simp only
          by_cases hlt : max (afterInner S b1).prim (afterInner S b1).dual < S.targetTol
          · have hlt' : max (afterInner S a1).prim (afterInner S a1).dual < S.targetTol := by
              rw [h2.prim, h2.dual]; exact hlt
            rw [if_pos hlt', if_pos hlt]
            exact { h2 with converged := rfl, resMu := hmu, resRho := hrho, target := htg }
          · have hlt' : ¬ max (afterInner S a1).prim (afterInner S a1).dual < S.targetTol := by
              rw [h2.prim, h2.dual]; exact hlt
            rw [if_neg hlt', if_neg hlt]
            have h3 : SameResults R0 (nextOuter S a a1) (nextOuter S b b1) := by
              refine { h2 with rho := ?_, alIters := ?_, resMu := hmu, resRho := hrho, target := htg }
              · show (afterInner S a1).rho * _ = (afterInner S b1).rho * _
                rw [h2.rho]
              · show a.alIters + 1 = b.alIters + 1
                rw [h.alIters]
            refine ih _ ?_ (nextOuter S a a1) (nextOuter S b b1) h3.toSameOut.toSameCore (Or.inl htg) (Or.inr h3) rfl
            show S.maxAlIters - (a.alIters + 1) < k
            omega
    · have hc' : ¬ (b.numIters < S.maxIters ∧ b.alIters < S.maxAlIters) := by
        rw [← h.numIters, ← h.alIters]; exact hc
      rw [if_neg hc, if_neg hc']
      rcases hgo with hgo | hgo
      · exact absurd hgo hc
      · exact hgo

theorem initSolve_same (S : Settings K) {R : H → H → Prop} (a b : St X K H m) (x0 : X) (l : Fin m → K)
    (h1 : a.hasSetup = b.hasSetup) (h2 : a.callbacks = b.callbacks) (h3 : R a.hidden b.hidden) :
    SameCore R (initSolve S a x0 m l) (initSolve S b x0 m l) := by
  unfold initSolve
  simp only [dif_pos]
  constructor <;> first | rfl | assumption

theorem solve_same (P : Ctx X K H n m) (S : Settings K) {R0 R R1 : H → H → Prop} (hR : Indist P R0 R R1)
    (a b : St X K H m) (x0 : X) (lams0 : Fin m → K) (h1 : a.hasSetup = b.hasSetup) (h2 : a.callbacks = b.callbacks) (h3 : R0 a.hidden b.hidden)
    (h4 : a.target = b.target ∨ S.rhoInit = 0 ∧ CentreFree P) (hi : 0 < S.maxIters) (ho : 0 < S.maxAlIters) :
    SameResult (SameResults R0) (solve P S a x0 m lams0) (solve P S b x0 m lams0) := by
  unfold solve
  rw [← h1]
  by_cases hs : a.hasSetup = false
  · rw [if_pos hs, if_pos hs]; rfl
  · rw [if_neg hs, if_neg hs]
    have ia := initSolve_outerLog S a x0 m lams0
    have ib := initSolve_outerLog S b x0 m lams0
    have key := outerLoop_same P S hR _ _ (initSolve_same S a b x0 lams0 h1 h2 h3)
      (by
        rw [ia.2.2.2.2.2.2.2.2.2.2.2.1, ib.2.2.2.2.2.2.2.2.2.2.2.1, ia.2.2.2.2.2.2.2.2.2.1]
        exact h4)
      (Or.inl ⟨by rw [ia.2.2.2.2.1]; exact hi, by rw [ia.2.2.2.2.2.1]; exact ho⟩)
    cases ha : outerLoop P S (initSolve S a x0 m lams0) with
    | error e =>
      cases hb : outerLoop P S (initSolve S b x0 m lams0) with
      | error e' => rw [ha, hb] at key; exact key
      | ok b1 => rw [ha, hb] at key; exact absurd key (by simp [SameResult])
    | ok a1 =>
      cases hb : outerLoop P S (initSolve S b x0 m lams0) with
      | error e' => rw [ha, hb] at key; exact absurd key (by simp [SameResult])
      | ok b1 =>
        rw [ha, hb] at key
        have key : SameResults R0 a1 b1 := key
        show SameResults R0 (invokeCallbacks a1) (invokeCallbacks b1)
        refine { key with trace := ?_ }
        simp only [invokeCallbacks]
        rw [key.trace, key.callbacks, key.xOpt, key.lamsOpt, key.merit, key.numIters]

/-- **C21 (partial).**  Full statement: the outcome of `solve(x0, lams0)` does not depend on the state left by earlier
calls.  Proved: when multipliers of the right size are given, the outcome (exception or all results: point, multipliers,
flag, counters, residuals, merit, callback trace) is the same from any two states of the solver with the same
callbacks, the same quasi-Newton state (`hidden`; a one-element type for non-BFGS Hessians) and the same proximal
centre — the centre being irrelevant when `rho_init = 0`, the default.  Missing: calls without multipliers, BFGS, and
`rho_init ≠ 0`, for which it is false (`C21_reproducible_false_multipliers`, `C21_reproducible_false_centre`,
`C21_reproducible_false_bfgs`). -/
theorem C21_reproducible_partial (P : Ctx X K H n m) (S : Settings K) (a b : St X K H m) (x0 : X)
    (lams0 : Fin m → K) (h1 : a.hasSetup = b.hasSetup) (h2 : a.callbacks = b.callbacks) (h3 : a.hidden = b.hidden)
    (h4 : a.target = b.target ∨ S.rhoInit = 0 ∧ CentreFree P) (hi : 0 < S.maxIters) (ho : 0 < S.maxAlIters) :
    SameResult (SameResults (· = ·)) (solve P S a x0 m lams0) (solve P S b x0 m lams0) :=
  solve_same P S (Indist.eq P) a b x0 lams0 h1 h2 h3 h4 hi ho

/-- earlier calls on the same solver object -/
def runHistory (P : Ctx X K H n m) (S : Settings K) (st : St X K H m) :
    List (X × Σ k, Fin k → K) → Except String (St X K H m)
  | [] => .ok st
  | c :: cs => match solve P S st c.1 c.2.1 c.2.2 with
    | .error e => .error e
    | .ok st' => runHistory P S st' cs

theorem solve_frame (P : Ctx X K H n m) (S : Settings K) (st st' : St X K H m) (x0 : X) (k : ℕ)
    (l : Fin k → K) (h : solve P S st x0 k l = .ok st') :
    st'.hasSetup = st.hasSetup ∧ st'.callbacks = st.callbacks := by
  obtain ⟨_, stf, hf, rfl⟩ := solve_ok P S st x0 k l st' h
  have hi : (initSolve S st x0 k l).hasSetup = st.hasSetup ∧ (initSolve S st x0 k l).callbacks = st.callbacks := by
    unfold initSolve; simp only; split <;> exact ⟨rfl, rfl⟩
  have := outerLoop_ind P S (R := fun a b => b.hasSetup = a.hasSetup ∧ b.callbacks = a.callbacks)
    (fun _ _ => ⟨rfl, rfl⟩) (by
      intro a a1 _ _ hin _
      have hf := innerLoop_frame P S _ _ hin
      refine ⟨?_, ?_⟩
      · have : (afterInner S a1).hasSetup = a1.hasSetup := by
          unfold afterInner; simp only; split
          · rfl
          · unfold updatePenalty; simp only; split <;> rfl
        exact this.trans hf.hasSetup
      · exact (afterInner_callbacks S a1).trans hf.callbacks) (by
      intro a a1 b _ _ hin _ _ ih
      have hf := innerLoop_frame P S _ _ hin
      refine ⟨ih.1.trans ?_, ih.2.trans ?_⟩
      · have : (afterInner S a1).hasSetup = a1.hasSetup := by
          unfold afterInner; simp only; split
          · rfl
          · unfold updatePenalty; simp only; split <;> rfl
        exact this.trans hf.hasSetup
      · exact (afterInner_callbacks S a1).trans hf.callbacks) _ _ hf
  exact ⟨this.1.trans hi.1, this.2.trans hi.2⟩

/-- **C21, histories:** with `rho_init = 0` and a Hessian without memory (`H = Unit`), for every sequence of earlier
`solve` calls, a later `solve(x0, lams0)` with multipliers of the right size gives what a solver without history
gives. -/
theorem C21_history_independent_partial (P : Ctx X K Unit n m) (S : Settings K) (st st1 : St X K Unit m)
    (hist : List (X × Σ k, Fin k → K)) (hh : runHistory P S st hist = .ok st1) (x0 : X) (lams0 : Fin m → K)
    (hrho : S.rhoInit = 0) (hP : CentreFree P) (hi : 0 < S.maxIters) (ho : 0 < S.maxAlIters) :
    SameResult (SameResults (· = ·)) (solve P S st1 x0 m lams0) (solve P S st x0 m lams0) := by
  have hfr : st1.hasSetup = st.hasSetup ∧ st1.callbacks = st.callbacks := by
    induction hist generalizing st with
    | nil => simp only [runHistory] at hh; injection hh with hh; subst hh; exact ⟨rfl, rfl⟩
    | cons c cs ih =>
      rw [runHistory] at hh
      split at hh
      · cases hh
      · rename_i st2 h2
        have := solve_frame P S st st2 _ _ _ h2
        have := ih st2 hh
        constructor <;> simp_all
  exact C21_reproducible_partial P S st1 st x0 lams0 hfr.1 hfr.2 rfl (Or.inr ⟨hrho, hP⟩) hi ho

/-- non-vacuity: the demo problem does not look at the centre, and a history of two calls runs -/
example : CentreFree Demo.eqProblem ∧ ∃ st1, runHistory Demo.eqProblem (Demo.settings (1 / 100) (1 / 100) .newton 10 10)
    (Demo.ready Demo.eqProblem (Demo.settings (1 / 100) (1 / 100) .newton 10 10))
    [(3, ⟨1, fun _ => 0⟩), (4, ⟨0, Fin.elim0⟩)] = .ok st1 := by
  constructor
  · refine ⟨fun t t' x => by funext; simp [Demo.eqProblem], fun i t' h => rfl⟩
  · obtain ⟨s1, h1, h3⟩ := checkSolve_sound Demo.eqProblem (Demo.settings (1 / 100) (1 / 100) .newton 10 10) 30
      (Demo.ready Demo.eqProblem (Demo.settings (1 / 100) (1 / 100) .newton 10 10)) 3 1 (fun _ => 0)
      (fun s => checkSolve Demo.eqProblem (Demo.settings (1 / 100) (1 / 100) .newton 10 10) 30 s 4 0 Fin.elim0 fun _ => true)
      (by decide +kernel)
    obtain ⟨s3, h4, _⟩ := checkSolve_sound _ _ _ _ _ _ _ _ h3
    exact ⟨s3, by simp only [runHistory, h1, h4]⟩

/-- the constraint and the cost vanish identically: every primal-dual point is optimal -/
def Demo.trivial : Ctx ℚ ℚ Unit 1 1 :=
  { Demo.eqProblem with eval := fun _ => some (0, fun _ => 0), jac := fun _ _ _ => 0 }

/-- **C21 is false without multipliers**: `solve(x0)` after `solve(x0, [5])` returns the multiplier 5, `solve(x0)` on a
fresh solver returns 0. -/
theorem C21_reproducible_false_multipliers :
    ∃ a b c, solve Demo.trivial (Demo.settings 1 1 .newton 10 10)
        (Demo.ready Demo.trivial (Demo.settings 1 1 .newton 10 10)) 0 1 (fun _ => 5) = .ok a ∧
      solve Demo.trivial (Demo.settings 1 1 .newton 10 10) a 0 0 Fin.elim0 = .ok b ∧
      solve Demo.trivial (Demo.settings 1 1 .newton 10 10)
        (Demo.ready Demo.trivial (Demo.settings 1 1 .newton 10 10)) 0 0 Fin.elim0 = .ok c ∧
      b.lamsOpt 0 = 5 ∧ c.lamsOpt 0 = 0 ∧ b.converged = .success ∧ c.converged = .success := by
  obtain ⟨a, ha, hp⟩ := checkSolve_sound Demo.trivial (Demo.settings 1 1 .newton 10 10) 20
    (Demo.ready Demo.trivial (Demo.settings 1 1 .newton 10 10)) 0 1 (fun _ => 5)
    (fun s => checkSolve Demo.trivial (Demo.settings 1 1 .newton 10 10) 20 s 0 0 Fin.elim0
      fun s => decide (s.lamsOpt 0 = 5 ∧ s.converged = .success)) (by decide +kernel)
  obtain ⟨b, hb, hpb⟩ := checkSolve_sound _ _ _ _ _ _ _ _ hp
  obtain ⟨c, hc, hpc⟩ := checkSolve_sound Demo.trivial (Demo.settings 1 1 .newton 10 10) 20
    (Demo.ready Demo.trivial (Demo.settings 1 1 .newton 10 10)) 0 0 Fin.elim0
    (fun s => decide (s.lamsOpt 0 = 0 ∧ s.converged = .success)) (by decide +kernel)
  have hpb := of_decide_eq_true hpb
  have hpc := of_decide_eq_true hpc
  exact ⟨a, b, c, ha, hb, hc, hpb.1, hpc.1, hpb.2, hpc.2⟩

/-- minimise `x` with steps `-rhs/rho` (the Newton step for a zero Hessian and proximal weight `rho`) -/
def Demo.proxLin : Ctx ℚ ℚ Unit 1 0 :=
  { Demo.linProblem with
    step := fun i => .ok ⟨i.x - i.ev.rhsTop 0 / i.rho, Fin.elim0, 0, Fin.elim0, Fin.elim0, ()⟩ }

/-- **C21 is false with a proximal term**: two identical calls `solve(0)` on the same solver, with `rho_init = 1` and
one allowed step, return `-1` and then `-2`. -/
theorem C21_reproducible_false_centre :
    ∃ a b, solve Demo.proxLin { Demo.settings (1 / 2) 1 .newton 1 10 with rhoInit := 1 }
        (Demo.ready Demo.proxLin (Demo.settings (1 / 2) 1 .newton 1 10)) 0 0 Fin.elim0 = .ok a ∧
      solve Demo.proxLin { Demo.settings (1 / 2) 1 .newton 1 10 with rhoInit := 1 } a 0 0 Fin.elim0 = .ok b ∧
      a.xOpt = -1 ∧ b.xOpt = -2 := by
  obtain ⟨a, ha, hp⟩ := checkSolve_sound Demo.proxLin { Demo.settings (1 / 2) 1 .newton 1 10 with rhoInit := 1 } 20
    (Demo.ready Demo.proxLin (Demo.settings (1 / 2) 1 .newton 1 10)) 0 0 Fin.elim0
    (fun s => decide (s.xOpt = -1) && checkSolve Demo.proxLin
      { Demo.settings (1 / 2) 1 .newton 1 10 with rhoInit := 1 } 20 s 0 0 Fin.elim0
      fun s => decide (s.xOpt = -2)) (by decide +kernel)
  rw [Bool.and_eq_true] at hp
  obtain ⟨b, hb, hpb⟩ := checkSolve_sound _ _ _ _ _ _ _ _ hp.2
  exact ⟨a, b, ha, hb, of_decide_eq_true hp.1, of_decide_eq_true hpb⟩

/-- **C21, with `setup()` between the calls** (the proximal centre survives: `C21_setup_false_centre`). Whatever happened to the
solver before, after `setup()` the results show a new solver's results, and `solve` behaves like on a new solver with the same
callbacks: also with BFGS, and also when the call gives no multipliers or multipliers of the wrong size. -/
theorem C21_setup_partial (P : Ctx X K H n m) (S S0 : Settings K) (h0 h1 : H) (a : St X K H m) (x0 : X) (k : ℕ) (lams0 : Fin k → K)
    (hc : a.target = P.neutral ∨ S.rhoInit = 0 ∧ CentreFree P) (hi : 0 < S.maxIters) (ho : 0 < S.maxAlIters) :
    let new : St X K H m := { St.fresh P S0 h1 with callbacks := a.callbacks }
    ((setup P h0 a).xOpt = new.xOpt ∧ (setup P h0 a).lamsOpt = new.lamsOpt ∧ (setup P h0 a).converged = new.converged ∧
      (setup P h0 a).numIters = new.numIters ∧ (setup P h0 a).alIters = new.alIters ∧ (setup P h0 a).prim = new.prim ∧
      (setup P h0 a).dual = new.dual ∧ (setup P h0 a).active = new.active ∧ (setup P h0 a).rowErr = new.rowErr ∧
      (setup P h0 a).resMu = new.resMu ∧ (setup P h0 a).resRho = new.resRho) ∧
    SameResult (SameResults (· = ·)) (solve P S (setup P h0 a) x0 k lams0) (solve P S (setup P h0 new) x0 k lams0) := by
  intro new
  refine ⟨⟨rfl, rfl, rfl, rfl, rfl, rfl, rfl, rfl, rfl, rfl, rfl⟩, ?_⟩
  by_cases hk : k = m
  · subst hk
    exact C21_reproducible_partial P S _ _ x0 lams0 rfl rfl rfl hc hi ho
  · have e : ∀ b : St X K H m, solve P S (setup P h0 b) x0 k lams0 = solve P S (setup P h0 b) x0 m (fun _ => 0) := by
      intro b
      have : initSolve S (setup P h0 b) x0 k lams0 = initSolve S (setup P h0 b) x0 m (fun _ => 0) := by
        simp only [initSolve]
        rw [dif_neg hk]
        simp [setup, setPenalty, setProxParameter]
      unfold solve
      rw [this]
    rw [e, e]
    exact C21_reproducible_partial P S _ _ x0 _ rfl rfl rfl hc hi ho

/-- **... but `setup()` does not reset the proximal centre**: `solve(0)`, `setup()`, `solve(0)` with `rho_init = 1` and one allowed step
return `-1` and then `-2`. -/
theorem C21_setup_false_centre :
    ∃ a b, solve Demo.proxLin { Demo.settings (1 / 2) 1 .newton 1 10 with rhoInit := 1 }
        (Demo.ready Demo.proxLin (Demo.settings (1 / 2) 1 .newton 1 10)) 0 0 Fin.elim0 = .ok a ∧
      solve Demo.proxLin { Demo.settings (1 / 2) 1 .newton 1 10 with rhoInit := 1 } (setup Demo.proxLin () a) 0 0 Fin.elim0 = .ok b ∧
      a.xOpt = -1 ∧ b.xOpt = -2 := by
  obtain ⟨a, ha, hp⟩ := checkSolve_sound Demo.proxLin { Demo.settings (1 / 2) 1 .newton 1 10 with rhoInit := 1 } 20
    (Demo.ready Demo.proxLin (Demo.settings (1 / 2) 1 .newton 1 10)) 0 0 Fin.elim0
    (fun s => decide (s.xOpt = -1) && checkSolve Demo.proxLin
      { Demo.settings (1 / 2) 1 .newton 1 10 with rhoInit := 1 } 20 (setup Demo.proxLin () s) 0 0 Fin.elim0
      fun s => decide (s.xOpt = -2)) (by decide +kernel)
  rw [Bool.and_eq_true] at hp
  obtain ⟨b, hb, hpb⟩ := checkSolve_sound _ _ _ _ _ _ _ _ hp.2
  exact ⟨a, b, ha, hb, of_decide_eq_true hp.1, of_decide_eq_true hpb⟩

/-! ### C20 -/

/-- **C20, multipliers of the right size are used as given**: the outcome is that of a solver whose stored multipliers
were overwritten by `lams0` beforehand, whatever multipliers were stored; in particular both the current multipliers
and the multiplier estimate of the augmented Lagrangian start at `lams0`. -/
theorem C20_warm_start_used (P : Ctx X K H n m) (S : Settings K) (st : St X K H m) (x0 : X) (lams0 l1 l2 : Fin m → K) :
    (initSolve S st x0 m lams0).lamsOpt = lams0 ∧ (initSolve S st x0 m lams0).lamsPrev = lams0 ∧
    solve P S { st with lamsOpt := l1, lamsPrev := l2 } x0 m lams0 = solve P S st x0 m lams0 ∧
    solve P S { st with lamsOpt := lams0, lamsPrev := lams0 } x0 0 Fin.elim0 = solve P S st x0 m lams0 := by
  refine ⟨?_, ?_, ?_, ?_⟩
  · unfold initSolve; simp only [dif_pos]; rfl
  · unfold initSolve; simp only [dif_pos]; rfl
  · unfold solve initSolve; simp only [dif_pos]; rfl
  · rcases Nat.eq_zero_or_pos m with h0 | h0
    · subst h0
      unfold solve initSolve; simp only [dif_pos]
      have e : ∀ l l' : Fin 0 → K, l = l' := fun l l' => funext fun i => i.elim0
      rw [e lams0 Fin.elim0]
      rfl
    · have hne : ¬ (0 : ℕ) = m := by omega
      unfold solve initSolve
      simp only [dif_pos, hne, dif_neg, not_false_eq_true]
      rfl

/-- with an exhausted budget the given multipliers come back unchanged -/
theorem C20_warm_start_returned (P : Ctx X K H n m) (S : Settings K) (st st' : St X K H m) (x0 : X) (lams0 : Fin m → K)
    (h0 : S.maxIters = 0) (h : solve P S st x0 m lams0 = .ok st') : st'.lamsOpt = lams0 ∧ st'.xOpt = x0 := by
  obtain ⟨_, stf, hf, rfl⟩ := solve_ok P S st x0 m lams0 st' h
  rw [outerLoop, if_neg (by omega)] at hf
  injection hf with hf
  subst hf
  exact ⟨(C20_warm_start_used P S st x0 lams0 lams0 lams0).1, (initSolve_outerLog S st x0 m lams0).2.2.2.2.2.2.2.2.2.2.1⟩

/-- **C20 is false for a stacked vector of the wrong size**: it is not rejected but ignored — for every problem, state
and vector of a wrong size, `solve(x0, lams0)` is `solve` from the multipliers stored by earlier calls. -/
theorem C20_wrong_size_ignored (P : Ctx X K H n m) (S : Settings K) (st : St X K H m) (x0 : X) (k k' : ℕ)
    (l : Fin k → K) (l' : Fin k' → K) (hk : k ≠ m) (hk' : k' ≠ m) :
    solve P S st x0 k l = solve P S st x0 k' l' ∧
    (initSolve S st x0 k l).lamsOpt = st.lamsOpt ∧ (initSolve S st x0 k l).lamsPrev = st.lamsPrev := by
  refine ⟨?_, ?_, ?_⟩
  · unfold solve initSolve
    simp only [dif_neg hk, dif_neg hk']
  · unfold initSolve; simp only [dif_neg hk]; rfl
  · unfold initSolve; simp only [dif_neg hk]; rfl

/-- a concrete instance: a two-entry multiplier vector for a one-constraint problem is accepted and SUCCESS reported -/
theorem C20_rejected_false : ∃ st', solve Demo.trivial (Demo.settings 1 1 .newton 10 10)
    (Demo.ready Demo.trivial (Demo.settings 1 1 .newton 10 10)) 0 2 (fun _ => 5) = .ok st' ∧
    st'.converged = .success ∧ st'.lamsOpt 0 = 0 := by
  obtain ⟨a, ha, hp⟩ := checkSolve_sound Demo.trivial (Demo.settings 1 1 .newton 10 10) 20
    (Demo.ready Demo.trivial (Demo.settings 1 1 .newton 10 10)) 0 2 (fun _ => 5)
    (fun s => decide (s.converged = .success ∧ s.lamsOpt 0 = 0)) (by decide +kernel)
  exact ⟨a, ha, of_decide_eq_true hp⟩

/-- **C20, per-constraint multipliers:** a wrong number of blocks is an error; otherwise, if every block has the size of
its constraint, block `i` is placed in segment `i` of the vector handed to `solve`; a block of a wrong size is an
out-of-contract access (undefined).  Empty constraints included. -/
theorem C20_blocks (sizes : List ℕ) (lams0 : List (Σ k, Fin k → K)) :
    (lams0.length ≠ sizes.length → ∃ msg, stackLams sizes lams0 = .error msg) ∧
    (lams0.length = sizes.length → ∀ l, stackLams sizes lams0 = .ok l ↔
      ∀ (i size : ℕ) (b : Σ k, Fin k → K), sizes[i]? = some size → lams0[i]? = some b →
        b.1 = size ∧ Spec.IsBlock l (Spec.offset sizes i) b.2) := by
  constructor
  · intro h
    exact ⟨_, by unfold stackLams; rw [if_pos (Ne.symm h)]⟩
  · intro hlen l
    have hiff := blockLoop_eq_some_iff (lams0.map assignOp) sizes sizes.sum (by simpa using hlen) le_rfl
      (fun _ => (0 : K)) (fun _ => (0 : K)) l
    have e : stackLams sizes lams0 = .ok l ↔
        blockLoop (lams0.map assignOp) sizes sizes.sum (fun _ => (0 : K)) (fun _ => (0 : K)) = some l := by
      unfold stackLams
      rw [if_neg (by simp [hlen])]
      split <;> simp_all
    rw [e, hiff]
    constructor
    · rintro ⟨h, _⟩ i size b hs hb
      obtain ⟨zb, ob, ob', e1, e2, e3, e4⟩ := h i size (assignOp b) (by simp [hb]) hs
      unfold assignOp at e4
      split at e4
      · rename_i heq
        refine ⟨heq, ?_⟩
        intro j
        have hle := block_end_le_sum sizes i size hs
        rw [readBlock_eq_some _ _ _ hle] at e3
        have e5 := (Option.some.inj e3).trans (Option.some.inj e4).symm
        have hj : (j : ℕ) < size := heq ▸ j.2
        have := congrFun e5 ⟨j, hj⟩
        refine ⟨by unfold Spec.offset; rw [← startIdx_eq]; omega, ?_⟩
        simp only [Spec.offset, ← startIdx_eq]
        exact this
      · cases e4
    · intro h
      refine ⟨?_, fun k hk => absurd k.2 (by omega)⟩
      intro i size op hop hs
      rw [List.getElem?_map, Option.map_eq_some_iff] at hop
      obtain ⟨b, hb, rfl⟩ := hop
      obtain ⟨heq, hblk⟩ := h i size b hs hb
      have hle := block_end_le_sum sizes i size hs
      refine ⟨_, _, _, readBlock_eq_some _ _ _ hle, readBlock_eq_some _ _ _ hle, readBlock_eq_some _ _ _ hle, ?_⟩
      unfold assignOp
      rw [dif_pos heq]
      congr 1
      funext j
      obtain ⟨h1, h2⟩ := hblk (Fin.cast heq.symm j)
      rw [← h2]
      simp only [Spec.offset, ← startIdx_eq, Fin.val_cast]

/-- non-vacuity: three constraints of dimensions 2, 0, 1 -/
example : ∃ l, stackLams [2, 0, 1] [⟨2, ![1, 2]⟩, ⟨0, ![]⟩, ⟨1, ![(3 : ℚ)]⟩] = .ok l ∧ l = ![1, 2, 3] := by
  refine ⟨_, (((C20_blocks [2, 0, 1] [⟨2, ![1, 2]⟩, ⟨0, ![]⟩, ⟨1, ![(3 : ℚ)]⟩]).2 rfl) ![1, 2, 3]).2 ?_, rfl⟩
  intro i size b hs hb
  match i, hs, hb with
  | 0, hs, hb =>
    simp at hs hb; subst hs; subst hb
    refine ⟨rfl, fun j => ?_⟩
    fin_cases j <;> exact ⟨by simp [Spec.offset], rfl⟩
  | 1, hs, hb =>
    simp at hs hb; subst hs; subst hb
    exact ⟨rfl, fun j => j.elim0⟩
  | 2, hs, hb =>
    simp at hs hb; subst hs; subst hb
    refine ⟨rfl, fun j => ?_⟩
    fin_cases j; exact ⟨by simp [Spec.offset], rfl⟩
  | i + 3, hs, hb => simp at hs

/-- the block overload on top of `stackLams` -/
theorem C20_solve_blocks (sizes : List ℕ) (P : Ctx X K H n sizes.sum) (S : Settings K) (st : St X K H sizes.sum)
    (x0 : X) (lams0 : List (Σ k, Fin k → K)) (l : Fin sizes.sum → K) (h : stackLams sizes lams0 = .ok l) :
    solveBlocks sizes P S st x0 lams0 = .ok (solve P S st x0 sizes.sum l) := by
  unfold solveBlocks; rw [h]

end ProxNLP
