import Verif.Lemmas.SharedProblem
import Verif.Props.Certificate

/-! Property theorems for C97 (several solvers on one problem). -/

set_option linter.unusedSectionVars false
namespace ProxNLP

variable {X K H E : Type} {n m : ℕ} [Field K] [LinearOrder K] [IsStrictOrderedRing K]

/-- **C97, solves one after the other**: whatever solves the other solvers of the problem run in between (and whatever they leave in the
constraint sets), the state of each solver, with its results, is the one it reaches when it runs its own calls alone. -/
theorem C97_sequential (P : ℕ → Ctx X K H n m) (S : ℕ → Settings K) (s s' : Shared X K H m) (calls : List (SolveCall X K))
    (h : s.run P S calls = .ok s') (i : ℕ) :
    Spec.soloRun (P i) (S i) (s.solvers i) (calls.filter fun c => c.who == i) = .ok (s'.solvers i) := by
  induction calls generalizing s with
  | nil => simp only [Shared.run, Except.ok.injEq] at h; subst h; rfl
  | cons c cs ih =>
    rw [Shared.run] at h
    cases hc : s.call P S c with
    | error e => simp only [hc] at h; cases h
    | ok s1 =>
      simp only [hc] at h
      have ih := ih s1 h
      rw [Shared.call, solve_setMu] at hc
      cases hs : solve (P c.who) (S c.who) (s.solvers c.who) c.x0 c.k c.lams0 with
      | error e => simp only [hs] at hc; cases hc
      | ok st =>
        simp only [hs, Except.ok.injEq] at hc
        subst hc
        by_cases hw : c.who = i
        · subst hw
          simp only [Function.update_self] at ih
          rw [List.filter_cons_of_pos (by simp), Spec.soloRun, hs]
          exact ih
        · rw [List.filter_cons_of_neg (by simpa using hw)]
          simp only [Function.update_of_ne (Ne.symm hw)] at ih
          exact ih

/-- **C97, callbacks, first part**: with callbacks that leave the sets alone (or restore their parameter) the solve is the one without
callbacks. -/
theorem C97_quiet_callbacks_partial (P : Ctx X K H n m) (S : Settings K) (cb : CbEffect X K H E m) (hcb : Spec.LeavesSets cb)
    (e e' : E) (st st' : St X K H m) (x0 : X) (k : ℕ) (lams0 : Fin k → K)
    (h : solveCb P S cb e st x0 k lams0 = .ok (e', st')) : solve P S st x0 k lams0 = .ok st' := by
  obtain ⟨hs, e1, stf, sm, hf, hc, rfl⟩ := solveCb_ok P S cb e e' st st' x0 k lams0 h
  unfold solve
  rw [if_neg (by simp [hs]), outerLoopCb_quiet P S cb hcb _ _ _ _ hf, hcb _ _ _ _ hc]

/-- **C97, callbacks, second part**: a callback that solves the same problem with another solver does not influence the solve when both
solvers have the same penalty parameter and never change it (`mu_lower = mu_init`). -/
theorem C97_nested_partial {HB : Type} (P : Ctx X K H n m) (S : Settings K) (PB : Ctx X K HB n m) (SB : Settings K)
    (hS : S.muLower = S.muInit) (hSB : SB.muLower = SB.muInit) (hmu : SB.muInit = S.muInit)
    (xB : X) (kB : ℕ) (lamsB : Fin kB → K) (stB stB' : St X K HB m) (st st' : St X K H m) (x0 : X) (k : ℕ) (lams0 : Fin k → K)
    (h : solveCb P S (nestedCallback PB SB xB kB lamsB) stB st x0 k lams0 = .ok (stB', st')) :
    solve P S st x0 k lams0 = .ok st' := by
  have hcb : ∀ (e : St X K HB m) (st : St X K H m) e' sm, st.setMu = S.muInit →
      nestedCallback PB SB xB kB lamsB e st = .ok (e', sm) → sm = S.muInit := by
    intro e st e' sm _ hc
    unfold nestedCallback at hc
    split at hc
    · cases hc
    · rename_i b hb
      injection hc with hc; injection hc with h1 h2
      rw [← h2, ← hmu]
      exact solve_const PB SB hSB _ _ _ _ _ hb
  obtain ⟨hs, e1, stf, sm, hf, hc, rfl⟩ := solveCb_ok P S _ stB stB' st st' x0 k lams0 h
  have hi := initSolve_outerLog S st x0 k lams0
  have hout := outerLoopCb_const P S hS _ hcb _ _ _ _ hf hi.2.2.2.2.2.2.2.1 hi.2.2.2.2.2.2.2.2.1
  have hset : stf.setMu = S.muInit := outerLoop_const P S hS _ _ hout hi.2.2.2.2.2.2.2.1 hi.2.2.2.2.2.2.2.2.1
  have : sm = stf.setMu := (hcb _ (invokeCallbacks stf) _ _ hset hc).trans hset.symm
  unfold solve
  rw [if_neg (by simp [hs]), hout, this]
  rfl

theorem certified_of_eval_plain (P : Ctx X K H n m) (S : Settings K) (hP : Spec.PlainSets P.sets) (mu setMu rho : K) (target x : X)
    (lam lamPrev : Fin m → K) (ev : EvalOut K n m) (tol : K)
    (h : evalAt P S mu setMu rho target x lam lamPrev = some ev) (ht : max ev.prim ev.dual < tol) :
    Spec.Certified P mu tol x lam := by
  obtain ⟨f, c, hf, hp, hd⟩ := evalAt_data P S _ _ _ _ _ _ _ ev h
  rw [hp, hd, max_lt_iff] at ht
  refine ⟨f, c, hf, ?_, ((inftyNorm_lt_iff _ _).1 ht.2).2⟩
  have := ((inftyNorm_lt_iff _ _).1 ht.1).2
  intro i
  rw [hP mu setMu]
  exact this i

/-- **C97, callbacks, third part**: whatever the callbacks do with the parameter of the constraint sets (other solves on the same problem
included), a solve that returns SUCCESS certifies its point and multipliers as in C13, if the constraints are plain sets (mode NEWTON, the
default). -/
theorem C97_plain_sets_partial (P : Ctx X K H n m) (S : Settings K) (hP : Spec.PlainSets P.sets) (hmode : S.mode = .newton)
    (cb : CbEffect X K H E m) (e e' : E) (st st' : St X K H m) (x0 : X) (k : ℕ) (lams0 : Fin k → K)
    (h : solveCb P S cb e st x0 k lams0 = .ok (e', st')) (hs : st'.converged = .success) :
    Spec.Certified P st'.resMu S.targetTol st'.xOpt st'.lamsOpt := by
  obtain ⟨_, e1, stf, sm, hf, _, rfl⟩ := solveCb_ok P S cb e e' st st' x0 k lams0 h
  have hi := initSolve_outerLog S st x0 k lams0
  refine outerLoopCb_ind P S cb (R := fun _ st _ st' => S.targetTol ≤ st.primTol → st.converged ≠ .success →
    st'.converged = .success → Spec.Certified P st'.resMu S.targetTol st'.xOpt st'.lamsOpt) ?_ ?_ ?_ e e1 _ stf hf
    (initSolve_inv S st x0 k lams0).primTol (by rw [hi.2.2.2.2.2.2.1]; simp) hs
  · intro _ st _ _ h1 h2; exact absurd h2 h1
  · intro e st e1 st1 _ _ hin ht hi hc _
    obtain ⟨hmu, hres, hpt, _, hx⟩ := innerLoopCb_exit P S cb _ _ _ _ hin
    rw [afterInner_prim, afterInner_dual] at ht
    rcases hx with ⟨_, ev, hev, hp, hd⟩ | ⟨_, hgt⟩
    · show Spec.Certified P (afterInner S st1).resMu _ (afterInner S st1).xOpt (afterInner S st1).lamsOpt
      have hlt : st1.prim < st1.primTol := by
        rw [hpt]; exact lt_of_lt_of_le (lt_of_le_of_lt (le_max_left _ _) ht) hi
      rw [afterInner_resMu, afterInner_xOpt, afterInner_lams_of_lt S st1 hlt hmode]
      have : st1.resMu = st1.mu := by rw [hres, hmu]; rfl
      rw [this]
      exact certified_of_eval_plain P S hP _ _ _ _ _ _ _ ev _ hev (by rw [← hp, ← hd]; exact ht)
    · exact absurd ht (not_lt.2 hgt.le)
  · intro e st e1 st1 e' st' _ _ hin ht _ ih hi hc hs
    obtain ⟨_, _, _, _, hx⟩ := innerLoopCb_exit P S cb _ _ _ _ hin
    refine ih ?_ ?_ hs
    · show S.targetTol ≤ (afterInner S st1).primTol
      rw [afterInner_primTol]; split <;> exact le_max_right _ _
    · show (afterInner S st1).converged ≠ _
      rw [afterInner_converged]
      rcases hx with ⟨h1, _⟩ | ⟨h1, _⟩
      · rw [h1]; exact hc
      · rw [h1]; simp

/-- sets made of equality, inequality and box constraints are plain -/
theorem plainSets_ofLeaves (leaf : Fin m → LeafSet K × ℕ) (h : ∀ i, (leaf i).1 ≠ .l1) :
    Spec.PlainSets (StackedSet.ofLeaves leaf) := by
  intro mu mu' z
  funext i
  have := h i
  show (leaf i).1.projAt mu _ _ = (leaf i).1.projAt mu' _ _
  cases hl : (leaf i).1 with
  | l1 => exact absurd hl this
  | _ => rfl

/-! ### Witnesses -/

namespace Demo

/-- settings of a second solver: same as `l1Settings`, with another initial penalty -/
def l1SettingsMu (mu : ℚ) : Settings ℚ := { l1Settings .classic with muInit := mu }

/-- the callback of the witnesses: a second solver on the same problem, started at its solution `x = 1`, `lambda = -1` -/
def nestedL1 (mu : ℚ) : CbEffect (Fin 1 → ℚ) ℚ (Hidden ℚ 1 1) (St (Fin 1 → ℚ) ℚ (Hidden ℚ 1 1) 1) 1 :=
  nestedCallback (concreteCtx (l1Cfg .classic)) (l1SettingsMu mu) (fun _ => 1) 1 (fun _ => -1)

/-- a solver on `min x²/2 + |x - 3|` after `setup()` -/
def l1Ready : St (Fin 1 → ℚ) ℚ (Hidden ℚ 1 1) 1 := qpReady (l1Cfg .classic) (l1Settings .classic)

end Demo

/-- **C97 is false for nested solves**: on `min x²/2 + |x - 3|` (minimiser 1, `Demo.l1_minimiser`) the solver alone returns SUCCESS at
`x = 1`; with a callback in which a second solver of the same problem, with twice the penalty parameter, solves the problem, it returns
SUCCESS at `x = 2`, a point and multipliers that C13 does not certify. -/
theorem C97_nested_false :
    (∃ st', solve (concreteCtx (Demo.l1Cfg .classic)) (Demo.l1Settings .classic) Demo.l1Ready (fun _ => 5) 1 (fun _ => 0) = .ok st' ∧
      st'.converged = .success ∧ st'.xOpt 0 = 1) ∧
    ∃ stB' st', solveCb (concreteCtx (Demo.l1Cfg .classic)) (Demo.l1Settings .classic) (Demo.nestedL1 (1 / 50)) Demo.l1Ready
        Demo.l1Ready (fun _ => 5) 1 (fun _ => 0) = .ok (stB', st') ∧
      st'.converged = .success ∧ st'.xOpt 0 = 2 ∧
      ¬ Spec.Certified (concreteCtx (Demo.l1Cfg .classic)) st'.resMu (1 / 1000) st'.xOpt st'.lamsOpt := by
  constructor
  · obtain ⟨st', h, hp⟩ := checkSolve_sound (concreteCtx (Demo.l1Cfg .classic)) (Demo.l1Settings .classic) 20 Demo.l1Ready
      (fun _ => 5) 1 (fun _ => 0) (fun s => decide (s.converged = .success ∧ s.xOpt 0 = 1)) (by decide +kernel)
    exact ⟨st', h, of_decide_eq_true hp⟩
  · obtain ⟨stB', st', h, hp⟩ := checkSolveCb_sound (concreteCtx (Demo.l1Cfg .classic)) (Demo.l1Settings .classic)
      (nestedFuel (concreteCtx (Demo.l1Cfg .classic)) (Demo.l1SettingsMu (1 / 50)) (fun _ => 1) 1 (fun _ => -1) 20)
      (Demo.nestedL1 (1 / 50)) (fun e st r hr => nestedFuel_sound _ _ _ _ _ _ _ _ _ hr) 20 Demo.l1Ready Demo.l1Ready (fun _ => 5) 1
      (fun _ => 0) (fun s => decide (s.converged = .success ∧ s.xOpt 0 = 2 ∧ s.lamsOpt 0 = -2 ∧ s.resMu = 1 / 100)) (by decide +kernel)
    obtain ⟨h1, h2, h3, h4⟩ := of_decide_eq_true hp
    refine ⟨stB', st', h, h1, h2, ?_⟩
    rintro ⟨f, c, hc, hpr, -⟩
    have hc0 : c 0 = -1 := by
      have : (concreteCtx (Demo.l1Cfg .classic)).eval st'.xOpt = some (Demo.l1Qp.cost st'.xOpt, Demo.l1Qp.residual st'.xOpt) := rfl
      rw [this] at hc
      injection hc with hc
      injection hc with _ hc
      rw [← hc]
      simp [Spec.Qp.residual, Demo.l1Qp, h2]
      norm_num
    have := hpr 0
    rw [h4] at this
    have e : (concreteCtx (Demo.l1Cfg .classic)).sets.projection (1 / 100 : ℚ) (fun j => c j + 1 / 100 * st'.lamsOpt j) 0 =
        signK (c 0 + 1 / 100 * st'.lamsOpt 0) * max (|c 0 + 1 / 100 * st'.lamsOpt 0| - 1 / 100) 0 := rfl
    rw [e, hc0, h3] at this
    revert this
    decide +kernel

/-- non-vacuity of the sequential case: solver 1 (with its own penalty) solves, then solver 0, which returns the minimiser -/
example : ∃ s', Shared.run (fun _ => concreteCtx (Demo.l1Cfg .classic)) (fun i => Demo.l1SettingsMu (if i = 0 then 1 / 100 else 1 / 50))
    { setMu := 0, solvers := fun _ => Demo.l1Ready } [⟨1, fun _ => 1, 1, fun _ => -1⟩, ⟨0, fun _ => 5, 1, fun _ => 0⟩] = .ok s' ∧
    s'.setMu = 1 / 100 ∧ (s'.solvers 0).xOpt 0 = 1 ∧ (s'.solvers 0).numIters = 2 := by
  obtain ⟨b, hb, -⟩ := checkSolve_sound (concreteCtx (Demo.l1Cfg .classic)) (Demo.l1SettingsMu (1 / 50)) 20 Demo.l1Ready
      (fun _ => 1) 1 (fun _ => -1) (fun _ => true) (by decide +kernel)
  obtain ⟨a, ha, hpa⟩ := checkSolve_sound (concreteCtx (Demo.l1Cfg .classic)) (Demo.l1SettingsMu (1 / 100)) 20 Demo.l1Ready
      (fun _ => 5) 1 (fun _ => 0) (fun s => decide (s.setMu = 1 / 100 ∧ s.xOpt 0 = 1 ∧ s.numIters = 2)) (by decide +kernel)
  refine ⟨{ setMu := a.setMu, solvers := Function.update (Function.update (fun _ => Demo.l1Ready) 1 b) 0 a }, ?_, ?_⟩
  · simp only [Shared.run, Shared.call, solve_setMu]
    rw [if_neg (show (1 : ℕ) ≠ 0 by decide), hb]
    simp only
    rw [if_pos trivial, Function.update_of_ne (show (0 : ℕ) ≠ 1 by decide), ha]
  · have := of_decide_eq_true hpa
    simpa using this

/-- non-vacuity of the nested case: both solvers with the constant penalty 1/100 -/
example : ∃ stB' st', solveCb (concreteCtx (Demo.l1Cfg .classic)) { Demo.l1Settings .classic with muLower := 1 / 100 }
      (nestedCallback (concreteCtx (Demo.l1Cfg .classic)) { Demo.l1Settings .classic with muLower := 1 / 100 } (fun _ => 4) 1
        (fun _ => 0)) Demo.l1Ready Demo.l1Ready (fun _ => 5) 1 (fun _ => 0) = .ok (stB', st') ∧
    st'.converged = .success ∧ st'.numIters = 2 := by
  obtain ⟨stB', st', h, hp⟩ := checkSolveCb_sound (concreteCtx (Demo.l1Cfg .classic))
    { Demo.l1Settings .classic with muLower := 1 / 100 }
    (nestedFuel (concreteCtx (Demo.l1Cfg .classic)) { Demo.l1Settings .classic with muLower := 1 / 100 } (fun _ => 4) 1 (fun _ => 0) 20)
    (nestedCallback (concreteCtx (Demo.l1Cfg .classic)) { Demo.l1Settings .classic with muLower := 1 / 100 } (fun _ => 4) 1 (fun _ => 0))
    (fun e st r hr => nestedFuel_sound _ _ _ _ _ _ _ _ _ hr) 20 Demo.l1Ready Demo.l1Ready (fun _ => 5) 1
    (fun _ => 0) (fun s => decide (s.converged = .success ∧ s.numIters = 2)) (by decide +kernel)
  exact ⟨stB', st', h, of_decide_eq_true hp⟩

/-- non-vacuity of the third part: an equality constraint is a plain set, and with a nested solver of another penalty the solve returns
SUCCESS, the sets being left with the parameter of the nested solver -/
example : Spec.PlainSets (concreteCtx (Demo.qpCfg (Demo.qp1 3) .classic (denseBackend 0 (DenseObj.init 2)) 40)).sets ∧
    ∃ stB' st', solveCb (concreteCtx (Demo.qpCfg (Demo.qp1 3) .classic (denseBackend 0 (DenseObj.init 2)) 40)) Demo.qpSettings
      (nestedCallback (concreteCtx (Demo.qpCfg (Demo.qp1 3) .classic (denseBackend 0 (DenseObj.init 2)) 40))
        { Demo.qpSettings with muInit := 1 / 50 } (fun _ => 3) 1 (fun _ => -3))
      (Demo.qpReady (Demo.qpCfg (Demo.qp1 3) .classic (denseBackend 0 (DenseObj.init 2)) 40) Demo.qpSettings)
      (Demo.qpReady (Demo.qpCfg (Demo.qp1 3) .classic (denseBackend 0 (DenseObj.init 2)) 40) Demo.qpSettings)
      (fun _ => 5) 1 (fun _ => -3) = .ok (stB', st') ∧ st'.converged = .success ∧ 1 ≤ st'.numIters ∧ st'.setMu = 1 / 50 := by
  refine ⟨plainSets_ofLeaves _ (fun i => by simp), ?_⟩
  obtain ⟨stB', st', h, hp⟩ := checkSolveCb_sound (concreteCtx (Demo.qpCfg (Demo.qp1 3) .classic (denseBackend 0 (DenseObj.init 2)) 40))
    Demo.qpSettings
    (nestedFuel (concreteCtx (Demo.qpCfg (Demo.qp1 3) .classic (denseBackend 0 (DenseObj.init 2)) 40))
      { Demo.qpSettings with muInit := 1 / 50 } (fun _ => 3) 1 (fun _ => -3) 20)
    (nestedCallback (concreteCtx (Demo.qpCfg (Demo.qp1 3) .classic (denseBackend 0 (DenseObj.init 2)) 40))
      { Demo.qpSettings with muInit := 1 / 50 } (fun _ => 3) 1 (fun _ => -3))
    (fun e st r hr => nestedFuel_sound _ _ _ _ _ _ _ _ _ hr) 40
    (Demo.qpReady (Demo.qpCfg (Demo.qp1 3) .classic (denseBackend 0 (DenseObj.init 2)) 40) Demo.qpSettings)
    (Demo.qpReady (Demo.qpCfg (Demo.qp1 3) .classic (denseBackend 0 (DenseObj.init 2)) 40) Demo.qpSettings) (fun _ => 5) 1
    (fun _ => -3) (fun s => decide (s.converged = .success ∧ 1 ≤ s.numIters ∧ s.setMu = 1 / 50)) (by decide +kernel)
  exact ⟨stB', st', h, of_decide_eq_true hp⟩

end ProxNLP
