import Verif.Lemmas.Tuning
import Verif.Lemmas.SolverEval

/-!
C119: settings of a solver object changed between calls.
-/

set_option linter.unusedSectionVars false
namespace ProxNLP

open Spec

variable {X K : Type} {n m : ℕ} [Field K] [LinearOrder K] [IsStrictOrderedRing K]

/-- **Every setting has the value last assigned to it:** whatever was done with the solver object, in whatever order, calls of `solve` that
threw included, a call of `solve` runs with the settings, the callbacks and the linear solver that the history gives; it throws if `setup()`
was never called. (The linear solver is the one chosen before the last `setup()`: `C119_ldlt_choice_false`.) -/
theorem C119_settings (C : StepCfg X K n m) (S : Settings K) (b : Backend K n m) (ops : List (TuneOp X K n m)) (o : TunedSolver X K n m)
    (h : TunedSolver.Runs (.new C S b) ops o) (x0 : X) (k : ℕ) (lams0 : Fin k → K) :
    o.st.callbacks = callbacksAfter ops ∧
    (wasSetup ops = false → ∃ e, o.solve x0 k lams0 = .error e) ∧
    ((configAfter C b ops).approx ≠ .bfgs →
      o.solve x0 k lams0 = solve (concreteCtx (configAfter C b ops)) (settingsAfter S ops) o.st x0 k lams0) := by
  obtain ⟨h1, h2, _, h4, h5⟩ := tuneInv_runs h rfl
  refine ⟨h5, fun hs => ⟨"Either Results or Workspace are unitialized. Call setup() first.", ?_⟩, fun hb => ?_⟩
  · rw [TunedSolver.solve, if_neg (by rw [h4, hs]; simp), solve, if_pos (by rw [h4, hs])]
  · rw [TunedSolver.solve, if_neg (by rw [h2]; exact fun hc => hb hc.2.1), h1, h2]

/-- **A solver that was adjusted is as good as a new one:** take any history of assignments, setters, `setup()` and `solve` calls after which
the Hessian approximation is exact or Gauss-Newton, there is no proximal term, and the linear solver was chosen before the last `setup()`. A
call of `solve` with multipliers gives the same outcome as on a new solver constructed with the values last assigned, with the same callbacks.
Missing: BFGS and IDENTITY, a proximal term, calls without multipliers (`C21_reproducible_false_bfgs`, `C21_reproducible_false_centre`,
`C21_reproducible_false_multipliers`), and a linear solver chosen after `setup()` (`C119_ldlt_choice_false`). -/
theorem C119_as_new_partial (C : StepCfg X K n m) (S : Settings K) (b : Backend K n m) (ops : List (TuneOp X K n m))
    (o new : TunedSolver X K n m) (h : TunedSolver.Runs (.new C S b) ops o) (hs : wasSetup ops = true)
    (hnew : TunedSolver.Runs (.new (configAfter C b ops) (settingsAfter S ops) (choiceAfter b ops))
      ((callbacksAfter ops).map .registerCallback ++ [.setup]) new)
    (hl : choiceAfter b (beforeLastSetup ops) = choiceAfter b ops)
    (hA : (configAfter C b ops).approx = .exact ∨ (configAfter C b ops).approx = .gaussNewton) (hC : ProxCentreFree C)
    (hr : (settingsAfter S ops).rhoInit = 0)
    (hd : (configAfter C b ops).inertia.deltaInit ≤ (configAfter C b ops).inertia.deltaMax)
    (hi : 0 < (settingsAfter S ops).maxIters) (ho : 0 < (settingsAfter S ops).maxAlIters) (x0 : X) (lams0 : Fin m → K) :
    SameResult (SameResults fun _ _ => True) (o.solve x0 m lams0) (new.solve x0 m lams0) := by
  obtain ⟨h1, h2, h3, h4, h5⟩ := tuneInv_runs h rfl
  obtain ⟨g1, g2, g3, g4, g5⟩ := tuneInv_runs hnew rfl
  have hb : (configAfter C b ops).approx ≠ .bfgs := by rcases hA with h | h <;> rw [h] <;> decide
  have none_map : ∀ {A : Type} (get : TuneOp X K n m → Option A) (d : A) (l : List ℕ) (_ : ∀ cb, get (.registerCallback cb) = none)
      (_ : get .setup = none), lastAssigned get d (l.map .registerCallback ++ [.setup]) = d := by
    intro A get d l e1 e2
    rw [lastAssigned_snoc, e2, Option.getD_none]
    unfold lastAssigned
    have : (l.map (TuneOp.registerCallback (X := X) (K := K) (n := n) (m := m))).filterMap get = [] := by
      rw [List.filterMap_eq_nil_iff]
      intro a ha
      obtain ⟨cb, _, rfl⟩ := List.mem_map.1 ha
      exact e1 cb
    rw [this]
    rfl
  have e1 : new.set = settingsAfter S ops := by
    rw [g1]
    generalize settingsAfter S ops = T
    cases T
    unfold settingsAfter
    congr 1 <;> exact none_map _ _ _ (fun _ => rfl) rfl
  have e2 : new.cfg = configAfter C b ops := by
    have hw : wasSetup ((callbacksAfter ops).map (TuneOp.registerCallback (X := X) (K := K) (n := n) (m := m)) ++ [.setup]) = true := by
      rw [wasSetup_snoc, isSetup, Bool.or_true]
    have hch : choiceAfter (choiceAfter b ops) ((callbacksAfter ops).map (TuneOp.registerCallback (X := X) (K := K) (n := n) (m := m)))
        = choiceAfter b ops := by
      have := none_map (fun | .ldltChoice v => some v | _ => none) (choiceAfter b ops) (callbacksAfter ops) (fun _ => rfl) rfl
      rw [lastAssigned_snoc, Option.getD_none] at this
      exact this
    have hbk : (configAfter C b ops).backend = choiceAfter b ops := by simp only [configAfter, hs, if_true, hl]
    rw [g2]
    conv_lhs => rw [configAfter, hw, if_pos rfl, beforeLastSetup_setup, hch, ← hbk]
    generalize configAfter C b ops = T
    cases T
    congr 1 <;> exact none_map _ _ _ (fun _ => rfl) rfl
  have e5 : new.st.callbacks = callbacksAfter ops := by
    rw [g5, callbacksAfter_snoc]
    have : ∀ (l acc : List ℕ), (l.map (TuneOp.registerCallback (X := X) (K := K) (n := n) (m := m))).foldl
        (fun l op => match op with | .registerCallback cb => l ++ [cb] | .clearCallbacks => [] | _ => l) acc = acc ++ l := by
      intro l
      induction l with
      | nil => intro acc; simp
      | cons a l ih => intro acc; rw [List.map_cons, List.foldl_cons, ih]; simp
    exact (this _ []).trans (List.nil_append _)
  have e4 : new.st.hasSetup = true := by rw [g4, wasSetup_snoc, isSetup, Bool.or_true]
  rw [TunedSolver.solve, if_neg (by rw [h2]; exact fun hc => hb hc.2.1), TunedSolver.solve,
    if_neg (by rw [e2]; exact fun hc => hb hc.2.1), h1, h2, e1, e2]
  exact C21_any_state_partial _ hA hd hC _ hr hi ho _ _ x0 lams0 (by rw [h4, hs, e4]) (by rw [h5, e5])

/-- `setup()`, a solve from 1, then fewer outer iterations, another tolerance, a callback and another solve -/
def Demo.tuneOps : List (TuneOp ℚ ℚ 1 0) :=
  [.setup, .solve 1 0 Fin.elim0, .maxAlIters 3, .registerCallback 7, .targetTol (1 / 10), .kktSystem .primalDual]

/-- the history can happen, meets the hypotheses, and changes the settings -/
example : ∃ o, TunedSolver.Runs (.new (Demo.quarter .exact .classic) Demo.oneIter Demo.backend1) Demo.tuneOps o ∧
    wasSetup Demo.tuneOps = true ∧
    choiceAfter Demo.backend1 (beforeLastSetup Demo.tuneOps) = choiceAfter Demo.backend1 Demo.tuneOps ∧
    (configAfter (Demo.quarter .exact .classic) Demo.backend1 Demo.tuneOps).approx = .exact ∧
    (configAfter (Demo.quarter .exact .classic) Demo.backend1 Demo.tuneOps).kkt = .primalDual ∧
    (settingsAfter Demo.oneIter Demo.tuneOps).targetTol = 1 / 10 ∧ (settingsAfter Demo.oneIter Demo.tuneOps).rhoInit = 0 ∧
    (settingsAfter Demo.oneIter Demo.tuneOps).maxAlIters = 3 ∧ callbacksAfter Demo.tuneOps = [7] := by
  let o1 := (TunedSolver.new (Demo.quarter .exact .classic) Demo.oneIter Demo.backend1).assign .setup
  obtain ⟨a, ha, _⟩ := checkSolve_sound (concreteCtx o1.cfg) o1.set 20 o1.st 1 0 Fin.elim0 (fun _ => true) (by decide +kernel)
  have hs : o1.solve 1 0 Fin.elim0 = .ok a := by
    rw [TunedSolver.solve, if_neg (by decide)]
    exact ha
  refine ⟨_, TunedSolver.Runs.snoc (TunedSolver.Runs.snoc (TunedSolver.Runs.snoc (TunedSolver.Runs.snoc (TunedSolver.Runs.snoc
    (TunedSolver.Runs.snoc (.nil _) (.assign _ .setup (by intro _ _ _ h; cases h))) (.returned _ _ _ _ a hs))
    (.assign _ (.maxAlIters 3) (by intro _ _ _ h; cases h))) (.assign _ (.registerCallback 7) (by intro _ _ _ h; cases h)))
    (.assign _ (.targetTol (1 / 10)) (by intro _ _ _ h; cases h))) (.assign _ (.kktSystem .primalDual) (by intro _ _ _ h; cases h)),
    rfl, rfl, rfl, rfl, rfl, rfl, rfl, rfl⟩

/-- **A linear solver chosen after `setup()` is not used:** assigning `ldlt_choice` changes no later call of `solve` until `setup()` is
called again; then the chosen one is in place. -/
theorem C119_ldlt_choice_false (o : TunedSolver X K n m) (v : Backend K n m) (x0 : X) (k : ℕ) (lams0 : Fin k → K) :
    (o.assign (.ldltChoice v)).solve x0 k lams0 = o.solve x0 k lams0 ∧
      ((o.assign (.ldltChoice v)).assign .setup).cfg.backend = v := ⟨rfl, rfl⟩

/-- a linear solver that always answers 0: chosen before `setup()` the point stays at 2, chosen after it the step goes to 0 -/
example : ∃ a b, ((TunedSolver.new (Demo.quarter .exact .classic) Demo.oneIter Demo.backend1).assign (.ldltChoice ⟨Demo.backend1.sig,
        fun _ _ _ => 0⟩)).setup.solve 2 0 Fin.elim0 = .ok a ∧
    ((TunedSolver.new (Demo.quarter .exact .classic) Demo.oneIter Demo.backend1).setup.assign (.ldltChoice ⟨Demo.backend1.sig,
        fun _ _ _ => 0⟩)).solve 2 0 Fin.elim0 = .ok b ∧ a.xOpt = 2 ∧ b.xOpt = 0 := by
  let o1 := ((TunedSolver.new (Demo.quarter .exact .classic) Demo.oneIter Demo.backend1).assign (.ldltChoice ⟨Demo.backend1.sig,
    fun _ _ _ => 0⟩)).setup
  let o2 := (TunedSolver.new (Demo.quarter .exact .classic) Demo.oneIter Demo.backend1).setup.assign (.ldltChoice ⟨Demo.backend1.sig,
    fun _ _ _ => 0⟩)
  obtain ⟨a, ha, hpa⟩ := checkSolve_sound (concreteCtx o1.cfg) o1.set 20 o1.st 2 0 Fin.elim0 (fun s => decide (s.xOpt = 2))
    (by decide +kernel)
  obtain ⟨b, hb, hpb⟩ := checkSolve_sound (concreteCtx o2.cfg) o2.set 20 o2.st 2 0 Fin.elim0 (fun s => decide (s.xOpt = 0))
    (by decide +kernel)
  refine ⟨a, b, ?_, ?_, of_decide_eq_true hpa, of_decide_eq_true hpb⟩
  · rw [TunedSolver.solve, if_neg (by decide)]; exact ha
  · rw [TunedSolver.solve, if_neg (by decide)]; exact hb

/-- **`setPenalty` and `setProxParameter` called by a program have no effect on `solve`,** which starts from `mu_init` and `rho_init`
whatever was set. -/
theorem C119_setters_false (o : TunedSolver X K n m) (mu rho : K) (x0 : X) (k : ℕ) (lams0 : Fin k → K) :
    (o.assign (.setPenalty mu)).solve x0 k lams0 = o.solve x0 k lams0 ∧
      (o.assign (.setProxParameter rho)).solve x0 k lams0 = o.solve x0 k lams0 := by
  have e1 : initSolve o.set (setPenalty o.st mu) x0 k lams0 = initSolve o.set o.st x0 k lams0 := by
    unfold initSolve
    split_ifs <;> rfl
  have e2 : initSolve o.set (setProxParameter o.st rho) x0 k lams0 = initSolve o.set o.st x0 k lams0 := by
    unfold initSolve
    split_ifs <;> rfl
  constructor
  · simp only [TunedSolver.assign, TunedSolver.solve, solve, e1]
    rfl
  · simp only [TunedSolver.assign, TunedSolver.solve, solve, e2]
    rfl

/-- **BFGS selected after `setup()`:** `solver.setup(); solver.hess_approx = BFGS; solver.solve(…)` throws, whatever the problem, the settings
and the starting point. -/
theorem C119_bfgs_after_setup_false (C : StepCfg X K n m) (S : Settings K) (b : Backend K n m) (hC : C.approx ≠ .bfgs) (hi : 0 < S.maxIters)
    (ho : 0 < S.maxAlIters) (o : TunedSolver X K n m) (h : TunedSolver.Runs (.new C S b) [.setup, .hessApprox .bfgs] o) (x0 : X) (k : ℕ)
    (lams0 : Fin k → K) : ∃ e, o.solve x0 k lams0 = .error e := by
  have e : o = ((TunedSolver.new C S b).assign .setup).assign (.hessApprox .bfgs) := by
    generalize hp : ([.setup, .hessApprox .bfgs] : List (TuneOp X K n m)) = p at h
    cases h with
    | nil => cases hp
    | @snoc ops o' op _ h h' =>
      have hp := List.append_inj' (show [TuneOp.setup] ++ [.hessApprox .bfgs] = ops ++ [op] from hp) rfl
      obtain ⟨rfl, hop⟩ := hp
      cases (List.cons.inj hop).1
      cases h'
      generalize hq : ([.setup] : List (TuneOp X K n m)) = q at h
      cases h with
      | nil => cases hq
      | @snoc ops2 o2 op2 _ h h' =>
        have hq := List.append_inj' (show [] ++ [TuneOp.setup] = ops2 ++ [op2] from hq) rfl
        obtain ⟨rfl, hop⟩ := hq
        cases (List.cons.inj hop).1
        cases h'
        generalize hr : ([] : List (TuneOp X K n m)) = r at h
        cases h with
        | nil => rfl
        | snoc _ _ => exact absurd hr.symm (by simp)
  refine ⟨"Cannot initialize an invalid BFGSStrategy. Use the constructor with num_vars first.", ?_⟩
  rw [e, TunedSolver.solve, if_pos]
  refine ⟨rfl, rfl, ?_, ?_, hi, ho⟩
  · exact (congrArg Bfgs.isInit (if_neg hC)).trans rfl
  · exact (congrArg Bfgs.isValid (if_neg hC)).trans rfl

/-- the demo problem and settings qualify -/
example : (Demo.quarter .exact .classic).approx ≠ .bfgs ∧ 0 < Demo.oneIter.maxIters ∧ 0 < Demo.oneIter.maxAlIters ∧
    ∃ o, TunedSolver.Runs (.new (Demo.quarter .exact .classic) Demo.oneIter Demo.backend1) [.setup, .hessApprox .bfgs] o :=
  ⟨by decide, by decide, by decide, _, TunedSolver.Runs.snoc (TunedSolver.Runs.snoc (.nil _) (.assign _ .setup (by intro _ _ _ h; cases h)))
    (.assign _ (.hessApprox .bfgs) (by intro _ _ _ h; cases h))⟩

end ProxNLP
