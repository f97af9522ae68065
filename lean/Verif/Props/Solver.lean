import Verif.Spec.Solver
import Verif.Lemmas.SolverEval
import Mathlib.Tactic.NormNum
import Mathlib.Tactic.Ring
import Mathlib.Tactic.FinCases

/-!
C13-C19, C65: control flow of `ProxNLPSolver::solve`.

Every theorem quantifies over the problem, the manifold operations and the whole step computation
(`Ctx`, including `Ctx.step`), over all settings and over the (arbitrary) state left by earlier calls.
-/

set_option linter.unusedSectionVars false
namespace ProxNLP

variable {X K H : Type} {n m : ℕ} [Field K] [LinearOrder K] [IsStrictOrderedRing K]

/-! ### Concrete problems used as witnesses -/

namespace Demo

/-- settings with the default structure, `pow` replaced by the constant 1 -/
def settings (tol mu : ℚ) (mode : MulMode) (maxIters maxAl : ℕ) : Settings ℚ :=
  { targetTol := tol, muInit := mu, rhoInit := 0, muLower := 1 / 1000000000, muUpper := 1, innerTol0 := 1 / 10,
    primTol0 := 1, innerTolMin := 1 / 1000000000, pdalBeta := 1 / 2, primAlpha := 1 / 10, primBeta := 9 / 10,
    dualAlpha := 1, dualBeta := 1, muUpdateFactor := 1 / 100, rhoUpdateFactor := 1, maxIters := maxIters,
    maxAlIters := maxAl, mode := mode, kkt := .classic, pow := fun _ _ => 1 }

/-- minimise 0 subject to `x = 0` (one variable, one equality constraint); the step goes to 0 -/
def eqProblem : Ctx ℚ ℚ Unit 1 1 :=
  { eval := fun x => some (0, fun _ => x), grad := fun _ _ => 0, jac := fun _ _ _ => 1,
    sets := StackedSet.ofLeaves fun _ => (.equality, 0), neutral := 0,
    proxVal := fun rho t x => rho * (x - t) ^ 2 / 2, proxGrad := fun rho t x _ => rho * (x - t),
    updHess := fun _ _ _ _ => (), enterInner := fun h => h,
    step := fun i => .ok ⟨0, i.lam, 0, i.ev.lamsPlus, i.ev.lamsPdal, ()⟩ }

/-- minimise `x` without constraints (unbounded); each step subtracts 1 -/
def linProblem : Ctx ℚ ℚ Unit 1 0 :=
  { eval := fun x => some (x, Fin.elim0), grad := fun _ _ => 1, jac := fun _ i => i.elim0,
    sets := StackedSet.ofLeaves fun i => i.elim0, neutral := 0,
    proxVal := fun rho t x => rho * (x - t) ^ 2 / 2, proxGrad := fun rho t x _ => rho * (x - t),
    updHess := fun _ _ _ _ => (), enterInner := fun h => h,
    step := fun i => .ok ⟨i.x - 1, Fin.elim0, i.x - 1, Fin.elim0, Fin.elim0, ()⟩ }

/-- a solver after `setup()` -/
def ready {n m : ℕ} (P : Ctx ℚ ℚ Unit n m) (S : Settings ℚ) : St ℚ ℚ Unit m := setup P () (St.fresh P S ())

end Demo

/-! ### C13: SUCCESS certifies -/

/-- invariant of the outer loop -/
structure OuterInv (S : Settings K) (st : St X K H m) : Prop where
  setMu : st.setMu = st.mu
  primTol : S.targetTol ≤ st.primTol
  innerTol : S.innerTolMin ≤ st.innerTol

theorem initSolve_inv (S : Settings K) (st : St X K H m) (x0 : X) (k : ℕ) (l : Fin k → K) :
    OuterInv S (initSolve S st x0 k l) := by
  obtain ⟨_, _, _, _, _, _, _, h1, h2, _, _, _, _, _, h3, h4⟩ := initSolve_outerLog S st x0 k l
  exact ⟨by rw [h1, h2], by rw [h3]; exact le_max_right _ _, by rw [h4]; exact le_max_right _ _⟩

theorem nextOuter_inv (P : Ctx X K H n m) (S : Settings K) (st st1 : St X K H m) (h : OuterInv S st)
    (hin : innerLoop P S (startOuter P st) = .ok st1) : OuterInv S (nextOuter S st st1) := by
  have hl := nextOuter_link P S st st1 hin
  refine ⟨hl.setMu h.setMu, ?_, ?_⟩
  · have := hl.primTol
    show S.targetTol ≤ (nextOuter S st st1).outerRec.primTol
    rw [this]; split <;> exact le_max_right _ _
  · have := hl.innerTol
    show S.innerTolMin ≤ (nextOuter S st st1).outerRec.innerTol
    rw [this]; split <;> exact le_max_right _ _

theorem evalAt_data (P : Ctx X K H n m) (S : Settings K) (mu setMu rho : K) (target x : X)
    (lam lamPrev : Fin m → K) (ev : EvalOut K n m)
    (h : evalAt P S mu setMu rho target x lam lamPrev = some ev) :
    ∃ f c, P.eval x = some (f, c) ∧ ev.prim = primResidual P.sets mu setMu c lam ∧
      ev.dual = dualResidual (P.grad x) (P.jac x) lam := by
  unfold evalAt at h
  rw [Option.map_eq_some_iff] at h
  obtain ⟨⟨f, c⟩, hf, he⟩ := h
  subst he
  exact ⟨f, c, hf, rfl, rfl⟩

theorem certified_of_eval (P : Ctx X K H n m) (S : Settings K) (mu rho : K) (target x : X)
    (lam lamPrev : Fin m → K) (ev : EvalOut K n m) (tol : K)
    (h : evalAt P S mu mu rho target x lam lamPrev = some ev) (ht : max ev.prim ev.dual < tol) :
    Spec.Certified P mu tol x lam := by
  obtain ⟨f, c, hf, hp, hd⟩ := evalAt_data P S _ _ _ _ _ _ _ ev h
  rw [hp, hd, max_lt_iff] at ht
  exact ⟨f, c, hf, ((inftyNorm_lt_iff _ _).1 ht.1).2, ((inftyNorm_lt_iff _ _).1 ht.2).2⟩

/-- If `solve` returns SUCCESS, then the returned point together with SOME multipliers `lam` satisfies the
first-order conditions to the target tolerance at the reported penalty; in mode NEWTON (the default) those
multipliers are the returned ones. -/
theorem success_certified (P : Ctx X K H n m) (S : Settings K) (st st' : St X K H m)
    (h : outerLoop P S st = .ok st') (hi : OuterInv S st) (hc : st.converged ≠ .success)
    (hs : st'.converged = .success) :
    ∃ lam, Spec.Certified P st'.resMu S.targetTol st'.xOpt lam ∧ (S.mode = .newton → lam = st'.lamsOpt) := by
  refine outerLoop_ind P S (R := fun st st' => OuterInv S st → st.converged ≠ .success →
    st'.converged = .success → ∃ lam, Spec.Certified P st'.resMu S.targetTol st'.xOpt lam ∧
      (S.mode = .newton → lam = st'.lamsOpt)) ?_ ?_ ?_ st st' h hi hc hs
  · intro st _ _ h1 h2; exact absurd h2 h1
  · intro st st1 _ _ hin ht hi hc _
    have hf := innerLoop_frame P S _ _ hin
    rw [afterInner_prim, afterInner_dual] at ht
    rcases innerLoop_exit P S _ _ hin with ⟨_, _, ev, hev, _, hp, hd, _⟩ | ⟨_, _, hgt⟩
    · refine ⟨st1.lamsOpt, ?_, ?_⟩
      · show Spec.Certified P (afterInner S st1).resMu _ (afterInner S st1).xOpt _
        rw [afterInner_resMu, afterInner_xOpt, hf.resMu]
        have hmu : st1.mu = st.mu := hf.mu
        have hsm : st1.setMu = st.mu := hf.setMu.trans hi.setMu
        show Spec.Certified P st.mu _ _ _
        unfold evalSt at hev
        rw [hmu, hsm] at hev
        exact certified_of_eval P S st.mu _ _ _ _ _ ev _ hev (by rw [← hp, ← hd]; exact ht)
      · intro hm
        refine (afterInner_lams_of_lt S st1 ?_ hm).symm
        have : st1.primTol = st.primTol := hf.primTol
        rw [this]
        exact lt_of_lt_of_le (lt_of_le_of_lt (le_max_left _ _) ht) hi.primTol
    · exact absurd ht (not_lt.2 hgt.le)
  · intro st st1 st' _ _ hin ht _ ih hi hc hs
    refine ih (nextOuter_inv P S st st1 hi hin) ?_ hs
    show (afterInner S st1).converged ≠ _
    rw [afterInner_converged]
    rcases innerLoop_exit P S _ _ hin with ⟨h1, _⟩ | ⟨h1, _⟩
    · rw [h1]; exact hc
    · rw [h1]; simp

/-- **C13 (partial: multiplier update mode NEWTON, the default).**  Full statement: in every multiplier update
mode, SUCCESS implies that the residuals recomputed at the returned point, the returned multipliers and the
reported penalty are below the target tolerance.  Missing: modes PRIMAL and PRIMAL_DUAL, for which the
statement is false (`C13_success_certifies_false`). -/
theorem C13_success_certifies_partial (P : Ctx X K H n m) (S : Settings K) (st st' : St X K H m) (x0 : X)
    (k : ℕ) (lams0 : Fin k → K) (hmode : S.mode = .newton)
    (h : solve P S st x0 k lams0 = .ok st') (hs : st'.converged = .success) :
    Spec.Certified P st'.resMu S.targetTol st'.xOpt st'.lamsOpt := by
  obtain ⟨_, stf, hf, rfl⟩ := solve_ok P S st x0 k lams0 st' h
  have hinit := initSolve_outerLog S st x0 k lams0
  obtain ⟨lam, h1, h2⟩ := success_certified P S _ stf hf (initSolve_inv S st x0 k lams0)
    (by rw [hinit.2.2.2.2.2.2.1]; simp) hs
  have := h2 hmode
  subst this
  exact h1

/-- **C13, all modes:** the returned point is certified by some multipliers (those at which the residuals were
last evaluated). -/
theorem C13_success_certifies_point (P : Ctx X K H n m) (S : Settings K) (st st' : St X K H m) (x0 : X)
    (k : ℕ) (lams0 : Fin k → K)
    (h : solve P S st x0 k lams0 = .ok st') (hs : st'.converged = .success) :
    ∃ lam, Spec.Certified P st'.resMu S.targetTol st'.xOpt lam := by
  obtain ⟨_, stf, hf, rfl⟩ := solve_ok P S st x0 k lams0 st' h
  have hinit := initSolve_outerLog S st x0 k lams0
  obtain ⟨lam, h1, _⟩ := success_certified P S _ stf hf (initSolve_inv S st x0 k lams0)
    (by rw [hinit.2.2.2.2.2.2.1]; simp) hs
  exact ⟨lam, h1⟩

/-- non-vacuity: a solve that takes one step and returns SUCCESS in mode NEWTON -/
example : ∃ st', solve Demo.eqProblem (Demo.settings (1 / 100) (1 / 100) .newton 10 10)
    (Demo.ready Demo.eqProblem (Demo.settings (1 / 100) (1 / 100) .newton 10 10)) 3 1 (fun _ => 0) = .ok st' ∧
    st'.converged = .success ∧ st'.numIters = 1 := by
  obtain ⟨st', h, hp⟩ := checkSolve_sound Demo.eqProblem (Demo.settings (1 / 100) (1 / 100) .newton 10 10) 20
    (Demo.ready Demo.eqProblem (Demo.settings (1 / 100) (1 / 100) .newton 10 10)) 3 1 (fun _ => 0)
    (fun s => decide (s.converged = .success ∧ s.numIters = 1)) (by decide +kernel)
  exact ⟨st', h, of_decide_eq_true hp⟩

/-- **C13 is false in modes PRIMAL and PRIMAL_DUAL**: `minimise 0 s.t. x = 0` from `x0 = 1/2` with target
tolerance 1 returns SUCCESS with multipliers whose dual residual is at least 50. -/
theorem C13_success_certifies_false (mode : MulMode) (hm : mode ≠ .newton) :
    ∃ st', solve Demo.eqProblem (Demo.settings 1 (1 / 100) mode 10 10)
        (Demo.ready Demo.eqProblem (Demo.settings 1 (1 / 100) mode 10 10)) (1 / 2) 1 (fun _ => 0) = .ok st' ∧
      st'.converged = .success ∧ ¬ Spec.Certified Demo.eqProblem st'.resMu 1 st'.xOpt st'.lamsOpt := by
  obtain ⟨st', h, hp⟩ := checkSolve_sound Demo.eqProblem (Demo.settings 1 (1 / 100) mode 10 10) 20
    (Demo.ready Demo.eqProblem (Demo.settings 1 (1 / 100) mode 10 10)) (1 / 2) 1 (fun _ => 0)
    (fun s => decide (s.converged = .success ∧ 50 ≤ s.lamsOpt 0))
    (by cases mode <;> first | exact absurd rfl hm | decide +kernel)
  have hp := of_decide_eq_true hp
  refine ⟨st', h, hp.1, ?_⟩
  rintro ⟨f, c, _, _, hd⟩
  have := hd 0
  simp only [Demo.eqProblem, Fin.isValue, Finset.univ_unique, Fin.default_eq_zero, Finset.sum_singleton] at this
  have := (abs_lt.1 this).2
  linarith [hp.2]

/-! ### C14: budgets -/

theorem outer_budget (P : Ctx X K H n m) (S : Settings K) (st st' : St X K H m)
    (h : outerLoop P S st = .ok st') :
    st.numIters ≤ S.maxIters → st.alIters ≤ S.maxAlIters → st.outerLog.length = st.alIters →
    st'.numIters ≤ S.maxIters ∧ st'.alIters ≤ S.maxAlIters ∧ st'.outerLog.length ≤ S.maxAlIters ∧
    (st'.outerLog.length = st'.alIters ∨ st'.outerLog.length = st'.alIters + 1) := by
  refine outerLoop_ind P S (R := fun st st' =>
    st.numIters ≤ S.maxIters → st.alIters ≤ S.maxAlIters → st.outerLog.length = st.alIters →
    st'.numIters ≤ S.maxIters ∧ st'.alIters ≤ S.maxAlIters ∧ st'.outerLog.length ≤ S.maxAlIters ∧
    (st'.outerLog.length = st'.alIters ∨ st'.outerLog.length = st'.alIters + 1)) ?_ ?_ ?_ st st' h
  · intro st _ h1 h2 h3
    exact ⟨h1, h2, by omega, Or.inl h3⟩
  · intro st st1 hn ha hin _ h1 h2 h3
    have hf := innerLoop_frame P S _ _ hin
    have hni := (innerLoop_numIters P S _ _ hin).2 hn
    have hal : st1.alIters = st.alIters := hf.alIters
    have hlog : (afterInner S st1).outerLog.length = st.outerLog.length + 1 := by
      rw [afterInner_outerLog, hf.outerLog]; simp [startOuter]
    refine ⟨?_, ?_, ?_, ?_⟩
    · show (afterInner S st1).numIters ≤ _
      rw [afterInner_numIters]; exact hni
    · show (afterInner S st1).alIters ≤ _
      rw [afterInner_alIters]; omega
    · show (afterInner S st1).outerLog.length ≤ _
      omega
    · right
      show (afterInner S st1).outerLog.length = (afterInner S st1).alIters + 1
      rw [hlog, afterInner_alIters]; omega
  · intro st st1 st' hn ha hin _ _ ih h1 h2 h3
    have hf := innerLoop_frame P S _ _ hin
    have hni := (innerLoop_numIters P S _ _ hin).2 hn
    have hlog : (afterInner S st1).outerLog.length = st.outerLog.length + 1 := by
      rw [afterInner_outerLog, hf.outerLog]; simp [startOuter]
    refine ih ?_ ?_ ?_
    · show (afterInner S st1).numIters ≤ _
      rw [afterInner_numIters]; exact hni
    · show st.alIters + 1 ≤ _
      omega
    · show (afterInner S st1).outerLog.length = st.alIters + 1
      omega

/-- accepted iterates are counted by `numIters`, callbacks run once per accepted iterate -/
theorem outer_trace (P : Ctx X K H n m) (S : Settings K) (st st' : St X K H m)
    (h : outerLoop P S st = .ok st') :
    ∃ snaps : List (Snap X K m),
      st'.trace = st.trace ++ snaps.flatMap (fun s => st.callbacks.map fun cb => (cb, s)) ∧
      st'.accepted = st.accepted ++ snaps.map (fun s => (s.x, s.lam)) ∧
      st'.numIters = st.numIters + snaps.length ∧
      (∀ k s, snaps[k]? = some s → s.numIters = st.numIters + k) ∧
      (∀ s, snaps.getLast? = some s → s.x = st'.xOpt) ∧
      (snaps = [] → st'.xOpt = st.xOpt) ∧
      st'.callbacks = st.callbacks := by
  refine outerLoop_ind P S (R := fun st st' => ∃ snaps : List (Snap X K m),
      st'.trace = st.trace ++ snaps.flatMap (fun s => st.callbacks.map fun cb => (cb, s)) ∧
      st'.accepted = st.accepted ++ snaps.map (fun s => (s.x, s.lam)) ∧
      st'.numIters = st.numIters + snaps.length ∧
      (∀ k s, snaps[k]? = some s → s.numIters = st.numIters + k) ∧
      (∀ s, snaps.getLast? = some s → s.x = st'.xOpt) ∧
      (snaps = [] → st'.xOpt = st.xOpt) ∧
      st'.callbacks = st.callbacks) ?_ ?_ ?_ st st' h
  · intro st _
    exact ⟨[], by simp, by simp, by simp, by simp, by simp, by simp, rfl⟩
  · intro st st1 _ _ hin _
    have hf := innerLoop_frame P S _ _ hin
    obtain ⟨snaps, h1, h2, h3, h4, h5, h6⟩ := innerLoop_trace P S _ _ hin
    refine ⟨snaps, ?_, ?_, ?_, h4, ?_, ?_, ?_⟩
    · show (afterInner S st1).trace = _
      rw [afterInner_trace, h1]; rfl
    · show (afterInner S st1).accepted = _
      rw [afterInner_accepted, h2]; rfl
    · show (afterInner S st1).numIters = _
      rw [afterInner_numIters, h3]; rfl
    · intro s hs
      show _ = (afterInner S st1).xOpt
      rw [afterInner_xOpt]; exact (h5 s hs).1
    · intro hs
      show (afterInner S st1).xOpt = _
      rw [afterInner_xOpt]; exact (h6 hs).1
    · show (afterInner S st1).callbacks = _
      rw [afterInner_callbacks, hf.callbacks]; rfl
  · intro st st1 st' _ _ hin _ _ ih
    have hf := innerLoop_frame P S _ _ hin
    obtain ⟨snaps, h1, h2, h3, h4, h5, h6⟩ := innerLoop_trace P S _ _ hin
    obtain ⟨snaps', g1, g2, g3, g4, g5, g6, g7⟩ := ih
    have ecb : (nextOuter S st st1).callbacks = st.callbacks := by
      show (afterInner S st1).callbacks = _
      rw [afterInner_callbacks, hf.callbacks]; rfl
    have etr : (nextOuter S st st1).trace = st1.trace := afterInner_trace S st1
    have eac : (nextOuter S st st1).accepted = st1.accepted := afterInner_accepted S st1
    have eni : (nextOuter S st st1).numIters = st1.numIters := afterInner_numIters S st1
    have ex : (nextOuter S st st1).xOpt = st1.xOpt := afterInner_xOpt S st1
    refine ⟨snaps ++ snaps', ?_, ?_, ?_, ?_, ?_, ?_, ?_⟩
    · rw [g1, ecb, etr, h1, List.flatMap_append, List.append_assoc]; rfl
    · rw [g2, eac, h2, List.map_append, List.append_assoc]; rfl
    · rw [g3, eni, h3, List.length_append, Nat.add_assoc]; rfl
    · intro k s hs
      by_cases hk : k < snaps.length
      · rw [List.getElem?_append_left hk] at hs
        exact h4 k s hs
      · rw [List.getElem?_append_right (by omega)] at hs
        rw [g4 _ s hs, eni, h3]
        show st.numIters + _ + _ = _
        omega
    · intro s hs
      rcases snaps' with _ | ⟨a, t⟩
      · rw [g6 rfl, ex]
        exact (h5 s (by simpa using hs)).1
      · refine g5 s ?_
        rw [List.getLast?_append] at hs
        simpa using hs
    · intro hs
      obtain ⟨e1, e2⟩ := List.append_eq_nil_iff.1 hs
      rw [g6 e2, ex]; exact (h6 e1).1
    · rw [g7, ecb]

/-- **C14.** `solve` (a total function for every step computation) accepts at most `max_iters` steps, starts at
most `max_al_iters` outer iterations, and reports counters obeying these bounds; the reported step counter is the
number of accepted iterates. -/
theorem C14_budgets (P : Ctx X K H n m) (S : Settings K) (st st' : St X K H m) (x0 : X)
    (k : ℕ) (lams0 : Fin k → K) (h : solve P S st x0 k lams0 = .ok st') :
    st'.numIters ≤ S.maxIters ∧ st'.accepted.length = st'.numIters ∧
    st'.alIters ≤ S.maxAlIters ∧ st'.outerLog.length ≤ S.maxAlIters ∧
    (st'.outerLog.length = st'.alIters ∨ st'.outerLog.length = st'.alIters + 1) := by
  obtain ⟨_, stf, hf, rfl⟩ := solve_ok P S st x0 k lams0 st' h
  obtain ⟨i1, i2, i3, i4, i5, i6, _⟩ := initSolve_outerLog S st x0 k lams0
  obtain ⟨h1, h2, h3, h4⟩ := outer_budget P S _ stf hf (by rw [i5]; omega) (by rw [i6]; omega) (by rw [i1, i6]; rfl)
  obtain ⟨snaps, _, g2, g3, _⟩ := outer_trace P S _ stf hf
  refine ⟨h1, ?_, h2, h3, h4⟩
  show stf.accepted.length = stf.numIters
  rw [g2, g3, i4, i5]; simp

/-- non-vacuity: an execution that uses up the whole step budget -/
example : ∃ st', solve Demo.linProblem (Demo.settings (1 / 2) (1 / 100) .newton 5 10)
    (Demo.ready Demo.linProblem (Demo.settings (1 / 2) (1 / 100) .newton 5 10)) 0 0 Fin.elim0 = .ok st' ∧
    st'.numIters = 5 ∧ st'.converged = .maxIters := by
  obtain ⟨st', h, hp⟩ := checkSolve_sound Demo.linProblem (Demo.settings (1 / 2) (1 / 100) .newton 5 10) 30
    (Demo.ready Demo.linProblem (Demo.settings (1 / 2) (1 / 100) .newton 5 10)) 0 0 Fin.elim0
    (fun s => decide (s.numIters = 5 ∧ s.converged = .maxIters)) (by decide +kernel)
  exact ⟨st', h, of_decide_eq_true hp⟩

/-! ### C15, C16: the returned flag -/

/-- The reported residuals and the flag, for every way the outer loop can end. -/
theorem outer_flag (P : Ctx X K H n m) (S : Settings K) (st st' : St X K H m)
    (h : outerLoop P S st = .ok st') :
    st.numIters ≤ S.maxIters → st.alIters ≤ S.maxAlIters →
    (st.converged = .uninit ∧ st.numIters < S.maxIters ∨ st.converged = .uninit ∧ S.maxIters = 0 ∨
      st.converged = .maxIters ∧ st.numIters = S.maxIters ∧ 0 < S.maxIters ∧ S.targetTol < max st.prim st.dual) →
    (∀ e ∈ st.endLog, S.targetTol ≤ max e.prim e.dual) →
    (st'.converged = .success ∧ 0 < S.maxIters ∧ max st'.prim st'.dual < S.targetTol ∧
        (∀ e ∈ st'.endLog.dropLast, S.targetTol ≤ max e.prim e.dual) ∧
        st'.endLog.getLast? = some ⟨st'.prim, st'.dual, st'.xOpt⟩) ∨
    ((∀ e ∈ st'.endLog, S.targetTol ≤ max e.prim e.dual) ∧
      ((st'.converged = .maxIters ∧ st'.numIters = S.maxIters ∧ 0 < S.maxIters ∧
          S.targetTol < max st'.prim st'.dual) ∨
       (st'.converged = .uninit ∧ (S.maxIters = 0 ∨ st'.numIters < S.maxIters ∧ st'.alIters = S.maxAlIters)))) := by
  refine outerLoop_ind P S (R := fun st st' =>
    st.numIters ≤ S.maxIters → st.alIters ≤ S.maxAlIters →
    (st.converged = .uninit ∧ st.numIters < S.maxIters ∨ st.converged = .uninit ∧ S.maxIters = 0 ∨
      st.converged = .maxIters ∧ st.numIters = S.maxIters ∧ 0 < S.maxIters ∧ S.targetTol < max st.prim st.dual) →
    (∀ e ∈ st.endLog, S.targetTol ≤ max e.prim e.dual) →
    (st'.converged = .success ∧ 0 < S.maxIters ∧ max st'.prim st'.dual < S.targetTol ∧
        (∀ e ∈ st'.endLog.dropLast, S.targetTol ≤ max e.prim e.dual) ∧
        st'.endLog.getLast? = some ⟨st'.prim, st'.dual, st'.xOpt⟩) ∨
    ((∀ e ∈ st'.endLog, S.targetTol ≤ max e.prim e.dual) ∧
      ((st'.converged = .maxIters ∧ st'.numIters = S.maxIters ∧ 0 < S.maxIters ∧
          S.targetTol < max st'.prim st'.dual) ∨
       (st'.converged = .uninit ∧ (S.maxIters = 0 ∨ st'.numIters < S.maxIters ∧ st'.alIters = S.maxAlIters)))))
    ?_ ?_ ?_ st st' h
  · intro st hend h1 h2 h3 h4
    refine Or.inr ⟨h4, ?_⟩
    rcases h3 with ⟨a, b⟩ | ⟨a, b⟩ | ⟨a, b, c, d⟩
    · refine Or.inr ⟨a, Or.inr ⟨b, ?_⟩⟩
      by_contra hne
      exact hend ⟨b, by omega⟩
    · exact Or.inr ⟨a, Or.inl b⟩
    · exact Or.inl ⟨a, b, c, d⟩
  · intro st st1 hn ha hin ht h1 h2 h3 h4
    have hf := innerLoop_frame P S _ _ hin
    refine Or.inl ⟨rfl, by omega, ht, ?_, ?_⟩
    · show ∀ e ∈ (afterInner S st1).endLog.dropLast, _
      rw [afterInner_endLog, hf.endLog, List.dropLast_concat]; exact h4
    · show (afterInner S st1).endLog.getLast? = _
      rw [afterInner_endLog, List.getLast?_concat]
      show _ = some (⟨(afterInner S st1).prim, (afterInner S st1).dual, (afterInner S st1).xOpt⟩ : EndRec X K)
      rw [afterInner_prim, afterInner_dual, afterInner_xOpt]
  · intro st st1 st' hn ha hin ht _ ih h1 h2 h3 h4
    have hf := innerLoop_frame P S _ _ hin
    have hni := (innerLoop_numIters P S _ _ hin).2 hn
    refine ih ?_ ?_ ?_ ?_
    · show (afterInner S st1).numIters ≤ _
      rw [afterInner_numIters]; exact hni
    · show st.alIters + 1 ≤ _
      omega
    · show (afterInner S st1).converged = _ ∧ (afterInner S st1).numIters < _ ∨
        (afterInner S st1).converged = _ ∧ _ ∨ (afterInner S st1).converged = _ ∧ (afterInner S st1).numIters = _ ∧
        _ ∧ _ < max (afterInner S st1).prim (afterInner S st1).dual
      rw [afterInner_converged, afterInner_numIters, afterInner_prim, afterInner_dual]
      rcases innerLoop_exit P S _ _ hin with ⟨e1, e2, _⟩ | ⟨e1, e2, e3⟩
      · left
        refine ⟨?_, e2 hn⟩
        rw [e1]
        rcases h3 with ⟨a, b⟩ | ⟨a, b⟩ | ⟨a, b, _⟩
        · exact a
        · omega
        · omega
      · exact Or.inr (Or.inr ⟨e1, le_antisymm hni e2, by omega, e3⟩)
    · show ∀ e ∈ (afterInner S st1).endLog, _
      rw [afterInner_endLog, hf.endLog]
      intro e he
      rcases List.mem_append.1 he with he | he
      · exact h4 e he
      · rw [afterInner_prim, afterInner_dual, not_lt] at ht
        simp only [List.mem_singleton] at he
        subst he; exact ht

theorem solve_flag (P : Ctx X K H n m) (S : Settings K) (st st' : St X K H m) (x0 : X)
    (k : ℕ) (lams0 : Fin k → K) (h : solve P S st x0 k lams0 = .ok st') :
    (st'.converged = .success ∧ 0 < S.maxIters ∧ max st'.prim st'.dual < S.targetTol ∧
        (∀ e ∈ st'.endLog.dropLast, S.targetTol ≤ max e.prim e.dual) ∧
        st'.endLog.getLast? = some ⟨st'.prim, st'.dual, st'.xOpt⟩) ∨
    ((∀ e ∈ st'.endLog, S.targetTol ≤ max e.prim e.dual) ∧
      ((st'.converged = .maxIters ∧ st'.numIters = S.maxIters ∧ 0 < S.maxIters ∧
          S.targetTol < max st'.prim st'.dual) ∨
       (st'.converged = .uninit ∧ (S.maxIters = 0 ∨ st'.numIters < S.maxIters ∧ st'.alIters = S.maxAlIters)))) := by
  obtain ⟨_, stf, hf, rfl⟩ := solve_ok P S st x0 k lams0 st' h
  obtain ⟨_, i2, _, _, i5, i6, i7, _⟩ := initSolve_outerLog S st x0 k lams0
  refine outer_flag P S _ stf hf (by rw [i5]; omega) (by rw [i6]; omega) ?_ (by rw [i2]; simp)
  rw [i7, i5]
  rcases Nat.eq_zero_or_pos S.maxIters with h0 | h0
  · exact Or.inr (Or.inl ⟨rfl, h0⟩)
  · exact Or.inl ⟨rfl, h0⟩

/-- The full claim C15: MAX_ITERS_REACHED exactly when the step budget is used up without success, and the flag
is one of SUCCESS and MAX_ITERS_REACHED. -/
def Spec.FlagTruthful (S : Settings K) (st' : St X K H m) : Prop :=
  (st'.converged = .maxIters ↔ st'.numIters = S.maxIters ∧ st'.converged ≠ .success) ∧
  (st'.converged = .success → max st'.prim st'.dual < S.targetTol) ∧
  st'.converged ≠ .uninit

/-- **C15 (partial).**  Full statement: `Spec.FlagTruthful` for every execution; false, see
`C15_flag_truth_false`.  Proved: it holds except when the step budget is zero or the outer budget is exhausted
with steps left, and in exactly these cases the flag is UNINIT. -/
theorem C15_flag_truth_partial (P : Ctx X K H n m) (S : Settings K) (st st' : St X K H m) (x0 : X)
    (k : ℕ) (lams0 : Fin k → K) (h : solve P S st x0 k lams0 = .ok st') :
    (st'.converged = .success → max st'.prim st'.dual < S.targetTol) ∧
    (st'.converged = .maxIters → S.targetTol < max st'.prim st'.dual) ∧
    (0 < S.maxIters → (st'.converged = .maxIters ↔ st'.numIters = S.maxIters ∧ st'.converged ≠ .success)) ∧
    (st'.converged = .uninit → S.maxIters = 0 ∨ st'.numIters < S.maxIters ∧ st'.alIters = S.maxAlIters) ∧
    (st'.converged ≠ .uninit → Spec.FlagTruthful S st') := by
  have hmain := solve_flag P S st st' x0 k lams0 h
  unfold Spec.FlagTruthful
  rcases hmain with ⟨a, b, c, _⟩ | ⟨_, ⟨a, b, c, d⟩ | ⟨a, b⟩⟩
  · simp [a, c]
  · simp [a, b, d]
  · refine ⟨by simp [a], by simp [a], ?_, fun _ => b, fun hne => absurd a hne⟩
    intro hp
    rw [a]
    rcases b with b | b
    · omega
    · simp; omega

/-- **C15 is false**: with an exhausted outer budget (here `max_al_iters = 3`, 100 steps allowed, none of them
used) `solve` returns the flag UNINIT; likewise with `max_iters = 0`. -/
theorem C15_flag_truth_false :
    (∃ st', solve Demo.eqProblem (Demo.settings (1 / 100) (1 / 100) .primal 0 10)
        (Demo.ready Demo.eqProblem (Demo.settings (1 / 100) (1 / 100) .primal 0 10)) 1 1 (fun _ => 0) = .ok st' ∧
      st'.converged = .uninit ∧ ¬ Spec.FlagTruthful (Demo.settings (1 / 100) (1 / 100) .primal 0 10) st') ∧
    (∃ st', solve Demo.eqProblem (Demo.settings (1 / 100) (1 / 100) .newton 100 3)
        (Demo.ready Demo.eqProblem (Demo.settings (1 / 100) (1 / 100) .newton 100 3)) (1 / 20) 1 (fun _ => 0) = .ok st' ∧
      st'.converged = .uninit ∧ st'.numIters = 0 ∧
      ¬ Spec.FlagTruthful (Demo.settings (1 / 100) (1 / 100) .newton 100 3) st') := by
  constructor
  · obtain ⟨st', h, hp⟩ := checkSolve_sound Demo.eqProblem (Demo.settings (1 / 100) (1 / 100) .primal 0 10) 30
      (Demo.ready Demo.eqProblem (Demo.settings (1 / 100) (1 / 100) .primal 0 10)) 1 1 (fun _ => 0)
      (fun s => decide (s.converged = .uninit)) (by decide +kernel)
    have hp := of_decide_eq_true hp
    exact ⟨st', h, hp, fun hf => hf.2.2 hp⟩
  · obtain ⟨st', h, hp⟩ := checkSolve_sound Demo.eqProblem (Demo.settings (1 / 100) (1 / 100) .newton 100 3) 30
      (Demo.ready Demo.eqProblem (Demo.settings (1 / 100) (1 / 100) .newton 100 3)) (1 / 20) 1 (fun _ => 0)
      (fun s => decide (s.converged = .uninit ∧ s.numIters = 0)) (by decide +kernel)
    have hp := of_decide_eq_true hp
    exact ⟨st', h, hp.1, hp.2, fun hf => hf.2.2 hp.1⟩

/-- **C16 (partial: strict inequality).**  Full statement: if the residuals at the return of some inner loop
meet the test `max prim dual ≤ target_tol` then `solve` returns SUCCESS.  Proved: true for `<`; SUCCESS is
returned exactly when some inner loop returned with both residuals strictly below the tolerance.
Missing: equality, for which it is false (`C16_early_stop_false`). -/
theorem C16_early_stop_partial (P : Ctx X K H n m) (S : Settings K) (st st' : St X K H m) (x0 : X)
    (k : ℕ) (lams0 : Fin k → K) (h : solve P S st x0 k lams0 = .ok st') :
    st'.converged = .success ↔ ∃ e ∈ st'.endLog, max e.prim e.dual < S.targetTol := by
  have hmain := solve_flag P S st st' x0 k lams0 h
  constructor
  · intro hs
    rcases hmain with ⟨_, _, c, _, e⟩ | ⟨_, ⟨a, _⟩ | ⟨a, _⟩⟩
    · exact ⟨_, List.mem_of_getLast? e, c⟩
    · rw [a] at hs; cases hs
    · rw [a] at hs; cases hs
  · rintro ⟨e, he, hlt⟩
    rcases hmain with ⟨a, _⟩ | ⟨a, _⟩
    · exact a
    · exact absurd hlt (not_lt.2 (a e he))

/-- the inner loop that produced the reported residuals really was the early-stopping one: both witnesses below
stop with residual equal to the tolerance and use no step at all -/
theorem C16_early_stop_false :
    ∃ st', solve Demo.linProblem (Demo.settings 1 (1 / 100) .newton 100 20)
        (Demo.ready Demo.linProblem (Demo.settings 1 (1 / 100) .newton 100 20)) 0 0 Fin.elim0 = .ok st' ∧
      (∀ e ∈ st'.endLog, max e.prim e.dual ≤ 1) ∧ st'.endLog.length = 20 ∧ st'.numIters = 0 ∧
      st'.converged = .uninit := by
  obtain ⟨st', h, hp⟩ := checkSolve_sound Demo.linProblem (Demo.settings 1 (1 / 100) .newton 100 20) 30
      (Demo.ready Demo.linProblem (Demo.settings 1 (1 / 100) .newton 100 20)) 0 0 Fin.elim0
      (fun s => decide ((∀ e ∈ s.endLog, max e.prim e.dual ≤ 1) ∧ s.endLog.length = 20 ∧ s.numIters = 0 ∧
        s.converged = .uninit)) (by decide +kernel)
  exact ⟨st', h, of_decide_eq_true hp⟩

/-- consequence: with target tolerance 0 (or negative) no execution ever returns SUCCESS, even at an exact
solution -/
theorem C16_zero_tolerance_never_succeeds (P : Ctx X K H n m) (S : Settings K) (st st' : St X K H m) (x0 : X)
    (k : ℕ) (lams0 : Fin k → K) (h : solve P S st x0 k lams0 = .ok st') (ht : S.targetTol ≤ 0) :
    st'.converged ≠ .success := by
  intro hs
  obtain ⟨hs1, stf, hf, rfl⟩ := solve_ok P S st x0 k lams0 st' h
  obtain ⟨lam, f, c, hc, h1, h2⟩ := C13_success_certifies_point P S st _ x0 k lams0 h hs
  rcases solve_flag P S st _ x0 k lams0 h with ⟨_, _, hlt, _⟩ | ⟨_, ⟨a, _⟩ | ⟨a, _⟩⟩
  · have hinit := initSolve_outerLog S st x0 k lams0
    have hge : 0 ≤ stf.prim := by
      refine outerLoop_ind P S (R := fun st st' => st.converged ≠ .success → st'.converged = .success → 0 ≤ st'.prim)
        ?_ ?_ ?_ _ stf hf (by rw [hinit.2.2.2.2.2.2.1]; simp) hs
      · intro st _ h1 h2; exact absurd h2 h1
      · intro st st1 _ _ hin ht' _ _
        show 0 ≤ (afterInner S st1).prim
        rw [afterInner_prim]
        rw [afterInner_prim, afterInner_dual] at ht'
        rcases innerLoop_exit P S _ _ hin with ⟨_, _, ev, hev, _, hp, _⟩ | ⟨_, _, hgt⟩
        · obtain ⟨f, c, _, hp', _⟩ := evalAt_data P S _ _ _ _ _ _ _ ev hev
          rw [hp, hp']; exact inftyNorm_nonneg _
        · exact absurd ht' (not_lt.2 hgt.le)
      · intro st st1 st' _ _ hin _ _ ih hc hs
        refine ih ?_ hs
        show (afterInner S st1).converged ≠ _
        rw [afterInner_converged]
        rcases innerLoop_exit P S _ _ hin with ⟨h1, _⟩ | ⟨h1, _⟩
        · rw [h1]; exact hc
        · rw [h1]; simp
    have : stf.prim < S.targetTol := lt_of_le_of_lt (le_max_left _ _) hlt
    linarith
  · rw [a] at hs; cases hs
  · rw [a] at hs; cases hs

/-! ### C17: penalty parameter -/

/-- **C17.** With `0 < mu_lower ≤ mu_init` and an update factor in `(0,1]`: every outer iteration uses a penalty in
`[mu_lower, mu_init]`, the first one uses `mu_init`, the constraint sets carry the same value, and the value changes
from an outer iteration to the next only if the former's reported primal residual did not meet its primal
tolerance. -/
theorem C17_penalty_safeguards (P : Ctx X K H n m) (S : Settings K) (st st' : St X K H m) (x0 : X)
    (k : ℕ) (lams0 : Fin k → K) (h : solve P S st x0 k lams0 = .ok st')
    (hlow : 0 < S.muLower) (hle : S.muLower ≤ S.muInit) (hf1 : S.muUpdateFactor ≤ 1) :
    (∀ r ∈ st'.outerLog, S.muLower ≤ r.mu ∧ r.mu ≤ S.muInit ∧ r.setMu = r.mu) ∧
    (∀ r, st'.outerLog[0]? = some r → r.mu = S.muInit) ∧
    (∀ i r e r', st'.outerLog[i]? = some r → st'.endLog[i]? = some e → st'.outerLog[i + 1]? = some r' →
      r'.mu ≠ r.mu → r.primTol ≤ e.prim) ∧
    st'.endLog.length = st'.outerLog.length := by
  obtain ⟨_, stf, hf, rfl⟩ := solve_ok P S st x0 k lams0 st' h
  obtain ⟨i1, i2, _, _, _, _, _, i8, i9, _⟩ := initSolve_outerLog S st x0 k lams0
  obtain ⟨a, b, c, _⟩ := outerLoop_links P S _ stf hf (by rw [i1, i2]; rfl) (by rw [i2]; intro k r e r' _ h; simp at h)
  have hlen : stf.endLog.length = stf.outerLog.length := a
  have hfirst : ∀ r : OuterRec X K, stf.outerLog[0]? = some r → r.mu = S.muInit ∧ r.setMu = S.muInit := by
    intro r hr; rw [c i1 r hr]; exact ⟨i8, i9⟩
  have hall : ∀ (i : ℕ) (r : OuterRec X K), stf.outerLog[i]? = some r → S.muLower ≤ r.mu ∧ r.mu ≤ S.muInit ∧ r.setMu = r.mu := by
    intro i
    induction i with
    | zero =>
      intro r hr
      obtain ⟨e1, e2⟩ := hfirst r hr
      rw [e1, e2]; exact ⟨hle, le_rfl, rfl⟩
    | succ i ih =>
      intro r' hr'
      have hlt := (List.getElem?_eq_some_iff.1 hr').1
      have hr : stf.outerLog[i]? = some stf.outerLog[i] := List.getElem?_eq_getElem _
      have he : stf.endLog[i]? = some stf.endLog[i] := List.getElem?_eq_getElem _
      obtain ⟨q1, q2, q3⟩ := ih _ hr
      have hl := b i _ _ r' hr he hr'
      refine ⟨?_, ?_, hl.setMu q3⟩
      · rw [hl.mu]; split
        · exact q1
        · split
          · exact hle
          · exact le_max_right _ _
      · rw [hl.mu]; split
        · exact q2
        · split
          · exact le_rfl
          · refine max_le ?_ hle
            exact le_trans (mul_le_of_le_one_right (hlow.le.trans q1) hf1) q2
  refine ⟨?_, fun r hr => (hfirst r hr).1, ?_, hlen⟩
  · intro r hr
    obtain ⟨i, hi⟩ := List.getElem?_of_mem hr
    exact hall i r hi
  · intro i r e r' h1 h2 h3 hne
    have hl := b i r e r' h1 h2 h3
    by_contra hc
    rw [not_le] at hc
    exact hne (by rw [hl.mu, if_pos hc])

/-- **C17, what the next value is:** an infeasible iteration multiplies the penalty by the update factor, floored at
`mu_lower` — except at the floor itself, where it is reset to `mu_init`. -/
theorem C17_penalty_update (P : Ctx X K H n m) (S : Settings K) (st st' : St X K H m) (x0 : X)
    (k : ℕ) (lams0 : Fin k → K) (h : solve P S st x0 k lams0 = .ok st') (i : ℕ) (r : OuterRec X K)
    (e : EndRec X K) (r' : OuterRec X K) (h1 : st'.outerLog[i]? = some r) (h2 : st'.endLog[i]? = some e)
    (h3 : st'.outerLog[i + 1]? = some r') :
    (e.prim < r.primTol → r'.mu = r.mu) ∧
    (r.primTol ≤ e.prim → r.mu ≠ S.muLower → r'.mu = max (r.mu * S.muUpdateFactor) S.muLower) ∧
    (r.primTol ≤ e.prim → r.mu = S.muLower → r'.mu = S.muInit) := by
  obtain ⟨_, stf, hf, rfl⟩ := solve_ok P S st x0 k lams0 st' h
  obtain ⟨i1, i2, _⟩ := initSolve_outerLog S st x0 k lams0
  obtain ⟨_, b, _⟩ := outerLoop_links P S _ stf hf (by rw [i1, i2]; rfl) (by rw [i2]; intro k r e r' _ h; simp at h)
  have hl := (b i r e r' h1 h2 h3).mu
  refine ⟨fun hc => by rw [hl, if_pos hc], fun hc hm => by rw [hl, if_neg (not_lt.2 hc), if_neg hm],
    fun hc hm => by rw [hl, if_neg (not_lt.2 hc), if_pos hm]⟩

/-- the infeasible problem `minimise 0 s.t. 1 = 0`: the penalty decreases at each outer iteration -/
def Demo.infeasible : Ctx ℚ ℚ Unit 1 1 :=
  { Demo.eqProblem with eval := fun _ => some (0, fun _ => 1), jac := fun _ _ _ => 0 }

/-- non-vacuity: three outer iterations with three different penalties -/
example : ∃ st', solve Demo.infeasible { Demo.settings (1 / 100) (1 / 100) .newton 100 3 with innerTol0 := 10 }
    (Demo.ready Demo.infeasible (Demo.settings (1 / 100) (1 / 100) .newton 100 3)) 0 1 (fun _ => 0) = .ok st' ∧
    st'.outerLog.map (·.mu) = [1 / 100, 1 / 10000, 1 / 1000000] := by
  obtain ⟨st', h, hp⟩ := checkSolve_sound Demo.infeasible
    { Demo.settings (1 / 100) (1 / 100) .newton 100 3 with innerTol0 := 10 } 30
    (Demo.ready Demo.infeasible (Demo.settings (1 / 100) (1 / 100) .newton 100 3)) 0 1 (fun _ => 0)
    (fun s => decide (s.outerLog.map (·.mu) = [1 / 100, 1 / 10000, 1 / 1000000])) (by decide +kernel)
  exact ⟨st', h, of_decide_eq_true hp⟩

/-! ### C18: tolerances -/

/-- **C18.** Every outer iteration uses an inner tolerance `≥ inner_tol_min` and a primal tolerance `≥ target_tol`,
and after an iteration that met its primal tolerance neither increases, provided the penalty does not exceed
`mu_upper`, the minimal tolerances are nonnegative and `pow(t, e) ≤ 1` for `t ≤ 1`. -/
theorem C18_tolerance_safeguards (P : Ctx X K H n m) (S : Settings K) (st st' : St X K H m) (x0 : X)
    (k : ℕ) (lams0 : Fin k → K) (h : solve P S st x0 k lams0 = .ok st') :
    (∀ r ∈ st'.outerLog, S.innerTolMin ≤ r.innerTol ∧ S.targetTol ≤ r.primTol) ∧
    (∀ i r e r', st'.outerLog[i]? = some r → st'.endLog[i]? = some e → st'.outerLog[i + 1]? = some r' →
      0 ≤ S.innerTolMin → 0 ≤ S.targetTol → 0 < S.muUpper → 0 ≤ r.mu → r.mu ≤ S.muUpper →
      (∀ t, 0 ≤ t → t ≤ 1 → S.pow t S.primBeta ≤ 1 ∧ S.pow t S.dualBeta ≤ 1) →
      e.prim < r.primTol → r'.innerTol ≤ r.innerTol ∧ r'.primTol ≤ r.primTol) := by
  obtain ⟨_, stf, hf, rfl⟩ := solve_ok P S st x0 k lams0 st' h
  obtain ⟨i1, i2, _, _, _, _, _, _, _, _, _, _, _, _, i15, i16⟩ := initSolve_outerLog S st x0 k lams0
  obtain ⟨a, b, c, _⟩ := outerLoop_links P S _ stf hf (by rw [i1, i2]; rfl) (by rw [i2]; intro k r e r' _ h; simp at h)
  have hlen : stf.endLog.length = stf.outerLog.length := a
  have hall : ∀ (i : ℕ) (r : OuterRec X K), stf.outerLog[i]? = some r → S.innerTolMin ≤ r.innerTol ∧ S.targetTol ≤ r.primTol := by
    intro i r' hr'
    cases i with
    | zero =>
      rw [c i1 r' hr']
      exact ⟨by simp only [i16]; exact le_max_right _ _, by simp only [i15]; exact le_max_right _ _⟩
    | succ i =>
      have hlt := (List.getElem?_eq_some_iff.1 hr').1
      have hr : stf.outerLog[i]? = some stf.outerLog[i] := List.getElem?_eq_getElem _
      have he : stf.endLog[i]? = some stf.endLog[i] := List.getElem?_eq_getElem _
      have hl := b i _ _ r' hr he hr'
      refine ⟨?_, ?_⟩
      · rw [hl.innerTol]; split <;> exact le_max_right _ _
      · rw [hl.primTol]; split <;> exact le_max_right _ _
  refine ⟨fun r hr => ?_, ?_⟩
  · obtain ⟨i, hi⟩ := List.getElem?_of_mem hr
    exact hall i r hi
  · intro i r e r' h1 h2 h3 hi0 ht0 hu hm0 hmu hpow hlt
    have hl := b i r e r' h1 h2 h3
    obtain ⟨q1, q2⟩ := hall i r h1
    obtain ⟨p1, p2⟩ := hpow (r.mu / S.muUpper) (div_nonneg hm0 hu.le) ((div_le_one hu).2 hmu)
    refine ⟨?_, ?_⟩
    · rw [hl.innerTol, if_pos hlt]
      exact max_le (mul_le_of_le_one_right (hi0.trans q1) p2) q1
    · rw [hl.primTol, if_pos hlt]
      exact max_le (mul_le_of_le_one_right (ht0.trans q2) p1) q2

/-- non-vacuity: an execution with a successful and an unsuccessful outer iteration, `pow t e = t` -/
example : ∃ st', solve Demo.infeasible
    { Demo.settings (1 / 100) (1 / 100) .newton 100 3 with innerTol0 := 10000, primTol0 := 200, pow := fun t _ => t }
    (Demo.ready Demo.infeasible (Demo.settings (1 / 100) (1 / 100) .newton 100 3)) 0 1 (fun _ => 0) = .ok st' ∧
    st'.outerLog.map (·.primTol) = [2, 1 / 50, 1 / 50] := by
  obtain ⟨st', h, hp⟩ := checkSolve_sound Demo.infeasible
    { Demo.settings (1 / 100) (1 / 100) .newton 100 3 with
      innerTol0 := 10000, primTol0 := 200, pow := fun t _ => t } 30
    (Demo.ready Demo.infeasible (Demo.settings (1 / 100) (1 / 100) .newton 100 3)) 0 1 (fun _ => 0)
    (fun s => decide (s.outerLog.map (·.primTol) = [2, 1 / 50, 1 / 50])) (by decide +kernel)
  exact ⟨st', h, of_decide_eq_true hp⟩

/-! ### C19: callbacks -/

/-- **C19.** One `solve` invokes the callbacks registered at that time (in registration order) once per accepted
step and once at the end: the trace is the concatenation, over the accepted iterates followed by the returned point,
of one call per callback; there are `num_iters + 1` rounds and the k-th sees the k-th accepted primal-dual point. -/
theorem C19_callbacks (P : Ctx X K H n m) (S : Settings K) (st st' : St X K H m) (x0 : X)
    (k : ℕ) (lams0 : Fin k → K) (h : solve P S st x0 k lams0 = .ok st') :
    ∃ snaps : List (Snap X K m),
      st'.trace = snaps.flatMap (fun s => st.callbacks.map fun cb => (cb, s)) ∧
      snaps.length = st'.numIters + 1 ∧
      snaps.dropLast.map (fun s => (s.x, s.lam)) = st'.accepted ∧
      (∀ (i : ℕ) (s : Snap X K m), snaps[i]? = some s → s.numIters = i) ∧
      (∃ s, snaps.getLast? = some s ∧ s.x = st'.xOpt ∧ s.lam = st'.lamsOpt ∧ s.merit = st'.merit ∧
        s.numIters = st'.numIters) := by
  obtain ⟨_, stf, hf, rfl⟩ := solve_ok P S st x0 k lams0 st' h
  obtain ⟨_, _, i3, i4, i5, _, _, _, _, _, _, _, i13, _⟩ := initSolve_outerLog S st x0 k lams0
  obtain ⟨snaps, g1, g2, g3, g4, _, _, g7⟩ := outer_trace P S _ stf hf
  rw [i3, i13, List.nil_append] at g1
  rw [i4, List.nil_append] at g2
  rw [i5, Nat.zero_add] at g3
  refine ⟨snaps ++ [stf.snap], ?_, ?_, ?_, ?_, ?_⟩
  · show stf.trace ++ stf.callbacks.map _ = _
    rw [g1, g7, i13, List.flatMap_append]; simp
  · show _ = stf.numIters + 1
    rw [List.length_append, g3]; rfl
  · show _ = stf.accepted
    rw [List.dropLast_concat, g2]
  · intro i s hs
    by_cases hi : i < snaps.length
    · rw [List.getElem?_append_left hi] at hs
      rw [g4 i s hs, i5, Nat.zero_add]
    · rw [List.getElem?_append_right (by omega)] at hs
      have : i - snaps.length = 0 := by
        have := (List.getElem?_eq_some_iff.1 hs).1
        simpa using this
      have hi : i = snaps.length := by omega
      subst hi
      simp only [Nat.sub_self, List.getElem?_cons_zero, Option.some.injEq] at hs
      subst hs
      exact g3
  · exact ⟨stf.snap, by simp, rfl, rfl, rfl, rfl⟩

/-- each callback is invoked exactly `num_iters + 1` times per registration -/
theorem C19_callback_count (P : Ctx X K H n m) (S : Settings K) (st st' : St X K H m) (x0 : X)
    (k : ℕ) (lams0 : Fin k → K) (h : solve P S st x0 k lams0 = .ok st') (cb : ℕ) :
    (st'.trace.map (·.1)).count cb = (st'.numIters + 1) * st.callbacks.count cb := by
  obtain ⟨snaps, h1, h2, h3⟩ := C19_callbacks P S st st' x0 k lams0 h
  rw [h1, ← h2]
  clear h1 h2 h3
  induction snaps with
  | nil => simp
  | cons s t ih =>
    rw [List.flatMap_cons, List.map_append, List.count_append, ih]
    have : List.map (·.1) (st.callbacks.map fun cb => (cb, s)) = st.callbacks := by
      rw [List.map_map]; exact List.map_id _
    rw [this, List.length_cons]; ring

/-- after `clearCallbacks()` no callback is invoked -/
theorem C19_clear (P : Ctx X K H n m) (S : Settings K) (st st' : St X K H m) (x0 : X)
    (k : ℕ) (lams0 : Fin k → K) (h : solve P S (clearCallbacks st) x0 k lams0 = .ok st') :
    st'.trace = [] := by
  obtain ⟨snaps, h1, _⟩ := C19_callbacks P S _ st' x0 k lams0 h
  rw [h1]
  induction snaps with
  | nil => rfl
  | cons s t ih => simp [clearCallbacks]

/-- non-vacuity: two callbacks, five accepted steps, twelve invocations -/
example : ∃ st', solve Demo.linProblem (Demo.settings (1 / 2) (1 / 100) .newton 5 10)
    (registerCallback (registerCallback
      (Demo.ready Demo.linProblem (Demo.settings (1 / 2) (1 / 100) .newton 5 10)) 7) 8) 0 0 Fin.elim0 = .ok st' ∧
    st'.trace.map (fun t => (t.1, t.2.x)) =
      [(7, -1), (8, -1), (7, -2), (8, -2), (7, -3), (8, -3), (7, -4), (8, -4), (7, -5), (8, -5), (7, -5), (8, -5)] := by
  obtain ⟨st', h, hp⟩ := checkSolve_sound Demo.linProblem (Demo.settings (1 / 2) (1 / 100) .newton 5 10) 30
    (registerCallback (registerCallback
      (Demo.ready Demo.linProblem (Demo.settings (1 / 2) (1 / 100) .newton 5 10)) 7) 8) 0 0 Fin.elim0
    (fun s => decide (s.trace.map (fun t => (t.1, t.2.x)) = [(7, -1), (8, -1), (7, -2), (8, -2), (7, -3), (8, -3),
      (7, -4), (8, -4), (7, -5), (8, -5), (7, -5), (8, -5)])) (by decide +kernel)
  exact ⟨st', h, of_decide_eq_true hp⟩

/-! ### C65: centre of the proximal term -/

/-- **C65 (partial: from the second outer iteration on).**  Full statement: during outer iteration `i` the proximal
penalty is centred at the point returned by the previous outer iteration, and at `x0` for the first one.  Proved:
from the second outer iteration on, the centre is the point returned by the previous outer iteration, which is the
starting point of the iteration.  Missing: the first iteration, where it is false (`C65_prox_centre_false`): the
centre is whatever the previous solve left, or the neutral element. -/
theorem C65_prox_centre_partial (P : Ctx X K H n m) (S : Settings K) (st st' : St X K H m) (x0 : X)
    (k : ℕ) (lams0 : Fin k → K) (h : solve P S st x0 k lams0 = .ok st') :
    (∀ i r e r', st'.outerLog[i]? = some r → st'.endLog[i]? = some e → st'.outerLog[i + 1]? = some r' →
      r'.target = e.x ∧ r'.x = e.x ∧ r'.rho = r.rho * S.rhoUpdateFactor) ∧
    (∀ r, st'.outerLog[0]? = some r → r.target = st.target ∧ r.x = x0 ∧ r.rho = S.rhoInit) := by
  obtain ⟨_, stf, hf, rfl⟩ := solve_ok P S st x0 k lams0 st' h
  obtain ⟨i1, i2, _, _, _, _, _, i8, i9, i10, i11, i12, _⟩ := initSolve_outerLog S st x0 k lams0
  obtain ⟨a, b, c, _⟩ := outerLoop_links P S _ stf hf (by rw [i1, i2]; rfl) (by rw [i2]; intro k r e r' _ h; simp at h)
  refine ⟨?_, ?_⟩
  · intro i r e r' h1 h2 h3
    have hl := b i r e r' h1 h2 h3
    exact ⟨hl.target, hl.x, hl.rho⟩
  · intro r hr
    rw [c i1 r hr]
    exact ⟨i12, i11, i10⟩

/-- **C65 is false for the first outer iteration**: a fresh solver started at `x0 = 3` centres the proximal term at
the neutral element 0. -/
theorem C65_prox_centre_false :
    ∃ st', solve Demo.linProblem { Demo.settings (1 / 2) (1 / 100) .newton 5 10 with rhoInit := 1 }
      (Demo.ready Demo.linProblem (Demo.settings (1 / 2) (1 / 100) .newton 5 10)) 3 0 Fin.elim0 = .ok st' ∧
      ∃ r, st'.outerLog[0]? = some r ∧ r.target ≠ 3 := by
  obtain ⟨st', h, hp⟩ := checkSolve_sound Demo.linProblem
    { Demo.settings (1 / 2) (1 / 100) .newton 5 10 with rhoInit := 1 } 30
    (Demo.ready Demo.linProblem (Demo.settings (1 / 2) (1 / 100) .newton 5 10)) 3 0 Fin.elim0
    (fun s => decide (s.outerLog[0]?.map (fun r : OuterRec ℚ ℚ => r.target) = some 0)) (by decide +kernel)
  have hp := of_decide_eq_true hp
  rw [Option.map_eq_some_iff] at hp
  obtain ⟨r, hr, ht⟩ := hp
  exact ⟨st', h, r, hr, by rw [ht]; norm_num⟩

end ProxNLP
