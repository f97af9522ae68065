import Verif.Model.Solver
import Verif.Lemmas.Math
import Mathlib.Tactic.Linarith

set_option linter.unusedSectionVars false
namespace ProxNLP

variable {X K H : Type} {n m : ℕ} [Field K] [LinearOrder K] [IsStrictOrderedRing K]

/-- evaluation at the current iterate of a state -/
abbrev evalSt (P : Ctx X K H n m) (S : Settings K) (st : St X K H m) : Option (EvalOut K n m) :=
  evalAt P S st.mu st.setMu st.rho st.target st.xOpt st.lamsOpt st.lamsPrev

abbrev stopTest (S : Settings K) (st : St X K H m) (ev : EvalOut K n m) : Prop :=
  ev.innerCrit ≤ st.innerTol ∨ ev.outerCrit ≤ S.targetTol

/-- state after accepting a step -/
abbrev nextIter (P : Ctx X K H n m) (st : St X K H m) (ev : EvalOut K n m) (o : StepOut X K H m) : St X K H m :=
  { acceptStep (afterEval P st ev) o with numIters := st.numIters + 1 }

/-- Induction principle for `innerLoop`. -/
theorem innerLoop_ind (P : Ctx X K H n m) (S : Settings K) {R : St X K H m → St X K H m → Prop}
    (hexit : ∀ st ev, evalSt P S st = some ev → stopTest S st ev → R st (afterEval P st ev))
    (hmax : ∀ st ev o, evalSt P S st = some ev → ¬ stopTest S st ev →
      P.step (stepIn (afterEval P st ev) ev) = .ok o → S.maxIters ≤ st.numIters + 1 →
      R st { nextIter P st ev o with converged := .maxIters })
    (hstep : ∀ st st' ev o, evalSt P S st = some ev → ¬ stopTest S st ev →
      P.step (stepIn (afterEval P st ev) ev) = .ok o → st.numIters + 1 < S.maxIters →
      innerLoop P S (nextIter P st ev o) = .ok st' →
      R (nextIter P st ev o) st' → R st st')
    (st st' : St X K H m) (h : innerLoop P S st = .ok st') : R st st' := by
  generalize hk : S.maxIters - st.numIters = k
  induction k using Nat.strong_induction_on generalizing st with
  | _ k ih =>
    rw [innerLoop] at h
    cases hev : evalSt P S st with
    | none => simp only [hev] at h; cases h
    | some ev =>
      simp only [hev] at h
      by_cases hst : stopTest S st ev
      · rw [if_pos hst] at h
        injection h with h; subst h; exact hexit st ev hev hst
      · rw [if_neg hst] at h
        cases ho : P.step (stepIn (afterEval P st ev) ev) with
        | error e => simp only [ho] at h; cases h
        | ok o =>
          simp only [ho] at h
          by_cases hmx : st.numIters + 1 ≥ S.maxIters
          · rw [if_pos hmx] at h
            injection h with h; subst h; exact hmax st ev o hev hst ho hmx
          · rw [if_neg hmx] at h
            refine hstep st st' ev o hev hst ho (by omega) h (ih _ ?_ _ h rfl)
            simp only; omega

/-- state at the start of the next outer iteration -/
abbrev nextOuter (S : Settings K) (st : St X K H m) (st1 : St X K H m) : St X K H m :=
  { setProxParameter (afterInner S st1) ((afterInner S st1).rho * S.rhoUpdateFactor) with
    alIters := st.alIters + 1 }

/-- Induction principle for `outerLoop`. -/
theorem outerLoop_ind (P : Ctx X K H n m) (S : Settings K) {R : St X K H m → St X K H m → Prop}
    (hend : ∀ st, ¬ (st.numIters < S.maxIters ∧ st.alIters < S.maxAlIters) → R st st)
    (hsucc : ∀ st st1, st.numIters < S.maxIters → st.alIters < S.maxAlIters →
      innerLoop P S (startOuter P st) = .ok st1 →
      max (afterInner S st1).prim (afterInner S st1).dual < S.targetTol →
      R st { afterInner S st1 with converged := .success })
    (hnext : ∀ st st1 st', st.numIters < S.maxIters → st.alIters < S.maxAlIters →
      innerLoop P S (startOuter P st) = .ok st1 →
      ¬ max (afterInner S st1).prim (afterInner S st1).dual < S.targetTol →
      outerLoop P S (nextOuter S st st1) = .ok st' →
      R (nextOuter S st st1) st' → R st st')
    (st st' : St X K H m) (h : outerLoop P S st = .ok st') : R st st' := by
  generalize hk : S.maxAlIters - st.alIters = k
  induction k using Nat.strong_induction_on generalizing st with
  | _ k ih =>
    rw [outerLoop] at h
    by_cases hc : st.numIters < S.maxIters ∧ st.alIters < S.maxAlIters
    · rw [if_pos hc] at h
      cases h1 : innerLoop P S (startOuter P st) with
      | error e => simp only [h1] at h; cases h
      | ok st1 =>
        simp only [h1] at h
        by_cases ht : max (afterInner S st1).prim (afterInner S st1).dual < S.targetTol
        · rw [if_pos ht] at h
          injection h with h; subst h; exact hsucc st st1 hc.1 hc.2 h1 ht
        · rw [if_neg ht] at h
          refine hnext st st1 st' hc.1 hc.2 h1 ht h (ih _ ?_ _ h rfl)
          simp only; omega
    · rw [if_neg hc] at h
      injection h with h; subst h; exact hend st hc

/-- `solve` unfolded. -/
theorem solve_ok (P : Ctx X K H n m) (S : Settings K) (st : St X K H m) (x0 : X) (k : ℕ)
    (lams0 : Fin k → K) (st' : St X K H m) (h : solve P S st x0 k lams0 = .ok st') :
    st.hasSetup = true ∧ ∃ stf, outerLoop P S (initSolve S st x0 k lams0) = .ok stf ∧
      st' = invokeCallbacks stf := by
  unfold solve at h
  split at h
  · simp at h
  · rename_i hs
    refine ⟨by simpa using hs, ?_⟩
    split at h
    · simp at h
    · rename_i stf hf; injection h with h; exact ⟨stf, hf, h.symm⟩

/-- What `innerLoop` leaves unchanged. -/
structure InnerFrame (st st' : St X K H m) : Prop where
  mu : st'.mu = st.mu
  setMu : st'.setMu = st.setMu
  rho : st'.rho = st.rho
  primTol : st'.primTol = st.primTol
  innerTol : st'.innerTol = st.innerTol
  target : st'.target = st.target
  xPrev : st'.xPrev = st.xPrev
  lamsPrev : st'.lamsPrev = st.lamsPrev
  alIters : st'.alIters = st.alIters
  resMu : st'.resMu = st.resMu
  resRho : st'.resRho = st.resRho
  callbacks : st'.callbacks = st.callbacks
  outerLog : st'.outerLog = st.outerLog
  endLog : st'.endLog = st.endLog
  hasSetup : st'.hasSetup = st.hasSetup

theorem innerLoop_frame (P : Ctx X K H n m) (S : Settings K) (st st' : St X K H m)
    (h : innerLoop P S st = .ok st') : InnerFrame st st' := by
  refine innerLoop_ind P S (R := InnerFrame) ?_ ?_ ?_ st st' h
  · intro st ev _ _; constructor <;> rfl
  · intro st ev o _ _ _ _; constructor <;> rfl
  · intro st st' ev o _ _ _ _ _ h
    constructor
    · exact h.mu
    · exact h.setMu
    · exact h.rho
    · exact h.primTol
    · exact h.innerTol
    · exact h.target
    · exact h.xPrev
    · exact h.lamsPrev
    · exact h.alIters
    · exact h.resMu
    · exact h.resRho
    · exact h.callbacks
    · exact h.outerLog
    · exact h.endLog
    · exact h.hasSetup

/-- How `innerLoop` exits. -/
theorem innerLoop_exit (P : Ctx X K H n m) (S : Settings K) (st st' : St X K H m)
    (h : innerLoop P S st = .ok st') :
    (st'.converged = st.converged ∧ (st.numIters < S.maxIters → st'.numIters < S.maxIters) ∧
      ∃ ev, evalSt P S st' = some ev ∧
      (ev.innerCrit ≤ st'.innerTol ∨ ev.outerCrit ≤ S.targetTol) ∧ st'.prim = ev.prim ∧ st'.dual = ev.dual ∧
      st'.lamsPlus = ev.lamsPlus ∧ st'.lamsPdal = ev.lamsPdal) ∨
    (st'.converged = .maxIters ∧ S.maxIters ≤ st'.numIters ∧ S.targetTol < max st'.prim st'.dual) := by
  refine innerLoop_ind P S (R := fun st st' =>
    (st'.converged = st.converged ∧ (st.numIters < S.maxIters → st'.numIters < S.maxIters) ∧
      ∃ ev, evalSt P S st' = some ev ∧
      (ev.innerCrit ≤ st'.innerTol ∨ ev.outerCrit ≤ S.targetTol) ∧ st'.prim = ev.prim ∧ st'.dual = ev.dual ∧
      st'.lamsPlus = ev.lamsPlus ∧ st'.lamsPdal = ev.lamsPdal) ∨
    (st'.converged = .maxIters ∧ S.maxIters ≤ st'.numIters ∧ S.targetTol < max st'.prim st'.dual))
    ?_ ?_ ?_ st st' h
  · intro st ev hev ht
    exact Or.inl ⟨rfl, id, ev, hev, ht, rfl, rfl, rfl, rfl⟩
  · intro st ev o hev ht ho hm
    refine Or.inr ⟨rfl, hm, ?_⟩
    simp only [stopTest, not_or, not_le] at ht
    exact ht.2
  · intro st st' ev o hev ht ho hm _ hr
    rcases hr with ⟨h1, h2, h3⟩ | hr
    · exact Or.inl ⟨h1, fun _ => h2 hm, h3⟩
    · exact Or.inr hr

/-- step counter of `innerLoop` -/
theorem innerLoop_numIters (P : Ctx X K H n m) (S : Settings K) (st st' : St X K H m)
    (h : innerLoop P S st = .ok st') :
    st.numIters ≤ st'.numIters ∧ (st.numIters < S.maxIters → st'.numIters ≤ S.maxIters) := by
  refine innerLoop_ind P S (R := fun st st' =>
    st.numIters ≤ st'.numIters ∧ (st.numIters < S.maxIters → st'.numIters ≤ S.maxIters)) ?_ ?_ ?_ st st' h
  · intro st ev _ _; exact ⟨le_rfl, fun h => h.le⟩
  · intro st ev o _ _ _ hm
    exact ⟨Nat.le_succ _, fun h => Nat.succ_le_of_lt h⟩
  · intro st st' ev o _ _ _ hm _ hr
    exact ⟨(Nat.le_succ _).trans hr.1, fun _ => hr.2 hm⟩

/-- what a callback sees in a state -/
abbrev St.snap (st : St X K H m) : Snap X K m := ⟨st.xOpt, st.lamsOpt, st.merit, st.numIters⟩

theorem innerLoop_trace (P : Ctx X K H n m) (S : Settings K) (st st' : St X K H m)
    (h : innerLoop P S st = .ok st') :
    ∃ snaps : List (Snap X K m),
      st'.trace = st.trace ++ snaps.flatMap (fun s => st.callbacks.map fun cb => (cb, s)) ∧
      st'.accepted = st.accepted ++ snaps.map (fun s => (s.x, s.lam)) ∧
      st'.numIters = st.numIters + snaps.length ∧
      (∀ k s, snaps[k]? = some s → s.numIters = st.numIters + k) ∧
      (∀ s, snaps.getLast? = some s → s.x = st'.xOpt ∧ s.lam = st'.lamsOpt) ∧
      (snaps = [] → st'.xOpt = st.xOpt ∧ st'.lamsOpt = st.lamsOpt) := by
  refine innerLoop_ind P S (R := fun st st' => ∃ snaps : List (Snap X K m),
      st'.trace = st.trace ++ snaps.flatMap (fun s => st.callbacks.map fun cb => (cb, s)) ∧
      st'.accepted = st.accepted ++ snaps.map (fun s => (s.x, s.lam)) ∧
      st'.numIters = st.numIters + snaps.length ∧
      (∀ k s, snaps[k]? = some s → s.numIters = st.numIters + k) ∧
      (∀ s, snaps.getLast? = some s → s.x = st'.xOpt ∧ s.lam = st'.lamsOpt) ∧
      (snaps = [] → st'.xOpt = st.xOpt ∧ st'.lamsOpt = st.lamsOpt)) ?_ ?_ ?_ st st' h
  · intro st ev _ _
    exact ⟨[], by simp [afterEval], by simp [afterEval], by simp [afterEval], by simp, by simp,
      by simp [afterEval]⟩
  · intro st ev o _ _ _ _
    refine ⟨[⟨o.x, o.lam, o.merit, st.numIters⟩], ?_, ?_, ?_, ?_, ?_, by simp⟩
    · simp [acceptStep, invokeCallbacks, afterEval]
    · simp [acceptStep, invokeCallbacks, afterEval]
    · simp
    · intro k s hs
      rcases k with _ | k
      · simp at hs; subst hs; simp
      · simp at hs
    · intro s hs; simp at hs; subst hs; simp [acceptStep, invokeCallbacks]
  · rintro st st' ev o _ _ _ _ _ ⟨snaps, h1, h2, h3, h4, h5, h6⟩
    refine ⟨⟨o.x, o.lam, o.merit, st.numIters⟩ :: snaps, ?_, ?_, ?_, ?_, ?_, by simp⟩
    · rw [h1]; simp [acceptStep, invokeCallbacks, afterEval]
    · rw [h2]; simp [acceptStep, invokeCallbacks, afterEval]
    · rw [h3]; simp; omega
    · intro k s hs
      rcases k with _ | k
      · simp at hs; subst hs; simp
      · simp at hs; rw [h4 k s hs]; simp; omega
    · intro s hs
      rcases snaps with _ | ⟨a, t⟩
      · simp at hs; subst hs
        obtain ⟨a, b⟩ := h6 rfl
        rw [a, b]; simp [acceptStep, invokeCallbacks]
      · exact h5 s (by simpa using hs)

end ProxNLP
