import Verif.Spec.SharedProblem
import Verif.Lemmas.SolverEval

/-! Lemmas about solves whose callbacks touch the constraint sets (C97). -/

set_option linter.unusedSectionVars false
namespace ProxNLP

variable {X K H E : Type} {n m : ℕ} [Field K] [LinearOrder K] [IsStrictOrderedRing K]

/-- `solve` overwrites the parameter of the sets before reading it -/
theorem initSolve_setMu (S : Settings K) (st : St X K H m) (v : K) (x0 : X) (k : ℕ) (l : Fin k → K) :
    initSolve S { st with setMu := v } x0 k l = initSolve S st x0 k l := by
  unfold initSolve
  by_cases h : k = m
  · simp only [h, ↓reduceDIte]; rfl
  · simp only [h, ↓reduceDIte]; rfl

theorem solve_setMu (P : Ctx X K H n m) (S : Settings K) (st : St X K H m) (v : K) (x0 : X) (k : ℕ) (l : Fin k → K) :
    solve P S { st with setMu := v } x0 k l = solve P S st x0 k l := by
  unfold solve
  rw [initSolve_setMu]

/-- Induction principle for `innerLoopCb`. -/
theorem innerLoopCb_ind (P : Ctx X K H n m) (S : Settings K) (cb : CbEffect X K H E m)
    {R : E → St X K H m → E → St X K H m → Prop}
    (hexit : ∀ e st ev, evalSt P S st = some ev → stopTest S st ev → R e st e (afterEval P st ev))
    (hmax : ∀ e st ev o e' sm, evalSt P S st = some ev → ¬ stopTest S st ev →
      P.step (stepIn (afterEval P st ev) ev) = .ok o → cb e (acceptStep (afterEval P st ev) o) = .ok (e', sm) →
      S.maxIters ≤ st.numIters + 1 → R e st e' { nextIter P st ev o with setMu := sm, converged := .maxIters })
    (hstep : ∀ e st ev o e' sm e'' st', evalSt P S st = some ev → ¬ stopTest S st ev →
      P.step (stepIn (afterEval P st ev) ev) = .ok o → cb e (acceptStep (afterEval P st ev) o) = .ok (e', sm) →
      st.numIters + 1 < S.maxIters → innerLoopCb P S cb e' { nextIter P st ev o with setMu := sm } = .ok (e'', st') →
      R e' { nextIter P st ev o with setMu := sm } e'' st' → R e st e'' st')
    (e e' : E) (st st' : St X K H m) (h : innerLoopCb P S cb e st = .ok (e', st')) : R e st e' st' := by
  generalize hk : S.maxIters - st.numIters = k
  induction k using Nat.strong_induction_on generalizing st e with
  | _ k ih =>
    rw [innerLoopCb] at h
    cases hev : evalSt P S st with
    | none => simp only [hev] at h; cases h
    | some ev =>
      simp only [hev] at h
      by_cases hst : stopTest S st ev
      · rw [if_pos hst] at h
        injection h with h; injection h with h1 h2; subst h1; subst h2; exact hexit e st ev hev hst
      · rw [if_neg hst] at h
        cases ho : P.step (stepIn (afterEval P st ev) ev) with
        | error e => simp only [ho] at h; cases h
        | ok o =>
          simp only [ho] at h
          cases hcb : cb e (acceptStep (afterEval P st ev) o) with
          | error e => simp only [hcb] at h; cases h
          | ok r =>
            obtain ⟨e1, sm⟩ := r
            simp only [hcb] at h
            by_cases hmx : st.numIters + 1 ≥ S.maxIters
            · rw [if_pos hmx] at h
              injection h with h; injection h with h1 h2; subst h1; subst h2
              exact hmax e st ev o _ sm hev hst ho hcb hmx
            · rw [if_neg hmx] at h
              refine hstep e st ev o e1 sm e' st' hev hst ho hcb (by omega) h (ih _ ?_ _ _ h rfl)
              simp only; omega

/-- Induction principle for `outerLoopCb`. -/
theorem outerLoopCb_ind (P : Ctx X K H n m) (S : Settings K) (cb : CbEffect X K H E m)
    {R : E → St X K H m → E → St X K H m → Prop}
    (hend : ∀ e st, ¬ (st.numIters < S.maxIters ∧ st.alIters < S.maxAlIters) → R e st e st)
    (hsucc : ∀ e st e1 st1, st.numIters < S.maxIters → st.alIters < S.maxAlIters →
      innerLoopCb P S cb e (startOuter P st) = .ok (e1, st1) →
      max (afterInner S st1).prim (afterInner S st1).dual < S.targetTol →
      R e st e1 { afterInner S st1 with converged := .success })
    (hnext : ∀ e st e1 st1 e' st', st.numIters < S.maxIters → st.alIters < S.maxAlIters →
      innerLoopCb P S cb e (startOuter P st) = .ok (e1, st1) →
      ¬ max (afterInner S st1).prim (afterInner S st1).dual < S.targetTol →
      outerLoopCb P S cb e1 (nextOuter S st st1) = .ok (e', st') →
      R e1 (nextOuter S st st1) e' st' → R e st e' st')
    (e e' : E) (st st' : St X K H m) (h : outerLoopCb P S cb e st = .ok (e', st')) : R e st e' st' := by
  generalize hk : S.maxAlIters - st.alIters = k
  induction k using Nat.strong_induction_on generalizing st e with
  | _ k ih =>
    rw [outerLoopCb] at h
    by_cases hc : st.numIters < S.maxIters ∧ st.alIters < S.maxAlIters
    · rw [if_pos hc] at h
      cases h1 : innerLoopCb P S cb e (startOuter P st) with
      | error e => simp only [h1] at h; cases h
      | ok r =>
        obtain ⟨e1, st1⟩ := r
        simp only [h1] at h
        by_cases ht : max (afterInner S st1).prim (afterInner S st1).dual < S.targetTol
        · rw [if_pos ht] at h
          injection h with h; injection h with h2 h3; subst h2; subst h3; exact hsucc e st _ st1 hc.1 hc.2 h1 ht
        · rw [if_neg ht] at h
          refine hnext e st e1 st1 e' st' hc.1 hc.2 h1 ht h (ih _ ?_ _ _ h rfl)
          simp only; omega
    · rw [if_neg hc] at h
      injection h with h; injection h with h1 h2; subst h1; subst h2; exact hend e st hc

/-- `solveCb` unfolded. -/
theorem solveCb_ok (P : Ctx X K H n m) (S : Settings K) (cb : CbEffect X K H E m) (e e' : E) (st st' : St X K H m) (x0 : X)
    (k : ℕ) (lams0 : Fin k → K) (h : solveCb P S cb e st x0 k lams0 = .ok (e', st')) :
    st.hasSetup = true ∧ ∃ e1 stf sm, outerLoopCb P S cb e (initSolve S st x0 k lams0) = .ok (e1, stf) ∧
      cb e1 (invokeCallbacks stf) = .ok (e', sm) ∧ st' = { invokeCallbacks stf with setMu := sm } := by
  unfold solveCb at h
  split at h
  · simp at h
  · rename_i hs
    refine ⟨by simpa using hs, ?_⟩
    split at h
    · simp at h
    · rename_i e1 stf hf
      split at h
      · simp at h
      · rename_i e2 sm hcb
        injection h with h; injection h with h1 h2; subst h1; exact ⟨e1, stf, sm, hf, hcb, h2.symm⟩

/-- How `innerLoopCb` exits. -/
theorem innerLoopCb_exit (P : Ctx X K H n m) (S : Settings K) (cb : CbEffect X K H E m) (e e' : E) (st st' : St X K H m)
    (h : innerLoopCb P S cb e st = .ok (e', st')) :
    st'.mu = st.mu ∧ st'.resMu = st.resMu ∧ st'.primTol = st.primTol ∧ st'.alIters = st.alIters ∧
    ((st'.converged = st.converged ∧ ∃ ev, evalSt P S st' = some ev ∧ st'.prim = ev.prim ∧ st'.dual = ev.dual) ∨
    (st'.converged = .maxIters ∧ S.targetTol < max st'.prim st'.dual)) := by
  refine innerLoopCb_ind P S cb (R := fun _ st _ st' =>
    st'.mu = st.mu ∧ st'.resMu = st.resMu ∧ st'.primTol = st.primTol ∧ st'.alIters = st.alIters ∧
    ((st'.converged = st.converged ∧ ∃ ev, evalSt P S st' = some ev ∧ st'.prim = ev.prim ∧ st'.dual = ev.dual) ∨
    (st'.converged = .maxIters ∧ S.targetTol < max st'.prim st'.dual))) ?_ ?_ ?_ e e' st st' h
  · intro e st ev hev ht
    exact ⟨rfl, rfl, rfl, rfl, Or.inl ⟨rfl, ev, hev, rfl, rfl⟩⟩
  · intro e st ev o e' sm hev ht ho _ hm
    refine ⟨rfl, rfl, rfl, rfl, Or.inr ⟨rfl, ?_⟩⟩
    simp only [stopTest, not_or, not_le] at ht
    exact ht.2
  · intro e st ev o e' sm e'' st' hev ht ho _ hm _ hr
    exact hr

/-- callbacks that leave the sets alone do not matter -/
theorem innerLoopCb_quiet (P : Ctx X K H n m) (S : Settings K) (cb : CbEffect X K H E m) (hcb : Spec.LeavesSets cb)
    (e e' : E) (st st' : St X K H m) (h : innerLoopCb P S cb e st = .ok (e', st')) : innerLoop P S st = .ok st' := by
  refine innerLoopCb_ind P S cb (R := fun _ st _ st' => innerLoop P S st = .ok st') ?_ ?_ ?_ e e' st st' h
  · intro e st ev hev ht
    rw [innerLoop]; simp only [hev]; rw [if_pos ht]
  · intro e st ev o e' sm hev ht ho hc hm
    rw [innerLoop]; simp only [hev]; rw [if_neg ht]; simp only [ho]; rw [if_pos hm, hcb _ _ _ _ hc]
  · intro e st ev o e' sm e'' st' hev ht ho hc hm _ hr
    rw [innerLoop]; simp only [hev]; rw [if_neg ht]; simp only [ho]; rw [if_neg (by omega), ← hr, hcb _ _ _ _ hc]

theorem outerLoopCb_quiet (P : Ctx X K H n m) (S : Settings K) (cb : CbEffect X K H E m) (hcb : Spec.LeavesSets cb)
    (e e' : E) (st st' : St X K H m) (h : outerLoopCb P S cb e st = .ok (e', st')) : outerLoop P S st = .ok st' := by
  refine outerLoopCb_ind P S cb (R := fun _ st _ st' => outerLoop P S st = .ok st') ?_ ?_ ?_ e e' st st' h
  · intro e st hc
    rw [outerLoop, if_neg hc]
  · intro e st e1 st1 h1 h2 hin ht
    rw [outerLoop, if_pos ⟨h1, h2⟩, innerLoopCb_quiet P S cb hcb _ _ _ _ hin]; simp only; rw [if_pos ht]
  · intro e st e1 st1 e' st' h1 h2 hin ht _ hr
    rw [outerLoop, if_pos ⟨h1, h2⟩, innerLoopCb_quiet P S cb hcb _ _ _ _ hin]; simp only; rw [if_neg ht, ← hr]

/-! ### Penalties that never change -/

/-- with `mu_lower = mu_init` the penalty stays what it is -/
theorem afterInner_const (S : Settings K) (hS : S.muLower = S.muInit) (st : St X K H m) (h1 : st.mu = S.muInit)
    (h2 : st.setMu = S.muInit) : (afterInner S st).mu = S.muInit ∧ (afterInner S st).setMu = S.muInit := by
  have h := afterInner_mu S st
  rw [h1, hS, if_pos rfl, ite_self] at h
  exact ⟨h, (afterInner_setMu S st (by rw [h1, h2])).trans h⟩

theorem outerLoop_const (P : Ctx X K H n m) (S : Settings K) (hS : S.muLower = S.muInit) (st st' : St X K H m)
    (h : outerLoop P S st = .ok st') (h1 : st.mu = S.muInit) (h2 : st.setMu = S.muInit) : st'.setMu = S.muInit := by
  refine outerLoop_ind P S (R := fun st st' => st.mu = S.muInit → st.setMu = S.muInit → st'.setMu = S.muInit)
    ?_ ?_ ?_ st st' h h1 h2
  · intro st _ _ h2; exact h2
  · intro st st1 _ _ hin _ h1 h2
    have hf := innerLoop_frame P S _ _ hin
    exact (afterInner_const S hS st1 (hf.mu.trans h1) (hf.setMu.trans h2)).2
  · intro st st1 st' _ _ hin _ _ ih h1 h2
    have hf := innerLoop_frame P S _ _ hin
    have := afterInner_const S hS st1 (hf.mu.trans h1) (hf.setMu.trans h2)
    exact ih this.1 this.2

theorem solve_const (P : Ctx X K H n m) (S : Settings K) (hS : S.muLower = S.muInit) (st st' : St X K H m) (x0 : X) (k : ℕ)
    (l : Fin k → K) (h : solve P S st x0 k l = .ok st') : st'.setMu = S.muInit := by
  obtain ⟨_, stf, hf, rfl⟩ := solve_ok P S st x0 k l st' h
  have hi := initSolve_outerLog S st x0 k l
  exact outerLoop_const P S hS _ stf hf hi.2.2.2.2.2.2.2.1 hi.2.2.2.2.2.2.2.2.1

theorem innerLoopCb_const (P : Ctx X K H n m) (S : Settings K) (cb : CbEffect X K H E m)
    (hcb : ∀ e st e' sm, st.setMu = S.muInit → cb e st = .ok (e', sm) → sm = S.muInit)
    (e e' : E) (st st' : St X K H m) (h : innerLoopCb P S cb e st = .ok (e', st')) (h0 : st.setMu = S.muInit) :
    innerLoop P S st = .ok st' := by
  refine innerLoopCb_ind P S cb (R := fun _ st _ st' => st.setMu = S.muInit → innerLoop P S st = .ok st') ?_ ?_ ?_ e e' st st' h h0
  · intro e st ev hev ht _
    rw [innerLoop]; simp only [hev]; rw [if_pos ht]
  · intro e st ev o e' sm hev ht ho hc hm h0
    have : sm = st.setMu := (hcb e (acceptStep (afterEval P st ev) o) e' sm h0 hc).trans h0.symm
    rw [innerLoop]; simp only [hev]; rw [if_neg ht]; simp only [ho]; rw [if_pos hm, this]; rfl
  · intro e st ev o e' sm e'' st' hev ht ho hc hm _ hr h0
    have hsm := hcb e (acceptStep (afterEval P st ev) o) e' sm h0 hc
    have : sm = st.setMu := hsm.trans h0.symm
    rw [innerLoop]; simp only [hev]; rw [if_neg ht]; simp only [ho]; rw [if_neg (by omega), ← hr hsm, this]; rfl

theorem outerLoopCb_const (P : Ctx X K H n m) (S : Settings K) (hS : S.muLower = S.muInit) (cb : CbEffect X K H E m)
    (hcb : ∀ e st e' sm, st.setMu = S.muInit → cb e st = .ok (e', sm) → sm = S.muInit)
    (e e' : E) (st st' : St X K H m) (h : outerLoopCb P S cb e st = .ok (e', st')) (h1 : st.mu = S.muInit)
    (h2 : st.setMu = S.muInit) : outerLoop P S st = .ok st' := by
  refine outerLoopCb_ind P S cb (R := fun _ st _ st' => st.mu = S.muInit → st.setMu = S.muInit →
    outerLoop P S st = .ok st') ?_ ?_ ?_ e e' st st' h h1 h2
  · intro e st hc _ _
    rw [outerLoop, if_neg hc]
  · intro e st e1 st1 g1 g2 hin ht _ h2
    rw [outerLoop, if_pos ⟨g1, g2⟩, innerLoopCb_const P S cb hcb _ _ _ _ hin h2]; simp only; rw [if_pos ht]
  · intro e st e1 st1 e' st' g1 g2 hin ht _ hr h1 h2
    have hl := innerLoopCb_const P S cb hcb _ _ _ _ hin h2
    have hf := innerLoop_frame P S _ _ hl
    have := afterInner_const S hS st1 (hf.mu.trans h1) (hf.setMu.trans h2)
    rw [outerLoop, if_pos ⟨g1, g2⟩, hl]; simp only; rw [if_neg ht, ← hr this.1 this.2]

/-! ### Evaluation of concrete runs -/

def innerCbFuel (P : Ctx X K H n m) (S : Settings K) (cb : E → St X K H m → Option (Except String (E × K))) :
    ℕ → E → St X K H m → Option (Except String (E × St X K H m))
  | 0, _, _ => none
  | fuel + 1, e, st =>
    match evalAt P S st.mu st.setMu st.rho st.target st.xOpt st.lamsOpt st.lamsPrev with
    | none => some (.error "evaluation")
    | some ev =>
      let st1 := afterEval P st ev
      if ev.innerCrit ≤ st.innerTol ∨ ev.outerCrit ≤ S.targetTol then some (.ok (e, st1))
      else
        match P.step (stepIn st1 ev) with
        | .error msg => some (.error msg)
        | .ok o =>
          match cb e (acceptStep st1 o) with
          | none => none
          | some (.error msg) => some (.error msg)
          | some (.ok (e', sm)) =>
            let st2 := { acceptStep st1 o with numIters := st.numIters + 1, setMu := sm }
            if st.numIters + 1 ≥ S.maxIters then some (.ok (e', { st2 with converged := .maxIters }))
            else innerCbFuel P S cb fuel e' st2

def outerCbFuel (P : Ctx X K H n m) (S : Settings K) (cb : E → St X K H m → Option (Except String (E × K))) :
    ℕ → E → St X K H m → Option (Except String (E × St X K H m))
  | 0, _, _ => none
  | fuel + 1, e, st =>
    if st.numIters < S.maxIters ∧ st.alIters < S.maxAlIters then
      match innerCbFuel P S cb (fuel + 1) e (startOuter P st) with
      | none => none
      | some (.error msg) => some (.error msg)
      | some (.ok (e1, st1)) =>
        let st2 := afterInner S st1
        if max st2.prim st2.dual < S.targetTol then some (.ok (e1, { st2 with converged := .success }))
        else
          outerCbFuel P S cb fuel e1
            { setProxParameter st2 (st2.rho * S.rhoUpdateFactor) with alIters := st.alIters + 1 }
    else some (.ok (e, st))

theorem innerCbFuel_sound (P : Ctx X K H n m) (S : Settings K) (cbF : E → St X K H m → Option (Except String (E × K)))
    (cb : CbEffect X K H E m) (hcb : ∀ e st r, cbF e st = some r → cb e st = r) (fuel : ℕ) (e : E) (st : St X K H m)
    (r : Except String (E × St X K H m)) (h : innerCbFuel P S cbF fuel e st = some r) : innerLoopCb P S cb e st = r := by
  induction fuel generalizing st e with
  | zero => simp [innerCbFuel] at h
  | succ fuel ih =>
    rw [innerCbFuel] at h
    rw [innerLoopCb]
    split at h
    · rename_i hn; rw [hn]; simpa using h
    · rename_i ev hev
      rw [hev]
      simp only at h ⊢
      split at h
      · rename_i hs; rw [if_pos hs]; simpa using h
      · rename_i hs; rw [if_neg hs]
        split at h
        · rename_i e he; rw [he]; simpa using h
        · rename_i o ho; rw [ho]
          simp only at h ⊢
          split at h
          · simp at h
          · rename_i msg hc; rw [hcb _ _ _ hc]; simpa using h
          · rename_i e1 sm hc; rw [hcb _ _ _ hc]
            simp only at h ⊢
            split at h
            · rename_i hm; rw [if_pos hm]; simpa using h
            · rename_i hm; rw [if_neg hm]; exact ih _ _ h

theorem outerCbFuel_sound (P : Ctx X K H n m) (S : Settings K) (cbF : E → St X K H m → Option (Except String (E × K)))
    (cb : CbEffect X K H E m) (hcb : ∀ e st r, cbF e st = some r → cb e st = r) (fuel : ℕ) (e : E) (st : St X K H m)
    (r : Except String (E × St X K H m)) (h : outerCbFuel P S cbF fuel e st = some r) : outerLoopCb P S cb e st = r := by
  induction fuel generalizing st e with
  | zero => simp [outerCbFuel] at h
  | succ fuel ih =>
    rw [outerCbFuel] at h
    rw [outerLoopCb]
    split at h
    · rename_i hc
      rw [if_pos hc]
      split at h
      · simp at h
      · rename_i msg he; rw [innerCbFuel_sound P S cbF cb hcb _ _ _ _ he]; simpa using h
      · rename_i e1 st1 h1
        rw [innerCbFuel_sound P S cbF cb hcb _ _ _ _ h1]
        simp only at h ⊢
        split at h
        · rename_i ht; rw [if_pos ht]; simpa using h
        · rename_i ht; rw [if_neg ht]; exact ih _ _ h
    · rename_i hc; rw [if_neg hc]; simpa using h

/-- a nested solve with bounded loops -/
def nestedFuel {HA HB : Type} (PB : Ctx X K HB n m) (SB : Settings K) (x0 : X) (k : ℕ) (lams0 : Fin k → K) (fuel : ℕ)
    (stB : St X K HB m) (stA : St X K HA m) : Option (Except String (St X K HB m × K)) :=
  if stB.hasSetup then
    match outerFuel PB SB fuel (initSolve SB { stB with setMu := stA.setMu } x0 k lams0) with
    | some (.ok s) => some (.ok (invokeCallbacks s, (invokeCallbacks s).setMu))
    | _ => none
  else none

theorem nestedFuel_sound {HA HB : Type} (PB : Ctx X K HB n m) (SB : Settings K) (x0 : X) (k : ℕ) (lams0 : Fin k → K)
    (fuel : ℕ) (stB : St X K HB m) (stA : St X K HA m) (r : Except String (St X K HB m × K))
    (h : nestedFuel PB SB x0 k lams0 fuel stB stA = some r) : nestedCallback PB SB x0 k lams0 stB stA = r := by
  unfold nestedFuel at h
  split at h
  · rename_i hs
    split at h
    · rename_i s hf
      unfold nestedCallback solve
      rw [if_neg (by simp [hs]), outerFuel_sound PB SB _ _ _ hf]
      simpa using h
    · simp at h
  · simp at h

def checkSolveCb (P : Ctx X K H n m) (S : Settings K) (cbF : E → St X K H m → Option (Except String (E × K))) (fuel : ℕ) (e : E)
    (st : St X K H m) (x0 : X) (k : ℕ) (l : Fin k → K) (p : St X K H m → Bool) : Bool :=
  st.hasSetup && match outerCbFuel P S cbF fuel e (initSolve S st x0 k l) with
    | some (.ok (e1, s)) =>
      match cbF e1 (invokeCallbacks s) with
      | some (.ok (_, sm)) => p { invokeCallbacks s with setMu := sm }
      | _ => false
    | _ => false

theorem checkSolveCb_sound (P : Ctx X K H n m) (S : Settings K) (cbF : E → St X K H m → Option (Except String (E × K)))
    (cb : CbEffect X K H E m) (hcb : ∀ e st r, cbF e st = some r → cb e st = r) (fuel : ℕ) (e : E) (st : St X K H m) (x0 : X)
    (k : ℕ) (l : Fin k → K) (p : St X K H m → Bool) (h : checkSolveCb P S cbF fuel e st x0 k l p = true) :
    ∃ e' st', solveCb P S cb e st x0 k l = .ok (e', st') ∧ p st' = true := by
  unfold checkSolveCb at h
  rw [Bool.and_eq_true] at h
  obtain ⟨hs, h⟩ := h
  split at h
  · rename_i e1 s hf
    split at h
    · rename_i e2 sm hc
      refine ⟨e2, _, ?_, h⟩
      unfold solveCb
      rw [if_neg (by simp [hs]), outerCbFuel_sound P S cbF cb hcb _ _ _ _ hf]
      simp only
      rw [hcb _ _ _ hc]
    · simp at h
  · simp at h

end ProxNLP
