import Verif.Model.Solver

/-!
The solver object after an exception. `ProxNLP.solve` gives the exception but not the state it leaves behind; here is that state, for an
exception thrown at any point at which `solve` runs code of the user (cost, constraint functions, manifold, constraint sets, callbacks) or a
check of its own: the evaluation and the computations of one pass (prox-solver.hxx:302-360), the computation of the step
(prox-solver.hxx:366-459), the callbacks after a step (465) and at the end (124). There is no `try` in the library: nothing is undone.
-/

namespace ProxNLP

variable {X K H : Type} {n m : ℕ} [Field K] [LinearOrder K]

/-- `st'` is `st` with anything in the members that one pass of the inner loop writes on its way to the new point: workspace, Hessian
approximation and linear solver (`hidden`), and of the results the value, merit, infeasibilities and active set
(prox-solver.hxx:302-360). Which of them have been written depends on where exactly the exception comes from; all cases are allowed. -/
def OnlyWork (st st' : St X K H m) : Prop :=
  ∃ lp ld hid v mer p d act re, st' = { st with
    lamsPlus := lp, lamsPdal := ld, hidden := hid, value := v, merit := mer, prim := p, dual := d, active := act, rowErr := re }

/-- `invokeCallbacks` (prox-solver.hpp:282-286) when a callback throws: the ones before it (`done`) have run. -/
def invokeSome (st : St X K H m) (done : List ℕ) : St X K H m :=
  { st with trace := st.trace ++ done.map fun cb => (cb, ⟨st.xOpt, st.lamsOpt, st.merit, st.numIters⟩) }

/-- Lines 460-462 and a callback that throws at line 465 (prox-solver.hxx). -/
def acceptInterrupted (st : St X K H m) (o : StepOut X K H m) (done : List ℕ) : St X K H m :=
  invokeSome { st with
    xOpt := o.x, lamsOpt := o.lam, merit := o.merit
    lamsPlus := o.lamsPlus, lamsPdal := o.lamsPdal, hidden := o.hidden
    accepted := st.accepted ++ [(o.x, o.lam)] } done

/-- States left by an exception inside `innerLoop` started at the first state (prox-solver.hxx:300-485). -/
inductive InnerInterrupted (P : Ctx X K H n m) (S : Settings K) : St X K H m → St X K H m → Prop
  /-- in the evaluation or what follows it, before the step (302-360) -/
  | eval (st st' : St X K H m) (h : OnlyWork st st') : InnerInterrupted P S st st'
  /-- in the computation of the step (366-459); it writes the workspace only -/
  | step (st st' : St X K H m) (ev : EvalOut K n m)
      (hev : evalAt P S st.mu st.setMu st.rho st.target st.xOpt st.lamsOpt st.lamsPrev = some ev)
      (hc : ¬ (ev.innerCrit ≤ st.innerTol ∨ ev.outerCrit ≤ S.targetTol))
      (lp ld : Fin m → K) (hid : H) (h : st' = { afterEval P st ev with lamsPlus := lp, lamsPdal := ld, hidden := hid }) :
      InnerInterrupted P S st st'
  /-- in a callback after the step (465), or in the check of the new merit value (463) -/
  | callback (st st' : St X K H m) (ev : EvalOut K n m) (o : StepOut X K H m) (done : List ℕ)
      (hev : evalAt P S st.mu st.setMu st.rho st.target st.xOpt st.lamsOpt st.lamsPrev = some ev)
      (hc : ¬ (ev.innerCrit ≤ st.innerTol ∨ ev.outerCrit ≤ S.targetTol))
      (ho : P.step (stepIn (afterEval P st ev) ev) = .ok o) (hd : done <+: st.callbacks)
      (h : st' = acceptInterrupted (afterEval P st ev) o done) : InnerInterrupted P S st st'
  /-- in a later pass -/
  | next (st st' : St X K H m) (ev : EvalOut K n m) (o : StepOut X K H m)
      (hev : evalAt P S st.mu st.setMu st.rho st.target st.xOpt st.lamsOpt st.lamsPrev = some ev)
      (hc : ¬ (ev.innerCrit ≤ st.innerTol ∨ ev.outerCrit ≤ S.targetTol))
      (ho : P.step (stepIn (afterEval P st ev) ev) = .ok o) (hi : ¬ st.numIters + 1 ≥ S.maxIters)
      (h : InnerInterrupted P S { acceptStep (afterEval P st ev) o with numIters := st.numIters + 1 } st') : InnerInterrupted P S st st'

/-- States left by an exception inside the outer loop (prox-solver.hxx:85-108). -/
inductive OuterInterrupted (P : Ctx X K H n m) (S : Settings K) : St X K H m → St X K H m → Prop
  | inner (st st' : St X K H m) (hb : st.numIters < S.maxIters ∧ st.alIters < S.maxAlIters)
      (h : InnerInterrupted P S (startOuter P st) st') : OuterInterrupted P S st st'
  | next (st st1 st' : St X K H m) (hb : st.numIters < S.maxIters ∧ st.alIters < S.maxAlIters)
      (hin : innerLoop P S (startOuter P st) = .ok st1)
      (hc : ¬ max (afterInner S st1).prim (afterInner S st1).dual < S.targetTol)
      (h : OuterInterrupted P S { setProxParameter (afterInner S st1) ((afterInner S st1).rho * S.rhoUpdateFactor) with
        alIters := st.alIters + 1 } st') : OuterInterrupted P S st st'

/-- States left by an exception inside `solve(x0, lams0)` of a solver that has been set up (prox-solver.hxx:51-127). -/
inductive Interrupted (P : Ctx X K H n m) (S : Settings K) (st : St X K H m) (x0 : X) (k : ℕ) (lams0 : Fin k → K) :
    St X K H m → Prop
  | loop (st' : St X K H m) (h : OuterInterrupted P S (initSolve S st x0 k lams0) st') : Interrupted P S st x0 k lams0 st'
  /-- in a callback at the end (124) -/
  | final (st1 : St X K H m) (done : List ℕ) (h : outerLoop P S (initSolve S st x0 k lams0) = .ok st1)
      (hd : done <+: st1.callbacks) (hne : done ≠ st1.callbacks) : Interrupted P S st x0 k lams0 (invokeSome st1 done)

end ProxNLP
