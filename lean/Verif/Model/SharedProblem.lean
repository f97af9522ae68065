import Verif.Model.Solver

/-!
Several solver objects on one problem.  The parameter `mu_` of the constraint sets lives in the problem (a solver keeps a pointer to
it, prox-solver.hpp:61, and `setPenalty` writes through that pointer although the sets are `const` there, prox-solver.hxx:546-554,
constraint-set.hpp:70-73, 113-115), so it is shared by all solvers of the problem; everything else in `St` belongs to one solver.
-/

namespace ProxNLP

variable {X K H E : Type} {n m : ℕ} [Field K] [LinearOrder K]

/-! ### One solve after the other -/

/-- The shared parameter and the solvers `0, 1, ...` of the problem. The member `setMu` of each solver's state is not used: it is
replaced by the shared one when the solver runs. prox-solver.hpp:60-140, constraint-set.hpp:70-73. -/
structure Shared (X K H : Type) (m : ℕ) where
  setMu : K
  solvers : ℕ → St X K H m

/-- One call `solvers[who].solve(x0, lams0)`. Not in the code: a history of calls of
prox-solver.hxx:51-127. -/
structure SolveCall (X K : Type) where
  who : ℕ
  x0 : X
  k : ℕ
  lams0 : Fin k → K

/-- The call (prox-solver.hxx:51-127) on a solver of a shared problem. `P i`, `S i`: problem with the step computation, and settings,
of solver `i`. -/
def Shared.call (P : ℕ → Ctx X K H n m) (S : ℕ → Settings K) (s : Shared X K H m) (c : SolveCall X K) :
    Except String (Shared X K H m) :=
  match solve (P c.who) (S c.who) { s.solvers c.who with setMu := s.setMu } c.x0 c.k c.lams0 with
  | .error e => .error e
  | .ok st => .ok { setMu := st.setMu, solvers := Function.update s.solvers c.who st }

/-- A program of such calls; an exception ends it. Not in the code: a history of calls of
prox-solver.hxx:51-127. -/
def Shared.run (P : ℕ → Ctx X K H n m) (S : ℕ → Settings K) (s : Shared X K H m) :
    List (SolveCall X K) → Except String (Shared X K H m)
  | [] => .ok s
  | c :: cs =>
    match s.call P S c with
    | .error e => .error e
    | .ok s' => s'.run P S cs

/-! ### Callbacks that use the problem -/

/-- What the callbacks of one invocation do to the rest of the program (`E`) and to the parameter of the constraint sets (prox-solver.hpp:
282-286); they see the state of the solver and may throw. A callback that runs another solver on the same problem is `nestedCallback`. -/
abbrev CbEffect (X K H E : Type) (m : ℕ) := E → St X K H m → Except String (E × K)

/-- `innerLoop` (prox-solver.hxx:300-485) as `ProxNLP.innerLoop`, with the effect of the callbacks invoked at line 465. -/
def innerLoopCb (P : Ctx X K H n m) (S : Settings K) (cb : CbEffect X K H E m) (e : E) (st : St X K H m) :
    Except String (E × St X K H m) :=
  match evalAt P S st.mu st.setMu st.rho st.target st.xOpt st.lamsOpt st.lamsPrev with
  | none => .error "evaluation"
  | some ev =>
    let st1 := afterEval P st ev
    if ev.innerCrit ≤ st.innerTol ∨ ev.outerCrit ≤ S.targetTol then .ok (e, st1)
    else
      match P.step (stepIn st1 ev) with
      | .error msg => .error msg
      | .ok o =>
        match cb e (acceptStep st1 o) with
        | .error msg => .error msg
        | .ok (e', sm) =>
          let st2 := { acceptStep st1 o with numIters := st.numIters + 1, setMu := sm }
          if st.numIters + 1 ≥ S.maxIters then .ok (e', { st2 with converged := .maxIters })
          else innerLoopCb P S cb e' st2
termination_by S.maxIters - st.numIters
decreasing_by omega

/-- The outer loop (prox-solver.hxx:85-108). -/
def outerLoopCb (P : Ctx X K H n m) (S : Settings K) (cb : CbEffect X K H E m) (e : E) (st : St X K H m) :
    Except String (E × St X K H m) :=
  if st.numIters < S.maxIters ∧ st.alIters < S.maxAlIters then
    match innerLoopCb P S cb e (startOuter P st) with
    | .error msg => .error msg
    | .ok (e1, st1) =>
      let st2 := afterInner S st1
      if max st2.prim st2.dual < S.targetTol then .ok (e1, { st2 with converged := .success })
      else
        outerLoopCb P S cb e1 { setProxParameter st2 (st2.rho * S.rhoUpdateFactor) with alIters := st.alIters + 1 }
  else .ok (e, st)
termination_by S.maxAlIters - st.alIters
decreasing_by omega

/-- `solve(x0, lams0)` (prox-solver.hxx:51-127), the callbacks being invoked after every step and at the end (line 124). -/
def solveCb (P : Ctx X K H n m) (S : Settings K) (cb : CbEffect X K H E m) (e : E) (st : St X K H m) (x0 : X) (k : ℕ)
    (lams0 : Fin k → K) : Except String (E × St X K H m) :=
  if st.hasSetup = false then
    .error "Either Results or Workspace are unitialized. Call setup() first."
  else
    match outerLoopCb P S cb e (initSolve S st x0 k lams0) with
    | .error msg => .error msg
    | .ok (e1, st1) =>
      match cb e1 (invokeCallbacks st1) with
      | .error msg => .error msg
      | .ok (e2, sm) => .ok (e2, { invokeCallbacks st1 with setMu := sm })

/-- The callback that solves the same problem, from `x0` and `lams0`, with another solver (`PB`, `SB`: its step computation and
settings); `E` is the state of that solver. Not in the code: a user's callback calling
prox-solver.hxx:51-127 from prox-solver.hxx:465. -/
def nestedCallback {HA HB : Type} (PB : Ctx X K HB n m) (SB : Settings K) (x0 : X) (k : ℕ) (lams0 : Fin k → K) :
    CbEffect X K HA (St X K HB m) m := fun stB stA =>
  match solve PB SB { stB with setMu := stA.setMu } x0 k lams0 with
  | .error msg => .error msg
  | .ok stB' => .ok (stB', stB'.setMu)

end ProxNLP
