import Verif.Model.Solver

/-!
Console output of `ProxNLPSolver::solve` (logger.hpp, prox-solver.hxx:54-55, 84, 110-122, 467-478).

A printed line is kept as what it says; of the ten columns of a row the iteration numbers and the merit value are
kept (widths and number formats are not modelled).
-/

namespace ProxNLP

/-- What is printed. The `fmt::print` of logger.hpp:44-77 and prox-solver.hxx:110-122. -/
inductive Line (K : Type) where
  /-- the column titles (logger.hpp:44-54) -/
  | header
  /-- one row: columns `iter`, `al_iter` and `merit` (logger.hpp:56-77) -/
  | row (iter alIter : ℕ) (merit : K)
  /-- "Solver successfully converged" (prox-solver.hxx:110-112) -/
  | success
  /-- "Max number of iterations reached." (prox-solver.hxx:115-118) -/
  | maxIters
  /-- the final line feed (prox-solver.hxx:122) -/
  | newline
  deriving DecidableEq, Repr

variable {X K H : Type} {n m : ℕ} [Field K] [LinearOrder K]

/-- `BaseLogger::start` (logger.hpp:44-54) -/
def logStart (active : Bool) : List (Line K) := if active then [.header] else []

/-- `BaseLogger::log` (logger.hpp:56-77); titles again before every 25th row (line 40, 60-61) -/
def logRow (active : Bool) (iter alIter : ℕ) (merit : K) : List (Line K) :=
  if active then (if iter % 25 = 0 then logStart active else []) ++ [.row iter alIter merit] else []

/-- Output of `innerLoop` (prox-solver.hxx:467-478), along the same execution as `ProxNLP.innerLoop`. -/
def innerLines (P : Ctx X K H n m) (S : Settings K) (active : Bool) (st : St X K H m) : List (Line K) :=
  match evalAt P S st.mu st.setMu st.rho st.target st.xOpt st.lamsOpt st.lamsPrev with
  | none => []
  | some ev =>
    let st1 := afterEval P st ev
    if ev.innerCrit ≤ st.innerTol ∨ ev.outerCrit ≤ S.targetTol then []
    else
      match P.step (stepIn st1 ev) with
      | .error _ => []
      | .ok o =>
        let st2 := { acceptStep st1 o with numIters := st.numIters + 1 }
        logRow active (st.numIters + 1) (st.alIters + 1) st2.merit ++
          if st.numIters + 1 ≥ S.maxIters then [] else innerLines P S active st2
termination_by S.maxIters - st.numIters
decreasing_by omega

/-- Output of the outer loop, along the same execution as `ProxNLP.outerLoop`.
prox-solver.hxx:85-108. -/
def outerLines (P : Ctx X K H n m) (S : Settings K) (active : Bool) (st : St X K H m) : List (Line K) :=
  if st.numIters < S.maxIters ∧ st.alIters < S.maxAlIters then
    innerLines P S active (startOuter P st) ++
    match innerLoop P S (startOuter P st) with
    | .error _ => []
    | .ok st1 =>
      let st2 := afterInner S st1
      if max st2.prim st2.dual < S.targetTol then []
      else outerLines P S active { setProxParameter st2 (st2.rho * S.rhoUpdateFactor) with alIters := st.alIters + 1 }
  else []
termination_by S.maxAlIters - st.alIters
decreasing_by omega

/-- `logger.active` after lines 54-55 of prox-solver.hxx -/
def loggerAfter (verbose active : Bool) : Bool := if verbose then active else false

/-- Output of `solve`; `verbose` says whether the member `verbose` differs from `QUIET`, `active` is `logger.active`
before the call. prox-solver.hxx:51-127. -/
def solveLines (P : Ctx X K H n m) (S : Settings K) (verbose active : Bool) (st : St X K H m) (x0 : X) (k : ℕ)
    (lams0 : Fin k → K) : List (Line K) :=
  if st.hasSetup = false then []
  else
    logStart (loggerAfter verbose active) ++ outerLines P S (loggerAfter verbose active) (initSolve S st x0 k lams0) ++
    match outerLoop P S (initSolve S st x0 k lams0) with
    | .error _ => []
    | .ok st' =>
      (match st'.converged with
        | .success => [.success]
        | .maxIters => [.maxIters]
        | .uninit => []) ++ [.newline]

/-- A solver together with `verbose` and `logger.active`. prox-solver.hpp `verbose`,
logger.hpp:38. -/
structure ConsoleSt (X K H : Type) (m : ℕ) where
  st : St X K H m
  verbose : Bool
  active : Bool

/-- Calls of a program on one solver. Not in the code: a history of assignments to `verbose`,
`logger.active` (logger.hpp:38) and calls of prox-solver.hxx:51-127. -/
inductive ConsoleOp (X K : Type) where
  /-- `solver.verbose = ...` -/
  | setVerbose (b : Bool)
  /-- `solver.setup()` -/
  | setup
  /-- `solver.solve(x0, lams0)` -/
  | solve (x0 : X) (k : ℕ) (lams0 : Fin k → K)

/-- One call: the new state and what it prints.  When `solve` throws, the state it leaves is not modelled further: the
old state is kept, except for `logger.active`. Not in the code: a history of assignments to
`verbose`, `logger.active` (logger.hpp:38) and calls of prox-solver.hxx:51-127. -/
def ConsoleSt.step (P : Ctx X K H n m) (S : Settings K) (h0 : H) (c : ConsoleSt X K H m) :
    ConsoleOp X K → ConsoleSt X K H m × List (Line K)
  | .setVerbose b => ({ c with verbose := b }, [])
  | .setup => ({ c with st := ProxNLP.setup P h0 c.st }, [])
  | .solve x0 k lams0 =>
    ({ c with
        st := match ProxNLP.solve P S c.st x0 k lams0 with | .ok s => s | .error _ => c.st
        active := loggerAfter c.verbose c.active },
      solveLines P S c.verbose c.active c.st x0 k lams0)

/-- A new solver: `BaseLogger::active = true` (logger.hpp:38). -/
def ConsoleSt.fresh (P : Ctx X K H n m) (S : Settings K) (h0 : H) (verbose : Bool) : ConsoleSt X K H m :=
  ⟨St.fresh P S h0, verbose, true⟩

/-- State after a list of calls. Not in the code: a history of assignments to `verbose`,
`logger.active` (logger.hpp:38) and calls of prox-solver.hxx:51-127. -/
def ConsoleSt.run (P : Ctx X K H n m) (S : Settings K) (h0 : H) (c : ConsoleSt X K H m) : List (ConsoleOp X K) → ConsoleSt X K H m
  | [] => c
  | op :: l => ConsoleSt.run P S h0 (c.step P S h0 op).1 l

end ProxNLP
