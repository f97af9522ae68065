import Verif.Model.Math
import Verif.Model.Sets
import Verif.Model.SetProduct
import Mathlib.Algebra.BigOperators.Fin

/-!
Model of `ProxNLPSolverTpl` (prox-solver.hpp/.hxx): the whole control flow of `solve` and `innerLoop`,
the residual and multiplier computations, penalty and tolerance updates.

`X` is the type of points of the manifold, `n = ndx`, `m` the total constraint dimension.
The computation of a step (KKT system, inertia correction, line search; prox-solver.hxx:369-459) is a
parameter `Ctx.step` here; `Model/Step.lean` gives the concrete one.  Theorems about this file hold for
every `step`.
-/

namespace ProxNLP

/-- `ConvergenceFlag` (results.hpp:11). -/
inductive Flag where
  | uninit | success | maxIters
  deriving DecidableEq, Repr

/-- `MultiplierUpdateMode` (prox-solver.hpp:25). -/
inductive MulMode where
  | newton | primal | primalDual
  deriving DecidableEq, Repr

/-- `KktSystem` (prox-solver.hpp:40). -/
inductive KktSys where
  | classic | primalDual
  deriving DecidableEq, Repr

/-- The constraint sets of all constraints, stacked (each operation of each set acts on its own segment;
see C07/C12).  First argument: the parameter `mu_` carried by the set objects.
`active` are the rows kept by `applyNormalConeProjectionJacobian` and zeroed by
`applyProjectionJacobian`. constraint-set.hpp:28-80, used per constraint in
prox-solver.hxx:169-204. -/
structure StackedSet (K : Type) (m : ℕ) where
  projection : K → (Fin m → K) → Fin m → K
  normal : K → (Fin m → K) → Fin m → K
  active : K → (Fin m → K) → Fin m → Bool
  evaluate : K → (Fin m → K) → K

variable {X K H : Type} {n m : ℕ} [Field K] [LinearOrder K]

/-- Stacked sets made of one leaf set and local index per coordinate. constraint-set.hpp:28-80,
used per constraint in prox-solver.hxx:169-204. -/
def StackedSet.ofLeaves (leaf : Fin m → LeafSet K × ℕ) : StackedSet K m where
  projection mu z i := (leaf i).1.projAt mu (leaf i).2 (z i)
  normal mu z i := (leaf i).1.normalAt mu (leaf i).2 (z i)
  active mu z i := (leaf i).1.activeAt mu (leaf i).2 (z i)
  evaluate _ z := ∑ i, match (leaf i).1 with
    | .l1 => |z i|
    | _ => 0

/-- Solver settings (prox-solver.hpp:69-126, bcl-params.hpp) and the library function `std::pow`. -/
structure Settings (K : Type) where
  targetTol : K
  muInit : K
  rhoInit : K
  muLower : K
  muUpper : K
  innerTol0 : K
  primTol0 : K
  innerTolMin : K
  pdalBeta : K
  primAlpha : K
  primBeta : K
  dualAlpha : K
  dualBeta : K
  muUpdateFactor : K
  rhoUpdateFactor : K
  maxIters : ℕ
  maxAlIters : ℕ
  mode : MulMode
  kkt : KktSys
  pow : K → K → K

/-- What the main loop computes at the current primal-dual point before testing convergence
(prox-solver.hxx:302-361). -/
structure EvalOut (K : Type) (n m : ℕ) where
  value : K
  c : Fin m → K
  grad : Fin n → K
  jac : Fin m → Fin n → K
  shift : Fin m → K
  shiftPdal : Fin m → K
  lamsPlus : Fin m → K
  lamsPdal : Fin m → K
  proxGrad : Fin n → K
  rhsTop : Fin n → K
  rhsBot : Fin m → K
  merit : K
  prim : K
  dual : K

/-- Inputs a step computation may depend on. prox-solver.hxx:369-465. -/
structure StepIn (X K H : Type) (n m : ℕ) where
  x : X
  lam : Fin m → K
  lamPrev : Fin m → K
  target : X
  mu : K
  setMu : K
  rho : K
  hidden : H
  ev : EvalOut K n m

/-- Outputs of a step: trial point accepted (`x_trial`, `lams_trial`), the merit value, and what the line
search leaves in the workspace (multiplier estimates, hidden state). prox-solver.hxx:369-465. -/
structure StepOut (X K H : Type) (m : ℕ) where
  x : X
  lam : Fin m → K
  merit : K
  lamsPlus : Fin m → K
  lamsPdal : Fin m → K
  hidden : H

/-- The problem, the manifold operations used by the solver, and the step computation.
* `eval x`: cost value and stacked constraint values (`problem_->evaluate`), `none` when a user function
  throws;
* `grad`, `jac`: `problem_->computeDerivatives`;
* `updHess`: Hessian update of the hidden state (BFGS / exact / Gauss-Newton, prox-solver.hxx:233-247);
* `enterInner`: reset of the locals of `innerLoop` (`delta_last`, prox-solver.hxx:286-288);
* `proxVal rho target x`, `proxGrad rho target x`: value/gradient of the proximal penalty;
* `step`: everything between the convergence test and the acceptance of the step; `error` = a thrown
  exception. -/
structure Ctx (X K H : Type) (n m : ℕ) where
  eval : X → Option (K × (Fin m → K))
  grad : X → Fin n → K
  jac : X → Fin m → Fin n → K
  sets : StackedSet K m
  neutral : X
  proxVal : K → X → X → K
  proxGrad : K → X → X → Fin n → K
  updHess : H → X → (Fin n → K) → (Fin m → K) → H
  enterInner : H → H
  step : StepIn X K H n m → Except String (StepOut X K H m)

/-- Snapshot visible to a callback (`results` at the time of the call). results.hpp:26-46,
prox-solver.hpp:282-286. -/
structure Snap (X K : Type) (m : ℕ) where
  x : X
  lam : Fin m → K
  merit : K
  numIters : ℕ

/-- Ghost record made when an outer iteration starts (not a member of the C++ class).
prox-solver.hxx:86-88. -/
structure OuterRec (X K : Type) where
  mu : K
  rho : K
  innerTol : K
  primTol : K
  setMu : K
  target : X
  x : X

/-- Ghost record made when the inner loop of an outer iteration returns. prox-solver.hxx:88-100. -/
structure EndRec (X K : Type) where
  prim : K
  dual : K
  x : X

/-- Mutable state: members of the solver, `Results` and `Workspace` that influence later behaviour, plus
ghost logs (`trace`: callback invocations; `outerLog`, `endLog`: one record per outer iteration at its start and
at the return of its inner loop; `accepted`: accepted iterates). prox-solver.hpp:60-140,
results.hpp:26-46, workspace.hpp:34-121. -/
structure St (X K H : Type) (m : ℕ) where
  hasSetup : Bool
  xOpt : X
  xPrev : X
  lamsOpt : Fin m → K
  lamsPrev : Fin m → K
  lamsPlus : Fin m → K
  lamsPdal : Fin m → K
  mu : K
  setMu : K
  rho : K
  primTol : K
  innerTol : K
  target : X
  converged : Flag
  numIters : ℕ
  alIters : ℕ
  prim : K
  dual : K
  value : K
  merit : K
  active : Fin m → Bool
  rowErr : Fin m → K
  resMu : K
  resRho : K
  hidden : H
  callbacks : List ℕ
  trace : List (ℕ × Snap X K m)
  outerLog : List (OuterRec X K)
  endLog : List (EndRec X K)
  accepted : List (X × (Fin m → K))

/-- `setPenalty(new_mu)`: also hands the parameter to every constraint set (prox-solver.hxx:546-554). -/
def setPenalty (st : St X K H m) (mu : K) : St X K H m := { st with mu := mu, setMu := mu }

/-- `setProxParameter(new_rho)` (prox-solver.hxx:556-562). -/
def setProxParameter (st : St X K H m) (rho : K) : St X K H m := { st with rho := rho }

/-- `tolerancePostUpdate` (prox-solver.hxx:578-582). -/
def tolerancePostUpdate (S : Settings K) (st : St X K H m) : St X K H m :=
  { st with innerTol := max st.innerTol S.innerTolMin, primTol := max st.primTol S.targetTol }

/-- `updateToleranceFailure` (prox-solver.hxx:564-569). -/
def updateToleranceFailure (S : Settings K) (st : St X K H m) : St X K H m :=
  tolerancePostUpdate S { st with
    primTol := S.primTol0 * S.pow st.mu S.primAlpha
    innerTol := S.innerTol0 * S.pow st.mu S.dualAlpha }

/-- `updateToleranceSuccess` (prox-solver.hxx:571-576). -/
def updateToleranceSuccess (S : Settings K) (st : St X K H m) : St X K H m :=
  tolerancePostUpdate S { st with
    primTol := st.primTol * S.pow (st.mu / S.muUpper) S.primBeta
    innerTol := st.innerTol * S.pow (st.mu / S.muUpper) S.dualBeta }

/-- `updatePenalty` (prox-solver.hxx:270-276). -/
def updatePenalty (S : Settings K) (st : St X K H m) : St X K H m :=
  if st.mu = S.muLower then setPenalty st S.muInit
  else setPenalty st (max (st.mu * S.muUpdateFactor) S.muLower)

/-- `acceptMultipliers` (prox-solver.hxx:150-167). -/
def acceptMultipliers (S : Settings K) (st : St X K H m) : St X K H m :=
  let prev := match S.mode with
    | .newton => st.lamsOpt
    | .primal => st.lamsPlus
    | .primalDual => st.lamsPdal
  { st with lamsPrev := prev, lamsOpt := prev }

/-- primal residual at constraint value `c` and multipliers `lam` (prox-solver.hxx:254-266); the max over the
constraints of the max-norms is the max-norm of the stacked error. -/
def primResidual (sets : StackedSet K m) (mu setMu : K) (c lam : Fin m → K) : K :=
  let displ := sets.projection setMu (fun i => c i + mu * lam i)
  inftyNorm (fun i => c i - displ i)

/-- the stacked `cstr_prox_err` of `computePrimalResiduals` (prox-solver.hxx:254-262): constraint values minus the
projection of the shifted values. -/
def primErr (sets : StackedSet K m) (mu setMu : K) (c lam : Fin m → K) : Fin m → K :=
  let displ := sets.projection setMu (fun i => c i + mu * lam i)
  fun i => c i - displ i

/-- dual residual `grad + Jᵀ lam` (prox-solver.hxx:356-359). -/
def dualResidual (grad : Fin n → K) (jac : Fin m → Fin n → K) (lam : Fin m → K) : K :=
  inftyNorm (fun j => grad j + ∑ i, jac i j * lam i)

/-- Lines 302-361 of `innerLoop`: evaluation of problem, multipliers, derivatives, right-hand side and
residuals at the current point. Lines of prox-solver.hxx. -/
def evalAt (P : Ctx X K H n m) (S : Settings K) (mu setMu rho : K) (target x : X)
    (lam lamPrev : Fin m → K) : Option (EvalOut K n m) :=
  (P.eval x).map fun fc =>
    let c := fc.2
    -- computeMultipliers (169-193)
    let shift := fun i => c i + mu * lamPrev i
    let lamsPlus := fun i => (1 / mu) * P.sets.normal setMu shift i
    let shiftPdal := fun i => shift i - (1 / 2) * mu * lam i
    let nPdal := P.sets.normal setMu shiftPdal
    let lamsPdal := fun i => nPdal i * ((1 / mu) / S.pdalBeta)
    -- computeProblemDerivatives (207-212)
    let g := P.grad x
    let J := P.jac x
    -- merit function (pdal.hxx:14-29), 312-320
    let merit0 := fc.1 + (2 * (P.sets.evaluate setMu (fun i => shiftPdal i - nPdal i)
      + (1 / 2) * (1 / setMu) * ∑ i, nPdal i ^ 2) + setMu * (∑ i, lam i ^ 2) / 4)
    let merit := if 0 < rho then merit0 + P.proxVal rho target x else merit0
    let pg := P.proxGrad rho target x
    -- right-hand side (323-348)
    let top0 := fun j => g j + ∑ i, J i j * lam i
    let top := if 0 < rho then fun j => top0 j + pg j else top0
    let bot := match S.kkt with
      | .classic => fun i => mu * (lamsPlus i - lam i)
      | .primalDual => fun i => (1 / 2) * mu * (lamsPdal i - lam i)
    { value := fc.1, c := c, grad := g, jac := J, shift := shift, shiftPdal := shiftPdal,
      lamsPlus := lamsPlus, lamsPdal := lamsPdal, proxGrad := pg, rhsTop := top, rhsBot := bot,
      merit := merit,
      -- computePrimalResiduals (353), dual residual (356-359)
      prim := primResidual P.sets mu setMu c lam, dual := dualResidual g J lam }

/-- `inner_crit`: max-norm of the stacked right-hand side (prox-solver.hxx:360). -/
def EvalOut.innerCrit (ev : EvalOut K n m) : K := max (inftyNorm ev.rhsTop) (inftyNorm ev.rhsBot)

/-- `outer_crit` (prox-solver.hxx:361). -/
def EvalOut.outerCrit (ev : EvalOut K n m) : K := max ev.prim ev.dual

/-- State after lines 302-361.  `active` are the stacked `results.active_set[i]` (306-310), `rowErr` the stacked
errors whose max-norms per constraint are `results.constraint_violations` (see
`constraintViolation`). Lines of prox-solver.hxx. -/
def afterEval (P : Ctx X K H n m) (st : St X K H m) (ev : EvalOut K n m) : St X K H m :=
  { st with
    active := P.sets.active st.setMu ev.shift
    rowErr := primErr P.sets st.mu st.setMu ev.c st.lamsOpt
    lamsPlus := ev.lamsPlus, lamsPdal := ev.lamsPdal
    value := ev.value, merit := ev.merit, prim := ev.prim, dual := ev.dual
    hidden := P.updHess st.hidden st.xOpt ev.grad ev.lamsPdal }

/-- `invokeCallbacks` (prox-solver.hpp:282-286). -/
def invokeCallbacks (st : St X K H m) : St X K H m :=
  { st with trace := st.trace ++ st.callbacks.map fun cb => (cb, ⟨st.xOpt, st.lamsOpt, st.merit, st.numIters⟩) }

/-- Lines 455-465: accept the step (after the line search) and call the callbacks. Lines of
prox-solver.hxx. -/
def acceptStep (st : St X K H m) (o : StepOut X K H m) : St X K H m :=
  invokeCallbacks { st with
    xOpt := o.x, lamsOpt := o.lam, merit := o.merit
    lamsPlus := o.lamsPlus, lamsPdal := o.lamsPdal, hidden := o.hidden
    accepted := st.accepted ++ [(o.x, o.lam)] }

/-- inputs of the step computation (prox-solver.hxx:369-465) -/
def stepIn (st : St X K H m) (ev : EvalOut K n m) : StepIn X K H n m :=
  { x := st.xOpt, lam := st.lamsOpt, lamPrev := st.lamsPrev, target := st.target, mu := st.mu,
    setMu := st.setMu, rho := st.rho, hidden := st.hidden, ev := ev }

/-- `innerLoop` from the top of its `while(true)` (prox-solver.hxx:300-485). `error` is a thrown exception
(user function, NaN check, line search).  The recursion ends because `num_iters` grows to `max_iters`. -/
def innerLoop (P : Ctx X K H n m) (S : Settings K) (st : St X K H m) : Except String (St X K H m) :=
  match evalAt P S st.mu st.setMu st.rho st.target st.xOpt st.lamsOpt st.lamsPrev with
  | none => .error "evaluation"
  | some ev =>
    let st1 := afterEval P st ev
    if ev.innerCrit ≤ st.innerTol ∨ ev.outerCrit ≤ S.targetTol then .ok st1
    else
      match P.step (stepIn st1 ev) with
      | .error e => .error e
      | .ok o =>
        let st2 := { acceptStep st1 o with numIters := st.numIters + 1 }
        if st.numIters + 1 ≥ S.maxIters then .ok { st2 with converged := .maxIters }
        else innerLoop P S st2
termination_by S.maxIters - st.numIters
decreasing_by omega

/-- Body of the outer loop after `innerLoop` returned, up to the convergence test
(prox-solver.hxx:90-100). -/
def afterInner (S : Settings K) (st : St X K H m) : St X K H m :=
  let st := { st with
    xPrev := st.xOpt, target := st.xOpt, endLog := st.endLog ++ [⟨st.prim, st.dual, st.xOpt⟩] }
  if st.prim < st.primTol then updateToleranceSuccess S (acceptMultipliers S st)
  else updateToleranceFailure S (updatePenalty S st)

/-- Lines 86-88: record parameters and reset the locals of `innerLoop`. Lines of prox-solver.hxx. -/
def startOuter (P : Ctx X K H n m) (st : St X K H m) : St X K H m :=
  { st with
    resMu := st.mu, resRho := st.rho, hidden := P.enterInner st.hidden
    outerLog := st.outerLog ++ [⟨st.mu, st.rho, st.innerTol, st.primTol, st.setMu, st.target, st.xOpt⟩] }

/-- The outer loop (prox-solver.hxx:85-108). `alIters` is written as `st.alIters + 1` (innerLoop does not
change it). -/
def outerLoop (P : Ctx X K H n m) (S : Settings K) (st : St X K H m) : Except String (St X K H m) :=
  if st.numIters < S.maxIters ∧ st.alIters < S.maxAlIters then
    match innerLoop P S (startOuter P st) with
    | .error e => .error e
    | .ok st1 =>
      let st2 := afterInner S st1
      if max st2.prim st2.dual < S.targetTol then .ok { st2 with converged := .success }
      else
        outerLoop P S { setProxParameter st2 (st2.rho * S.rhoUpdateFactor) with alIters := st.alIters + 1 }
  else .ok st
termination_by S.maxAlIters - st.alIters
decreasing_by omega

/-- Initialisation part of `solve` (prox-solver.hxx:65-83).  Multipliers of the wrong size are ignored
(line 71). Ghost logs are cleared. -/
def initSolve (S : Settings K) (st : St X K H m) (x0 : X) (k : ℕ) (lams0 : Fin k → K) : St X K H m :=
  let st := setPenalty st S.muInit
  let st := setProxParameter st S.rhoInit
  let st := { st with xOpt := x0, xPrev := x0 }
  let st := if h : k = m then
      let l := fun i : Fin m => lams0 (Fin.cast h.symm i)
      { st with lamsOpt := l, lamsPrev := l }
    else st
  let st := updateToleranceFailure S st
  { st with converged := .uninit, numIters := 0, alIters := 0, trace := [], outerLog := [], endLog := [], accepted := [] }

/-- `solve(x0, lams0)` (prox-solver.hxx:51-127): returns the final state; the returned flag is its
`converged` member. -/
def solve (P : Ctx X K H n m) (S : Settings K) (st : St X K H m) (x0 : X) (k : ℕ) (lams0 : Fin k → K) :
    Except String (St X K H m) :=
  if st.hasSetup = false then
    .error "Either Results or Workspace are unitialized. Call setup() first."
  else
    match outerLoop P S (initSolve S st x0 k lams0) with
    | .error e => .error e
    | .ok st => .ok (invokeCallbacks st)

/-- State of a freshly constructed solver (prox-solver.hxx:16-29, prox-solver.hpp:87-100), before `setup()`;
`h0` is the initial hidden state. -/
def St.fresh (P : Ctx X K H n m) (S : Settings K) (h0 : H) : St X K H m :=
  { hasSetup := false, xOpt := P.neutral, xPrev := P.neutral, lamsOpt := fun _ => 0, lamsPrev := fun _ => 0,
    lamsPlus := fun _ => 0, lamsPdal := fun _ => 0, mu := S.muInit, setMu := 0, rho := S.rhoInit,
    primTol := S.primTol0, innerTol := S.innerTol0, target := P.neutral, converged := .success,
    numIters := 0, alIters := 0, prim := 0, dual := 0, value := 0, merit := 0, active := fun _ => false,
    rowErr := fun _ => 0, resMu := 0, resRho := 0,
    hidden := h0, callbacks := [], trace := [], outerLog := [], endLog := [], accepted := [] }

/-- `setup()`: new workspace and results (prox-solver.hpp:147-163, workspace.hpp:143-196,
results.hpp:48-59): all multipliers zero, `x_opt = neutral`; the proximal target is NOT reset. -/
def setup (P : Ctx X K H n m) (h0 : H) (st : St X K H m) : St X K H m :=
  { st with
    hasSetup := true, xOpt := P.neutral, xPrev := P.neutral, lamsOpt := fun _ => 0,
    lamsPrev := fun _ => 0, lamsPlus := fun _ => 0, lamsPdal := fun _ => 0, converged := .success,
    numIters := 0, alIters := 0, prim := 0, dual := 0, active := fun _ => false, rowErr := fun _ => 0,
    resMu := 0, resRho := 0, hidden := h0 }

/-- `results.constraint_violations(i)` (prox-solver.hxx:257-263) for constraints of the given dimensions; `none`: no
such constraint. -/
def constraintViolation (sizes : List ℕ) (st : St X K H sizes.sum) (i : ℕ) : Option K := do
  let d ← sizes[i]?
  let b ← readBlock st.rowErr (startIdx sizes i) d
  pure (inftyNorm b)

/-- `results.active_set[i]` (prox-solver.hxx:306-310, results.hpp:34, 55-57); `none`: no such constraint. -/
def activeSetOf (sizes : List ℕ) (st : St X K H sizes.sum) (i : ℕ) : Option (Σ d, Fin d → Bool) := do
  let d ← sizes[i]?
  let b ← readBlock st.active (startIdx sizes i) d
  pure ⟨d, b⟩

/-- `registerCallback`, `clearCallbacks` (prox-solver.hpp:213-216). -/
def registerCallback (st : St X K H m) (cb : ℕ) : St X K H m := { st with callbacks := st.callbacks ++ [cb] }
/-- `clearCallbacks`, prox-solver.hpp:218-219 -/
def clearCallbacks (st : St X K H m) : St X K H m := { st with callbacks := [] }

/-- outcome of the block version of `solve` (prox-solver.hxx:31-49) -/
inductive BlockSolve (α : Type) where
  | error (msg : String)
  | undefined
  | ok (r : α)

/-- Eigen vector assignment `block = l` for a fixed-size destination: sizes must agree (`none`:
assertion). prox-solver.hxx:31-49. -/
def assignOp (l : Σ k, Fin k → K) : BlockOp K K := fun size _ _ =>
  if h : l.1 = size then some fun j => l.2 (Fin.cast h.symm j) else none

/-- `solve(x0, vector<VectorRef> lams0)` (prox-solver.hxx:31-49): wrong number of blocks throws, a block of the
wrong size violates Eigen's size assertion (`undefined`), otherwise the blocks are copied into a zero
vector at the constraint's segment and the other overload is called.  `sizes` are the constraint dimensions. -/
def stackLams (sizes : List ℕ) (lams0 : List (Σ k, Fin k → K)) : BlockSolve (Fin sizes.sum → K) :=
  if sizes.length ≠ lams0.length then
    .error "Specified number of constraints is not the same as the provided number of multipliers!"
  else
    match blockLoop (lams0.map assignOp) sizes sizes.sum (fun _ => 0) (fun _ => 0) with
    | none => .undefined
    | some l => .ok l

/-- the block overload (prox-solver.hxx:31-49) -/
def solveBlocks (sizes : List ℕ) (P : Ctx X K H n sizes.sum) (S : Settings K) (st : St X K H sizes.sum)
    (x0 : X) (lams0 : List (Σ k, Fin k → K)) : BlockSolve (Except String (St X K H sizes.sum)) :=
  match stackLams sizes lams0 with
  | .error e => .error e
  | .undefined => .undefined
  | .ok l => .ok (solve P S st x0 sizes.sum l)

end ProxNLP
