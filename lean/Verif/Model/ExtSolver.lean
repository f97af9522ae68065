import Verif.Model.Solver

/-!
The solver loop on problems whose functions may return NaN or infinite values.

`Model/Solver.lean` has no NaN: a non-finite value can only appear there as a thrown exception.  Here the scalars computed from user
functions are `ExtScalar`s (finite numbers, NaN, +∞, -∞) with the IEEE rules; finite numbers are exact (no rounding, no overflow).
Settings, penalty and proximal parameters are ordinary numbers.

Element-wise `cwiseMin`/`cwiseMax` follow `std::min`/`std::max` (Eigen's `numext::mini`/`maxi`, and its vectorised versions on x86, keep
that operand order).  The maximum over the entries of a vector that contains a NaN is unspecified in Eigen (`PropagateFast`); it is the
parameter `ExtCtx.norm` here.
-/

namespace ProxNLP

namespace ExtScalar

variable {K : Type} [Field K] [LinearOrder K]

/-- addition of floating-point numbers: NaN is absorbing, opposite infinities give NaN (the
arithmetic of `double` used in prox-solver.hxx and math.hpp) -/
def add : ExtScalar K → ExtScalar K → ExtScalar K
  | fin a, fin b => fin (a + b)
  | nan, _ => nan
  | _, nan => nan
  | posInf, negInf => nan
  | negInf, posInf => nan
  | posInf, _ => posInf
  | _, posInf => posInf
  | negInf, _ => negInf
  | _, negInf => negInf

/-- sign change (the arithmetic of `double` used in prox-solver.hxx and math.hpp) -/
def neg : ExtScalar K → ExtScalar K
  | fin a => fin (-a)
  | nan => nan
  | posInf => negInf
  | negInf => posInf

/-- product of an infinity with a finite number of sign `s`: zero times infinity is NaN (the
arithmetic of `double` used in prox-solver.hxx and math.hpp) -/
def infTimes (a : K) : ExtScalar K := if a = 0 then nan else if 0 < a then posInf else negInf

/-- multiplication of floating-point numbers (the arithmetic of `double` used in prox-solver.hxx
and math.hpp) -/
def mul : ExtScalar K → ExtScalar K → ExtScalar K
  | fin a, fin b => fin (a * b)
  | nan, _ => nan
  | _, nan => nan
  | posInf, fin a => infTimes a
  | fin a, posInf => infTimes a
  | negInf, fin a => infTimes (-a)
  | fin a, negInf => infTimes (-a)
  | posInf, posInf => posInf
  | negInf, negInf => posInf
  | posInf, negInf => negInf
  | negInf, posInf => negInf

/-- `a < b`: false if one is NaN (the arithmetic of `double` used in prox-solver.hxx and math.hpp) -/
def lt : ExtScalar K → ExtScalar K → Bool
  | fin a, fin b => decide (a < b)
  | nan, _ => false
  | _, nan => false
  | negInf, negInf => false
  | negInf, _ => true
  | _, negInf => false
  | fin _, posInf => true
  | posInf, _ => false

/-- `a <= b`: false if one is NaN (the arithmetic of `double` used in prox-solver.hxx and
math.hpp) -/
def le : ExtScalar K → ExtScalar K → Bool
  | fin a, fin b => decide (a ≤ b)
  | nan, _ => false
  | _, nan => false
  | negInf, _ => true
  | fin _, posInf => true
  | posInf, posInf => true
  | _, _ => false

/-- absolute value (the arithmetic of `double` used in prox-solver.hxx and math.hpp) -/
def abs : ExtScalar K → ExtScalar K
  | fin a => fin |a|
  | nan => nan
  | _ => posInf

/-- `std::max(a, b)`: `(a < b) ? b : a` (called in math.hpp:64, prox-solver.hxx:355-361, 270-276,
564-576) -/
def stdMax (a b : ExtScalar K) : ExtScalar K := if lt a b then b else a

/-- `std::min(a, b)`: `(b < a) ? b : a` (called in prox-solver.hxx:564-582) -/
def stdMin (a b : ExtScalar K) : ExtScalar K := if lt b a then b else a

/-- Eigen's `sign()`: `(a > 0) - (a < 0)` (l1-penalty.hpp:36-40) -/
def sign (a : ExtScalar K) : ExtScalar K := fin ((if lt (fin 0) a then 1 else 0) - if lt a (fin 0) then 1 else 0)

/-- the arithmetic of `double` used in prox-solver.hxx -/
instance : Add (ExtScalar K) := ⟨add⟩
/-- the arithmetic of `double` used in prox-solver.hxx -/
instance : Neg (ExtScalar K) := ⟨neg⟩
/-- the arithmetic of `double` used in prox-solver.hxx -/
instance : Sub (ExtScalar K) := ⟨fun a b => add a (neg b)⟩
/-- the arithmetic of `double` used in prox-solver.hxx -/
instance : Mul (ExtScalar K) := ⟨mul⟩
/-- the arithmetic of `double` used in prox-solver.hxx -/
instance : Zero (ExtScalar K) := ⟨fin 0⟩

end ExtScalar

open ExtScalar

/-- One row of a built-in constraint set; the bounds of a box may be infinite (box-constraint.hpp:18-22, equality-constraint.hpp:18,
negative-orthant.hpp:19, l1-penalty.hpp:18). -/
inductive ExtSet (K : Type) where
  | equality
  | negOrthant
  | box (lower upper : ExtScalar K)
  | l1

section sets
variable {K : Type} [Field K] [LinearOrder K]

/-- One row of `projection` (equality-constraint.hpp:34-36, negative-orthant.hpp:32-34, box-constraint.hpp:28-34, l1-penalty.hpp:36-43). -/
def ExtSet.proj (s : ExtSet K) (mu : K) (z : ExtScalar K) : ExtScalar K :=
  match s with
  | .equality => fin 0
  | .negOrthant => stdMin z (fin 0)
  | .box lo hi => stdMax (stdMin z hi) lo
  | .l1 => sign z * stdMax (abs z - fin mu) (fin 0)

/-- One row of `normalConeProjection` (equality-constraint.hpp:38-41, negative-orthant.hpp:36-38, box-constraint.hpp:36-38,
l1-penalty.hpp:45-47). -/
def ExtSet.normal (s : ExtSet K) (mu : K) (z : ExtScalar K) : ExtScalar K :=
  match s with
  | .equality => z
  | .negOrthant => stdMax z (fin 0)
  | .box lo hi => z - stdMax (stdMin z hi) lo
  | .l1 => z - sign z * stdMax (abs z - fin mu) (fin 0)

end sets

/-- What the computation of a step may depend on (as `StepIn`, without the values recomputable
from the point). prox-solver.hxx:369-465. -/
structure ExtStepIn (X K H : Type) (m : ℕ) where
  x : X
  lam : Fin m → ExtScalar K
  lamPrev : Fin m → ExtScalar K
  target : X
  mu : K
  rho : K
  hidden : H

/-- What a step computation leaves (as `StepOut`). prox-solver.hxx:369-465. -/
structure ExtStepOut (X K H : Type) (m : ℕ) where
  x : X
  lam : Fin m → ExtScalar K
  merit : ExtScalar K
  lamsPlus : Fin m → ExtScalar K
  lamsPdal : Fin m → ExtScalar K
  hidden : H

/-- A problem whose functions may return non-finite values, and the parts of the solver that are not spelled out here:
* `eval`, `grad`, `jac`, `proxGrad`, `updHess`, `enterInner`: as in `Ctx`;
* `sets`: one set per row; `blocks`: the rows of each constraint;
* `norm`: Eigen's largest absolute entry of a vector;
* `matrixOk`: the finite-value check of the stored KKT matrix, which is that of the previous pass (prox-solver.hxx:351);
* `step`: everything between the convergence test and the acceptance of the step (369-455); `none` = exception. -/
structure ExtCtx (X K H : Type) (n m : ℕ) where
  eval : X → Option (ExtScalar K × (Fin m → ExtScalar K))
  grad : X → Fin n → ExtScalar K
  jac : X → Fin m → Fin n → ExtScalar K
  proxGrad : K → X → X → Fin n → ExtScalar K
  sets : Fin m → ExtSet K
  blocks : List (List (Fin m))
  norm : List (ExtScalar K) → ExtScalar K
  matrixOk : H → Bool
  updHess : H → X → (Fin n → ExtScalar K) → (Fin m → ExtScalar K) → H
  enterInner : H → H
  step : ExtStepIn X K H m → Option (ExtStepOut X K H m)

/-- Values computed at the top of the loop body (prox-solver.hxx:302-361). -/
structure ExtEval (K : Type) (n m : ℕ) where
  value : ExtScalar K
  lamsPlus : Fin m → ExtScalar K
  lamsPdal : Fin m → ExtScalar K
  rhsTop : Fin n → ExtScalar K
  rhsBot : Fin m → ExtScalar K
  prim : ExtScalar K
  dual : ExtScalar K
  innerCrit : ExtScalar K

/-- The members of the solver, its workspace and its results used here (as `St`).
prox-solver.hpp:60-140, results.hpp:26-46, workspace.hpp:34-121. -/
structure ExtSt (X K H : Type) (m : ℕ) where
  xOpt : X
  lamsOpt : Fin m → ExtScalar K
  lamsPrev : Fin m → ExtScalar K
  lamsPlus : Fin m → ExtScalar K
  lamsPdal : Fin m → ExtScalar K
  mu : K
  rho : K
  primTol : K
  innerTol : K
  target : X
  converged : Flag
  numIters : ℕ
  alIters : ℕ
  prim : ExtScalar K
  dual : ExtScalar K
  value : ExtScalar K
  resMu : K
  hidden : H

section loop
variable {X K H : Type} {n m : ℕ} [Field K] [LinearOrder K]

/-- One row of `cstr_prox_err` (prox-solver.hxx:252-262). -/
def extRowErr (P : ExtCtx X K H n m) (mu : K) (c lam : Fin m → ExtScalar K) (i : Fin m) : ExtScalar K :=
  c i - (P.sets i).proj mu (c i + fin mu * lam i)

/-- `computePrimalResiduals` (prox-solver.hxx:249-268): the norm over the constraints of the norms over their rows. -/
def extPrim (P : ExtCtx X K H n m) (mu : K) (c lam : Fin m → ExtScalar K) : ExtScalar K :=
  P.norm (P.blocks.map fun b => P.norm (b.map (extRowErr P mu c lam)))

/-- Lines 302-348 and 353-361: multiplier estimates (169-189), right-hand side and residuals.
Lines of prox-solver.hxx. -/
def extEval (P : ExtCtx X K H n m) (S : Settings K) (mu rho : K) (target x : X) (lam lamPrev : Fin m → ExtScalar K) :
    Option (ExtEval K n m) :=
  (P.eval x).map fun fc =>
    let c := fc.2
    let shift := fun i => c i + fin mu * lamPrev i
    let lamsPlus := fun i => fin (1 / mu) * (P.sets i).normal mu (shift i)
    let shiftPdal := fun i => shift i - fin (1 / 2 * mu) * lam i
    let lamsPdal := fun i => (P.sets i).normal mu (shiftPdal i) * fin ((1 / mu) / S.pdalBeta)
    let top0 := fun j => P.grad x j + (List.ofFn fun i => P.jac x i j * lam i).sum
    let top := fun j => if 0 < rho then top0 j + P.proxGrad rho target x j else top0 j
    let bot := fun i => match S.kkt with
      | .classic => fin mu * (lamsPlus i - lam i)
      | .primalDual => fin (1 / 2 * mu) * (lamsPdal i - lam i)
    { value := fc.1, lamsPlus := lamsPlus, lamsPdal := lamsPdal, rhsTop := top, rhsBot := bot,
      prim := extPrim P mu c lam, dual := P.norm (List.ofFn top0),
      innerCrit := P.norm (List.ofFn top ++ List.ofFn bot) }

/-- `PROXSUITE_NLP_RAISE_IF_NAN_NAME(workspace.kkt_rhs, ...)` does not raise (prox-solver.hxx:350, exceptions.hpp:21-24). -/
def ExtEval.rhsOk (ev : ExtEval K n m) : Bool := !(checkValue (List.ofFn ev.rhsTop ++ List.ofFn ev.rhsBot))

/-- State after the test quantities have been computed (302-361). Lines of prox-solver.hxx. -/
def extAfterEval (P : ExtCtx X K H n m) (st : ExtSt X K H m) (ev : ExtEval K n m) : ExtSt X K H m :=
  { st with
    lamsPlus := ev.lamsPlus, lamsPdal := ev.lamsPdal, value := ev.value, prim := ev.prim, dual := ev.dual
    hidden := P.updHess st.hidden st.xOpt (P.grad st.xOpt) ev.lamsPdal }

/-- `innerLoop` (prox-solver.hxx:300-485), `none` = exception: by a user function, by the finite-value checks (350-351, 434, 457-463) or
inside the step. -/
def extInner (P : ExtCtx X K H n m) (S : Settings K) (st : ExtSt X K H m) : Option (ExtSt X K H m) :=
  match extEval P S st.mu st.rho st.target st.xOpt st.lamsOpt st.lamsPrev with
  | none => none
  | some ev =>
    if ev.rhsOk = false ∨ P.matrixOk st.hidden = false then none
    else
      let st1 := extAfterEval P st ev
      if le ev.innerCrit (fin st.innerTol) = true ∨ le (stdMax ev.prim ev.dual) (fin S.targetTol) = true then some st1
      else
        match P.step ⟨st1.xOpt, st1.lamsOpt, st1.lamsPrev, st1.target, st1.mu, st1.rho, st1.hidden⟩ with
        | none => none
        | some o =>
          if checkValue (List.ofFn o.lam) = true ∨ checkScalar o.merit = true then none
          else
            let st2 := { st1 with
              xOpt := o.x, lamsOpt := o.lam, lamsPlus := o.lamsPlus, lamsPdal := o.lamsPdal, hidden := o.hidden
              numIters := st.numIters + 1 }
            if st.numIters + 1 ≥ S.maxIters then some { st2 with converged := .maxIters }
            else extInner P S st2
termination_by S.maxIters - st.numIters
decreasing_by omega

/-- `tolerancePostUpdate` (prox-solver.hxx:578-582) -/
def extTolPost (S : Settings K) (st : ExtSt X K H m) : ExtSt X K H m :=
  { st with innerTol := max st.innerTol S.innerTolMin, primTol := max st.primTol S.targetTol }

/-- `updateToleranceFailure` (564-569) (lines of prox-solver.hxx) -/
def extTolFailure (S : Settings K) (st : ExtSt X K H m) : ExtSt X K H m :=
  extTolPost S { st with
    primTol := S.primTol0 * S.pow st.mu S.primAlpha, innerTol := S.innerTol0 * S.pow st.mu S.dualAlpha }

/-- `updateToleranceSuccess` (571-576) (lines of prox-solver.hxx) -/
def extTolSuccess (S : Settings K) (st : ExtSt X K H m) : ExtSt X K H m :=
  extTolPost S { st with
    primTol := st.primTol * S.pow (st.mu / S.muUpper) S.primBeta, innerTol := st.innerTol * S.pow (st.mu / S.muUpper) S.dualBeta }

/-- Lines 90-100: acceptance of the multipliers (150-167) or update of the penalty (270-276).
Lines of prox-solver.hxx. -/
def extAfterInner (S : Settings K) (st : ExtSt X K H m) : ExtSt X K H m :=
  let st := { st with target := st.xOpt }
  if lt st.prim (fin st.primTol) = true then
    let prev := match S.mode with
      | .newton => st.lamsOpt
      | .primal => st.lamsPlus
      | .primalDual => st.lamsPdal
    extTolSuccess S { st with lamsPrev := prev, lamsOpt := prev }
  else
    extTolFailure S { st with mu := if st.mu = S.muLower then S.muInit else max (st.mu * S.muUpdateFactor) S.muLower }

/-- The outer loop (prox-solver.hxx:85-108). -/
def extOuter (P : ExtCtx X K H n m) (S : Settings K) (st : ExtSt X K H m) : Option (ExtSt X K H m) :=
  if st.numIters < S.maxIters ∧ st.alIters < S.maxAlIters then
    match extInner P S { st with resMu := st.mu, hidden := P.enterInner st.hidden } with
    | none => none
    | some st1 =>
      let st2 := extAfterInner S st1
      if lt (stdMax st2.prim st2.dual) (fin S.targetTol) = true then some { st2 with converged := .success }
      else extOuter P S { st2 with rho := st2.rho * S.rhoUpdateFactor, alIters := st.alIters + 1 }
  else some st
termination_by S.maxAlIters - st.alIters
decreasing_by omega

/-- `solve(x0, lams0)` with multipliers of the right size, after `setup()` (prox-solver.hxx:51-127). -/
def extSolve (P : ExtCtx X K H n m) (S : Settings K) (st : ExtSt X K H m) (x0 : X) (lams0 : Fin m → ExtScalar K) :
    Option (ExtSt X K H m) :=
  extOuter P S { extTolFailure S { st with mu := S.muInit, rho := S.rhoInit, xOpt := x0, lamsOpt := lams0, lamsPrev := lams0 } with
    converged := .uninit, numIters := 0, alIters := 0 }

end loop

end ProxNLP
