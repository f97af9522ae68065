import Verif.Model.ExtSolver
import Verif.Model.FloatSets

/-!
The solver loop in floating-point arithmetic with rounding, overflow, NaN and infinities.

`Model/ExtSolver.lean` has NaN and infinities but computes finite numbers exactly; `Model/FloatSolver.lean` rounds but never overflows.
Here every operation on values computed from user functions rounds its exact result, and a rounded result larger than the largest
finite number becomes an infinity.  Settings, penalty and proximal parameters and tolerances are ordinary (rounded) numbers: their updates
are parameters, as in `Model/FloatSolver.lean`.
-/

namespace ProxNLP

open ExtScalar

/-- The arithmetic of `double` with overflow: rounding with unlimited exponents, and the largest finite number (the scalar type of every
instantiation, include/proxsuite-nlp/context.hpp:9). -/
structure OvArith (K : Type) [Field K] [LinearOrder K] extends Rounding K where
  big : K

section sets
variable {K : Type} [Field K] [LinearOrder K]

/-- What an operation returns whose exact result is `e`: the rounded number, an infinity if that is too large (IEEE 754, 7.4); NaN and
infinities stay (the arithmetic of `double` used in prox-solver.hxx) -/
def OvArith.rd (A : OvArith K) : ExtScalar K → ExtScalar K
  | fin x => if A.big < A.rnd x then posInf else if A.rnd x < -A.big then negInf else fin (A.rnd x)
  | e => e

/-- One row of `projection` (equality-constraint.hpp:34-36, negative-orthant.hpp:32-34, box-constraint.hpp:28-34, l1-penalty.hpp:36-43):
only the subtraction of the L1 penalty rounds. -/
def ExtSet.ovProj (A : OvArith K) (s : ExtSet K) (mu : K) (z : ExtScalar K) : ExtScalar K :=
  match s with
  | .equality => fin 0
  | .negOrthant => stdMin z (fin 0)
  | .box lo hi => stdMax (stdMin z hi) lo
  | .l1 => sign z * stdMax (A.rd (abs z - fin mu)) (fin 0)

/-- One row of `normalConeProjection` (equality-constraint.hpp:38-41, negative-orthant.hpp:36-38, box-constraint.hpp:36-38,
l1-penalty.hpp:45-47). -/
def ExtSet.ovNormal (A : OvArith K) (s : ExtSet K) (mu : K) (z : ExtScalar K) : ExtScalar K :=
  match s with
  | .equality => z
  | .negOrthant => stdMax z (fin 0)
  | .box lo hi => A.rd (z - stdMax (stdMin z hi) lo)
  | .l1 => A.rd (z - sign z * stdMax (A.rd (abs z - fin mu)) (fin 0))

/-- `c + mu_ * lam`, one entry (prox-solver.hxx:173-174, 252-254); the compiler may fuse the two operations -/
def ovShift (A : OvArith K) (fused : Bool) (mu : K) (c lam : ExtScalar K) : ExtScalar K :=
  if fused then A.rd (c + fin mu * lam) else A.rd (c + A.rd (fin mu * lam))

/-- `shift - 0.5 * mu_ * lam`, one entry (prox-solver.hxx:185-186) -/
def ovShiftPdal (A : OvArith K) (fused : Bool) (mu : K) (lam shift : ExtScalar K) : ExtScalar K :=
  if fused then A.rd (shift - fin (A.rnd (1 / 2 * mu)) * lam) else A.rd (shift - A.rd (fin (A.rnd (1 / 2 * mu)) * lam))

/-- one entry of `cstr_prox_err` (prox-solver.hxx:258-262) -/
def ovRowErr (A : OvArith K) (s : ExtSet K) (fused : Bool) (mu : K) (c lam : ExtScalar K) : ExtScalar K :=
  A.rd (c - s.ovProj A mu (ovShift A fused mu c lam))

/-- A sum computed in the order `t` (as `SumTree.eval`). Not in the code: Eigen's matrix-vector products, as used in
prox-solver.hxx:328-330, 356-358. -/
def SumTree.ovEval {I : Type} (A : OvArith K) (g : ExtScalar K) (f : I → ExtScalar K × ExtScalar K) : SumTree I → ExtScalar K
  | zero => fin 0
  | init => g
  | prod i => A.rd ((f i).1 * (f i).2)
  | add s t => A.rd (s.ovEval A g f + t.ovEval A g f)
  | fma i t => A.rd ((f i).1 * (f i).2 + t.ovEval A g f)

end sets

/-- A problem whose functions may return non-finite values, and the parts of the solver and of the platform that are not spelled out:
* `eval`, `grad`, `jac`, `proxGrad`, `sets`, `blocks`, `norm`, `matrixOk`, `updHess`, `enterInner`, `step`: as in `ExtCtx`;
* `order`, `rhsOrder`: order of summation of the dual residual (prox-solver.hxx:356-358) and of the right-hand side of the linear system
  (328-330); `fused`, `fusedPrev`, `fusedPdal`: use of fused operations in 252-254, 173-174 and 185-186; all may change between calls;
* `nextMu`, `tolSuccess`, `tolFailure`: the updates of the penalty and of the tolerances (270-276, 564-582) as computed. -/
structure OvCtx (X K H : Type) (n m : ℕ) where
  eval : X → Option (ExtScalar K × (Fin m → ExtScalar K))
  grad : X → Fin n → ExtScalar K
  jac : X → Fin m → Fin n → ExtScalar K
  proxGrad : K → X → X → Fin n → ExtScalar K
  sets : Fin m → ExtSet K
  blocks : List (List (Fin m))
  norm : List (ExtScalar K) → ExtScalar K
  order : H → Fin n → SumTree (Fin m)
  rhsOrder : H → Fin n → SumTree (Fin m)
  fused : H → Fin m → Bool
  fusedPrev : H → Fin m → Bool
  fusedPdal : H → Fin m → Bool
  matrixOk : H → Bool
  updHess : H → X → (Fin n → ExtScalar K) → (Fin m → ExtScalar K) → H
  enterInner : H → H
  step : ExtStepIn X K H m → Option (ExtStepOut X K H m)
  nextMu : K → K
  tolSuccess : K → K × K → K × K
  tolFailure : K → K × K

/-- The members of the solver, its workspace and its results used here (as `FlSt`). prox-solver.hpp:60-140, results.hpp:26-46,
workspace.hpp:34-121. -/
structure OvSt (X K H : Type) (m : ℕ) where
  xOpt : X
  lamsOpt : Fin m → ExtScalar K
  lamsPrev : Fin m → ExtScalar K
  lamsPlus : Fin m → ExtScalar K
  lamsPdal : Fin m → ExtScalar K
  mu : K
  rho : K
  tols : K × K
  target : X
  converged : Flag
  numIters : ℕ
  alIters : ℕ
  prim : ExtScalar K
  dual : ExtScalar K
  value : ExtScalar K
  resMu : K
  hidden : H

section loop
variable {X K H : Type} {n m : ℕ} [Field K] [LinearOrder K]

/-- `computePrimalResiduals` (prox-solver.hxx:249-268): the norm over the constraints of the norms over their rows. -/
def ovPrim (A : OvArith K) (P : OvCtx X K H n m) (h : H) (mu : K) (c lam : Fin m → ExtScalar K) : ExtScalar K :=
  P.norm (P.blocks.map fun b => P.norm (b.map fun i => ovRowErr A (P.sets i) (P.fused h i) mu (c i) (lam i)))

/-- one entry of `dual_residual` or of the head of `kkt_rhs` before the proximal term, with the order of summation `t`
(prox-solver.hxx:327-330, 356-358) -/
def ovLagGrad (A : OvArith K) (P : OvCtx X K H n m) (t : Fin n → SumTree (Fin m)) (x : X) (lam : Fin m → ExtScalar K) (j : Fin n) :
    ExtScalar K :=
  (t j).ovEval A (P.grad x j) fun i => (P.jac x i j, lam i)

/-- Lines 302-348 and 353-361: multiplier estimates (169-189), right-hand side and residuals. Lines of prox-solver.hxx. -/
def ovEval (A : OvArith K) (P : OvCtx X K H n m) (S : Settings K) (h : H) (mu rho : K) (target x : X) (lam lamPrev : Fin m → ExtScalar K) :
    Option (ExtEval K n m) :=
  (P.eval x).map fun fc =>
    let c := fc.2
    let shift := fun i => ovShift A (P.fusedPrev h i) mu (c i) (lamPrev i)
    let lamsPlus := fun i => A.rd (fin (A.rnd (1 / mu)) * (P.sets i).ovNormal A mu (shift i))
    let shiftPdal := fun i => ovShiftPdal A (P.fusedPdal h i) mu (lam i) (shift i)
    let lamsPdal := fun i => A.rd ((P.sets i).ovNormal A mu (shiftPdal i) * fin (A.rnd (A.rnd (1 / mu) / S.pdalBeta)))
    let top0 := ovLagGrad A P (P.rhsOrder h) x lam
    let top := fun j => if 0 < rho then A.rd (top0 j + P.proxGrad rho target x j) else top0 j
    let bot := fun i => match S.kkt with
      | .classic => A.rd (fin mu * A.rd (lamsPlus i - lam i))
      | .primalDual => A.rd (fin (A.rnd (1 / 2 * mu)) * A.rd (lamsPdal i - lam i))
    { value := fc.1, lamsPlus := lamsPlus, lamsPdal := lamsPdal, rhsTop := top, rhsBot := bot,
      prim := ovPrim A P h mu c lam, dual := P.norm (List.ofFn (ovLagGrad A P (P.order h) x lam)),
      innerCrit := P.norm (List.ofFn top ++ List.ofFn bot) }

/-- State after the test quantities have been computed (302-361). Lines of prox-solver.hxx. -/
def ovAfterEval (P : OvCtx X K H n m) (st : OvSt X K H m) (ev : ExtEval K n m) : OvSt X K H m :=
  { st with
    lamsPlus := ev.lamsPlus, lamsPdal := ev.lamsPdal, value := ev.value, prim := ev.prim, dual := ev.dual
    hidden := P.updHess st.hidden st.xOpt (P.grad st.xOpt) ev.lamsPdal }

/-- `innerLoop` (prox-solver.hxx:300-485), `none` = exception: by a user function, by the finite-value checks (350-351, 434, 457-463) or
inside the step. -/
def ovInner (A : OvArith K) (P : OvCtx X K H n m) (S : Settings K) (st : OvSt X K H m) : Option (OvSt X K H m) :=
  match ovEval A P S st.hidden st.mu st.rho st.target st.xOpt st.lamsOpt st.lamsPrev with
  | none => none
  | some ev =>
    if ev.rhsOk = false ∨ P.matrixOk st.hidden = false then none
    else
      let st1 := ovAfterEval P st ev
      if le ev.innerCrit (fin st.tols.1) = true ∨ le (stdMax ev.prim ev.dual) (fin S.targetTol) = true then some st1
      else
        match P.step ⟨st1.xOpt, st1.lamsOpt, st1.lamsPrev, st1.target, st1.mu, st1.rho, st1.hidden⟩ with
        | none => none
        | some o =>
          if checkValue (List.ofFn o.lam) = true ∨ checkScalar o.merit = true then none
          else
            let st2 := { st1 with
              xOpt := o.x, lamsOpt := o.lam, lamsPlus := o.lamsPlus, lamsPdal := o.lamsPdal, hidden := o.hidden
              numIters := st.numIters + 1 }
            if st.numIters + 1 ≥ S.maxIters then some { st2 with converged := .maxIters }
            else ovInner A P S st2
termination_by S.maxIters - st.numIters
decreasing_by omega

/-- Lines 90-100: acceptance of the multipliers (150-167) or update of the penalty (270-276); `tols` are the inner and the primal
tolerance. Lines of prox-solver.hxx. -/
def ovAfterInner (P : OvCtx X K H n m) (S : Settings K) (st : OvSt X K H m) : OvSt X K H m :=
  let st := { st with target := st.xOpt }
  if lt st.prim (fin st.tols.2) = true then
    let prev := match S.mode with
      | .newton => st.lamsOpt
      | .primal => st.lamsPlus
      | .primalDual => st.lamsPdal
    { st with lamsPrev := prev, lamsOpt := prev, tols := P.tolSuccess st.mu st.tols }
  else { st with mu := P.nextMu st.mu, tols := P.tolFailure (P.nextMu st.mu) }

/-- The outer loop (prox-solver.hxx:85-108). -/
def ovOuter (A : OvArith K) (P : OvCtx X K H n m) (S : Settings K) (st : OvSt X K H m) : Option (OvSt X K H m) :=
  if st.numIters < S.maxIters ∧ st.alIters < S.maxAlIters then
    match ovInner A P S { st with resMu := st.mu, hidden := P.enterInner st.hidden } with
    | none => none
    | some st1 =>
      let st2 := ovAfterInner P S st1
      if lt (stdMax st2.prim st2.dual) (fin S.targetTol) = true then some { st2 with converged := .success }
      else ovOuter A P S { st2 with rho := A.rnd (st2.rho * S.rhoUpdateFactor), alIters := st.alIters + 1 }
  else some st
termination_by S.maxAlIters - st.alIters
decreasing_by omega

/-- `solve(x0, lams0)` with multipliers of the right size, after `setup()` (prox-solver.hxx:51-127). -/
def ovSolve (A : OvArith K) (P : OvCtx X K H n m) (S : Settings K) (st : OvSt X K H m) (x0 : X) (lams0 : Fin m → ExtScalar K) :
    Option (OvSt X K H m) :=
  ovOuter A P S { st with
    mu := S.muInit, rho := S.rhoInit, tols := P.tolFailure S.muInit, xOpt := x0, lamsOpt := lams0, lamsPrev := lams0
    converged := .uninit, numIters := 0, alIters := 0 }

end loop

end ProxNLP
