import Verif.Model.Rounding
import Verif.Model.Solver

/-!
The solver loop in rounded arithmetic.

`Model/Solver.lean` computes exactly.  Here the residuals that decide about SUCCESS are computed with rounding, in any order of
summation and with or without fused operations.  Everything else the loop computes (multiplier estimates, step, inner criterion) is an
arbitrary function: nothing is assumed about its rounding errors.  Values of user functions are whatever the functions return.
No overflow: all numbers are finite (non-finite ones: `Model/ExtSolver.lean`).
-/

namespace ProxNLP

variable {X K H : Type} {n m : ℕ} [Field K] [LinearOrder K]

/-- One coordinate of `projection` in rounded arithmetic (equality-constraint.hpp:34-36, negative-orthant.hpp:32-34,
box-constraint.hpp:28-30, l1-penalty.hpp:36-39): comparisons, 0 and multiplication by a sign are exact, only the subtraction of the
L1 penalty rounds. -/
def LeafSet.flProjAt (R : Rounding K) (s : LeafSet K) (mu : K) (i : ℕ) (z : K) : K :=
  match s with
  | .equality => 0
  | .negOrthant => min z 0
  | .box lo hi => max (min z (hi i)) (lo i)
  | .l1 => signK z * max (R.rnd (|z| - mu)) 0

/-- `data_cstr_values + mu_ * data_lams_opt`, one entry (prox-solver.hxx:252-254); the compiler may fuse the two operations -/
def flShift (R : Rounding K) (fused : Bool) (mu c lam : K) : K :=
  if fused then R.rnd (c + mu * lam) else R.rnd (c + R.rnd (mu * lam))

/-- one entry of `cstr_prox_err` (prox-solver.hxx:258-262) -/
def flRowErr (R : Rounding K) (leaf : LeafSet K × ℕ) (fused : Bool) (mu c lam : K) : K :=
  R.rnd (c - leaf.1.flProjAt R mu leaf.2 (flShift R fused mu c lam))

/-- Inputs of a step. prox-solver.hxx:369-465. -/
structure FlIn (X K H : Type) (m : ℕ) where
  x : X
  lam : Fin m → K
  lamPrev : Fin m → K
  target : X
  mu : K
  rho : K
  hidden : H

/-- What a step leaves. prox-solver.hxx:369-465. -/
structure FlOut (X K H : Type) (m : ℕ) where
  x : X
  lam : Fin m → K
  lamsPlus : Fin m → K
  lamsPdal : Fin m → K
  hidden : H

/-- A problem together with the parts of the solver and of the platform that are not spelled out:
* `eval`, `grad`, `jac`: what the user's functions return; `sets`: the set of each row;
* `order`, `fused`: order of summation and use of fused operations, both may change from one call to the next (`hidden`);
* `crit`: the inner criterion (prox-solver.hxx:323-348, 360) as computed; `estimates`: the multiplier estimates as computed (169-189);
* `updHess`, `enterInner`: as in `Ctx`; `step`: everything from the convergence test to the acceptance of the step (369-463), `none` for
  an exception;
* `nextMu`, `tolSuccess`, `tolFailure`: the updates of the penalty and of the tolerances (270-276, 564-582) as computed. -/
structure FlCtx (X K H : Type) (n m : ℕ) where
  eval : X → Option (K × (Fin m → K))
  grad : X → Fin n → K
  jac : X → Fin m → Fin n → K
  sets : Fin m → LeafSet K × ℕ
  order : H → Fin n → SumTree (Fin m)
  fused : H → Fin m → Bool
  crit : FlIn X K H m → K
  estimates : FlIn X K H m → (Fin m → K) × (Fin m → K)
  updHess : H → X → (Fin n → K) → (Fin m → K) → H
  enterInner : H → H
  step : FlIn X K H m → Option (FlOut X K H m)
  nextMu : K → K
  tolSuccess : K → K × K → K × K
  tolFailure : K → K × K

/-- The members of the solver, its workspace and its results used here. prox-solver.hpp:60-140,
results.hpp:26-46, workspace.hpp:34-121. -/
structure FlSt (X K H : Type) (m : ℕ) where
  xOpt : X
  lamsOpt : Fin m → K
  lamsPrev : Fin m → K
  mu : K
  rho : K
  tols : K × K
  target : X
  converged : Flag
  numIters : ℕ
  alIters : ℕ
  prim : K
  dual : K
  resMu : K
  lamsPlus : Fin m → K
  lamsPdal : Fin m → K
  hidden : H

/-- the inputs of a step in the current state (prox-solver.hpp:60-140, results.hpp:26-46,
workspace.hpp:34-121) -/
def FlSt.input (st : FlSt X K H m) : FlIn X K H m := ⟨st.xOpt, st.lamsOpt, st.lamsPrev, st.target, st.mu, st.rho, st.hidden⟩

/-- `results.prim_infeas` (prox-solver.hxx:249-268) -/
def flPrim (R : Rounding K) (P : FlCtx X K H n m) (h : H) (mu : K) (c lam : Fin m → K) : K :=
  inftyNorm fun i => flRowErr R (P.sets i) (P.fused h i) mu (c i) (lam i)

/-- `results.dual_infeas` (prox-solver.hxx:356-359) -/
def flDual (R : Rounding K) (P : FlCtx X K H n m) (h : H) (x : X) (lam : Fin m → K) : K :=
  inftyNorm fun j => (P.order h j).eval R (P.grad x j) fun i => (P.jac x i j, lam i)

/-- Lines 302-361 of `innerLoop`: state after the test quantities have been computed; `none` if a
user function throws (lines of prox-solver.hxx) -/
def flEval (R : Rounding K) (P : FlCtx X K H n m) (st : FlSt X K H m) : Option (FlSt X K H m) :=
  (P.eval st.xOpt).map fun fc =>
    { st with
      prim := flPrim R P st.hidden st.mu fc.2 st.lamsOpt
      dual := flDual R P st.hidden st.xOpt st.lamsOpt
      lamsPlus := (P.estimates st.input).1
      lamsPdal := (P.estimates st.input).2
      hidden := P.updHess st.hidden st.xOpt (P.grad st.xOpt) (P.estimates st.input).2 }

/-- `innerLoop` (prox-solver.hxx:300-485), `none` = exception -/
def flInner (R : Rounding K) (P : FlCtx X K H n m) (S : Settings K) (st : FlSt X K H m) : Option (FlSt X K H m) :=
  match flEval R P st with
  | none => none
  | some st1 =>
    if P.crit st.input ≤ st.tols.1 ∨ max st1.prim st1.dual ≤ S.targetTol then some st1
    else
      match P.step st1.input with
      | none => none
      | some o =>
        let st2 := { st1 with
          xOpt := o.x, lamsOpt := o.lam, lamsPlus := o.lamsPlus, lamsPdal := o.lamsPdal, hidden := o.hidden
          numIters := st.numIters + 1 }
        if st.numIters + 1 ≥ S.maxIters then some { st2 with converged := .maxIters }
        else flInner R P S st2
termination_by S.maxIters - st.numIters
decreasing_by omega

/-- Lines 90-100: acceptance of the multipliers (150-167) or update of the penalty (270-276); `tols` are the inner and the primal
tolerance (lines of prox-solver.hxx) -/
def flAfterInner (P : FlCtx X K H n m) (S : Settings K) (st : FlSt X K H m) : FlSt X K H m :=
  let st := { st with target := st.xOpt }
  if st.prim < st.tols.2 then
    let prev := match S.mode with
      | .newton => st.lamsOpt
      | .primal => st.lamsPlus
      | .primalDual => st.lamsPdal
    { st with lamsPrev := prev, lamsOpt := prev, tols := P.tolSuccess st.mu st.tols }
  else { st with mu := P.nextMu st.mu, tols := P.tolFailure (P.nextMu st.mu) }

/-- The outer loop (prox-solver.hxx:85-108). -/
def flOuter (R : Rounding K) (P : FlCtx X K H n m) (S : Settings K) (st : FlSt X K H m) : Option (FlSt X K H m) :=
  if st.numIters < S.maxIters ∧ st.alIters < S.maxAlIters then
    match flInner R P S { st with resMu := st.mu, hidden := P.enterInner st.hidden } with
    | none => none
    | some st1 =>
      let st2 := flAfterInner P S st1
      if max st2.prim st2.dual < S.targetTol then some { st2 with converged := .success }
      else flOuter R P S { st2 with rho := R.rnd (st2.rho * S.rhoUpdateFactor), alIters := st.alIters + 1 }
  else some st
termination_by S.maxAlIters - st.alIters
decreasing_by omega

/-- `solve(x0, lams0)` with multipliers of the right size, after `setup()` (prox-solver.hxx:51-127). -/
def flSolve (R : Rounding K) (P : FlCtx X K H n m) (S : Settings K) (st : FlSt X K H m) (x0 : X) (lams0 : Fin m → K) :
    Option (FlSt X K H m) :=
  flOuter R P S { st with
    mu := S.muInit, rho := S.rhoInit, tols := P.tolFailure S.muInit, xOpt := x0, lamsOpt := lams0, lamsPrev := lams0
    converged := .uninit, numIters := 0, alIters := 0 }

end ProxNLP
