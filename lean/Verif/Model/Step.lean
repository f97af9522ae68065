import Verif.Model.Merit
import Verif.Model.Inertia
import Verif.Model.Linesearch
import Verif.Model.Bfgs
import Mathlib.Logic.Equiv.Fin.Basic

/-!
Model of the computation of one step of `innerLoop` (prox-solver.hxx:228-248 and 369-459), put together from the
KKT system (`Model/Merit`), the regularisation loop and iterative refinement (`Model/Inertia`), the line search
(`Model/Linesearch`) and the quasi-Newton update (`Model/Bfgs`).  `concreteCtx` is the resulting instance of the
`Ctx` used by `Model/Solver`.
-/

namespace ProxNLP

/-- `HessianApprox` (prox-solver.hpp:27-36). -/
inductive HessApprox where
  | exact | gaussNewton | bfgs | identity
  deriving DecidableEq, Repr

variable {X K : Type} {n m : ℕ} [Field K] [LinearOrder K]

/-- State that survives from one iteration to the next beside `Results`: `objective_hessian`, the constraint
vector-Hessian products, the BFGS strategy, `delta_last` and the matrix last factorised.
workspace.hpp:34-121, prox-solver.hpp `ls_options`, `hessian_approx`. -/
structure Hidden (K : Type) (n m : ℕ) where
  hess : Matrix (Fin n) (Fin n) K
  vhps : List (Bool × Matrix (Fin n) (Fin n) K)
  bfgs : Bfgs K n
  deltaLast : K
  fac : Option (Matrix (Fin n ⊕ Fin m) (Fin n ⊕ Fin m) K)

/-- Linear solver: signature reported after factorising a matrix, and `solveInPlace` with that
factorisation. linalg/ldlt-base.hpp, ldlt-allocator.hpp:101-221. -/
structure Backend (K : Type) (n m : ℕ) where
  sig : Matrix (Fin n ⊕ Fin m) (Fin n ⊕ Fin m) K → List ℤ
  solve : Matrix (Fin n ⊕ Fin m) (Fin n ⊕ Fin m) K → (Fin (n + m) → K) → Fin (n + m) → K

/-- The problem and the options a step depends on. `cstrVhp x lams` lists, per constraint, `disableGaussNewton()`
of its set and its vector-Hessian product; `coords` gives the coordinates of a point as used by
BFGS (`nx = ndx`). prox-solver.hpp:60-140. -/
structure StepCfg (X K : Type) (n m : ℕ) where
  eval : X → Option (K × (Fin m → K))
  grad : X → Fin n → K
  jac : X → Fin m → Fin n → K
  objHess : X → Matrix (Fin n) (Fin n) K
  cstrVhp : X → (Fin m → K) → List (Bool × Matrix (Fin n) (Fin n) K)
  sets : StackedSet K m
  neutral : X
  coords : X → Fin n → K
  integrate : X → (Fin n → K) → X
  proxVal : K → X → X → K
  proxGrad : K → X → X → Fin n → K
  proxHess : K → X → X → Matrix (Fin n) (Fin n) K
  approx : HessApprox
  kkt : KktSys
  beta : K
  inertia : InertiaParams K
  refineTol : K
  refineSteps : ℕ
  ls : LSOptions K
  backend : Backend K n m
  sqrt : K → K
  sing : LSSample K → LSSample K → K → K → Option K
  fuel : ℕ

/-- Hessian part of `computeProblemDerivatives` (prox-solver.hxx:233-247, problem-base.hpp:94-105).  All
vector-Hessian products are recomputed here; in the code only those that are read.  A BFGS strategy made by `setup`
never throws (C35_runs); the state is kept if it would. -/
def hessUpdate (C : StepCfg X K n m) (h : Hidden K n m) (x : X) (g : Fin n → K) (lamsPdal : Fin m → K) :
    Hidden K n m :=
  match C.approx with
  | .bfgs =>
    match h.bfgs.update .hessian (C.coords x) g h.hess with
    | some r => { h with bfgs := r.1, hess := r.2 }
    | none => h
  | .identity => { h with hess := 1 }
  | _ => { h with hess := C.objHess x, vhps := C.cstrVhp x lamsPdal }

/-- Initial hidden state after `setup()` (prox-solver.hpp:147-163): zero Hessian, or the identity and a valid
strategy for BFGS. -/
def hidden0 (C : StepCfg X K n m) : Hidden K n m :=
  match C.approx with
  | .bfgs => { hess := 1, vhps := [], bfgs := Bfgs.new, deltaLast := 0, fac := none }
  | _ => { hess := 0, vhps := [], bfgs := Bfgs.default, deltaLast := 0, fac := none }

/-- The KKT matrix assembled at the current point (prox-solver.hxx:392, 490-526). -/
def stepMatrix (C : StepCfg X K n m) (i : StepIn X K (Hidden K n m) n m) (M : Mults K m) :
    Matrix (Fin n ⊕ Fin m) (Fin n ⊕ Fin m) K :=
  let keep := keptRows C.kkt C.sets i.setMu M
  kktMatrix (kktHessian (C.approx == .exact) i.rho i.hidden.hess (C.proxHess i.rho i.target i.x) i.hidden.vhps)
    (maskRows keep i.ev.jac) (kktDual C.kkt i.mu keep)

/-- The corrected right-hand side (prox-solver.hxx:323-348, 371-389). -/
def stepRhs (C : StepCfg X K n m) (i : StepIn X K (Hidden K n m) n m) (M : Mults K m) : Fin n ⊕ Fin m → K :=
  let keep := keptRows C.kkt C.sets i.setMu M
  Sum.elim
    (fun j => rhsPrimal i.rho i.ev.grad i.ev.proxGrad i.ev.jac i.lam j +
      rhsCorrection C.kkt i.ev.jac (maskRows keep i.ev.jac) M i.lam j)
    (rhsDual C.kkt i.mu M i.lam)

/-- Multipliers buffers left in the workspace by the line search: those of the last call of `phi_eval` whose problem
evaluation did not throw (prox-solver.hxx:291-298), else those of the current point. -/
def lsBuffers (C : StepCfg X K n m) (i : StepIn X K (Hidden K n m) n m) (M : Mults K m) (dx : Fin n → K)
    (dlam : Fin m → K) (trace : List K) : Mults K m :=
  match trace.findSome? fun a => (C.eval (C.integrate i.x fun j => a * dx j)).map fun fc => (a, fc.2) with
  | none => M
  | some (a, c) => computeMultipliers C.sets i.mu i.setMu C.beta c (fun k => i.lam k + a * dlam k) i.lamPrev

/-- The direction: regularisation loop and iterative refinement (prox-solver.hxx:393-431). Returns the step and the
state of the loop. -/
def stepDirection (C : StepCfg X K n m) (i : StepIn X K (Hidden K n m) n m) (M : Mults K m) :
    Except String ((Fin n ⊕ Fin m → K) × InertiaSt K n m) :=
  let A := stepMatrix C i M
  match inertiaLoop C.inertia C.backend.sig C.fuel (inertiaStart C.inertia A i.hidden.deltaLast i.hidden.fac) with
  | none => .error "(does not end)"
  | some (.error e) => .error e
  | some (.ok st) =>
    match st.fac with
    | none => .error "(no factorisation)"
    | some F =>
      let e := finSumFinEquiv (m := n) (n := m)
      let r := iterativeRefinement (fun a b => st.mat (e.symm a) (e.symm b)) (fun a => stepRhs C i M (e.symm a))
        C.refineTol (C.backend.solve F) C.refineSteps
      .ok (fun a => r.2.1 (e a), st)

/-- The function searched by the line search (prox-solver.hxx:291-298). -/
def stepPhi (C : StepCfg X K n m) (i : StepIn X K (Hidden K n m) n m) (dx : Fin n → K) (dlam : Fin m → K)
    (alpha : K) : Option K :=
  let xTrial := C.integrate i.x (fun j => alpha * dx j)
  let lamTrial := fun k => i.lam k + alpha * dlam k
  (C.eval xTrial).map fun fc =>
    let M := computeMultipliers C.sets i.mu i.setMu C.beta fc.2 lamTrial i.lamPrev
    meritEvaluate C.sets i.setMu fc.1 M.shiftPdal lamTrial + C.proxVal i.rho i.target xTrial

/-- The whole step (prox-solver.hxx:369-459). -/
def stepFull (C : StepCfg X K n m) (i : StepIn X K (Hidden K n m) n m) :
    Except String (StepOut X K (Hidden K n m) m) :=
  let M := computeMultipliers C.sets i.mu i.setMu C.beta i.ev.c i.lam i.lamPrev
  match stepDirection C i M with
  | .error e => .error e
  | .ok (d, st) =>
    let dx := fun j => d (.inl j)
    let dlam := fun k => d (.inr k)
    let dphi0 := dmeritDir i.rho C.beta i.setMu i.ev.grad i.ev.proxGrad i.ev.jac i.lam M.lamsPdal dx dlam
    match lsRun C.sqrt C.sing (stepPhi C i dx dlam) C.ls i.ev.merit dphi0 C.fuel with
    | none => .error "(does not end)"
    | some r =>
      let B := lsBuffers C i M dx dlam (r.trace ++ r.trace0)
      .ok { x := C.integrate i.x (fun j => r.alpha * dx j), lam := fun k => i.lam k + r.alpha * dlam k
            merit := r.ret, lamsPlus := B.lamsPlus, lamsPdal := B.lamsPdal
            hidden := { i.hidden with deltaLast := st.deltaLast, fac := st.fac } }

/-- The solver with this step. prox-solver.hxx:51-127 with the step 369-455. -/
def concreteCtx (C : StepCfg X K n m) : Ctx X K (Hidden K n m) n m where
  eval := C.eval
  grad := C.grad
  jac := C.jac
  sets := C.sets
  neutral := C.neutral
  proxVal := C.proxVal
  proxGrad := C.proxGrad
  updHess := hessUpdate C
  enterInner h := { h with deltaLast := 0 }
  step := stepFull C

end ProxNLP
