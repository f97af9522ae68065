import Verif.Model.Solver
import Mathlib.Data.Matrix.Block
import Mathlib.LinearAlgebra.Matrix.Symmetric

/-!
Model of the multiplier estimates, the merit function (`pdal.hpp`, `pdal.hxx`), the assembled KKT system and
the right-hand side correction (prox-solver.hxx).
-/

namespace ProxNLP

variable {K : Type} {n m : ℕ} [Field K] [LinearOrder K]

/-- Buffers written by `computeMultipliers` (workspace.hpp:96-112). -/
structure Mults (K : Type) (m : ℕ) where
  shift : Fin m → K
  shiftPdal : Fin m → K
  lamsPlus : Fin m → K
  lamsPdal : Fin m → K
  lamsPlusReproj : Fin m → K
  lamsPdalReproj : Fin m → K

/-- `computeMultipliers(inner_lams_data, workspace)` (prox-solver.hxx:169-205).  `mu` is the solver's penalty
parameter, `setMu` the parameter stored in the constraint sets. `applyProjectionJacobian` on a vector keeps
the rows that are not active (see C04). -/
def computeMultipliers (sets : StackedSet K m) (mu setMu beta : K) (c lam lamPrev : Fin m → K) : Mults K m :=
  let shift := fun i => c i + mu * lamPrev i
  let lamsPlus := fun i => (1 / mu) * sets.normal setMu shift i
  let shiftPdal := fun i => shift i - (1 / 2) * mu * lam i
  let lamsPdal := fun i => sets.normal setMu shiftPdal i * ((1 / mu) / beta)
  { shift := shift, shiftPdal := shiftPdal, lamsPlus := lamsPlus, lamsPdal := lamsPdal
    lamsPlusReproj := fun i => if sets.active setMu shift i then 0 else lamsPlus i
    lamsPdalReproj := fun i => if sets.active setMu shiftPdal i then 0 else lamsPdal i }

/-- `ALMeritFunctionTpl::evaluate` (pdal.hxx:14-29), the loop over the constraints done on the stacked set:
`objective_value + Σ_i (2 * computeMoreauEnvelope(shift_cstr_pdal) + mu * |lams|² / 4)`. -/
def meritEvaluate (sets : StackedSet K m) (setMu : K) (value : K) (shiftPdal lam : Fin m → K) : K :=
  let nrm := sets.normal setMu shiftPdal
  value + (2 * (sets.evaluate setMu (fun i => shiftPdal i - nrm i)
      + (1 / 2) * (1 / setMu) * ∑ i, nrm i ^ 2) + setMu * (∑ i, lam i ^ 2) / 4)

/-- `ALMeritFunctionTpl::computeGradient`, primal part (pdal.hxx:34-36). -/
def meritGradient (grad : Fin n → K) (jac : Fin m → Fin n → K) (lamsPdal : Fin m → K) : Fin n → K :=
  fun j => grad j + ∑ i, jac i j * lamsPdal i

/-- `ALMeritFunctionTpl::computeGradient`, dual part (pdal.hxx:37-43). -/
def meritDualGradient (beta setMu : K) (lam lamsPdal : Fin m → K) : Fin m → K :=
  fun i => beta * setMu * (lam i - lamsPdal i)

/-- Rows of the projected Jacobian kept by `computeProblemDerivatives`: the active rows at the shifted
constraint value of the KKT system in use (prox-solver.hxx:211-224). -/
def keptRows (sys : KktSys) (sets : StackedSet K m) (setMu : K) (M : Mults K m) : Fin m → Bool :=
  match sys with
  | .classic => sets.active setMu M.shift
  | .primalDual => sets.active setMu M.shiftPdal

/-- `applyNormalConeProjectionJacobian` on stacked rows: rows not kept are set to zero
(constraint-set.hxx:25-38). -/
def maskRows (keep : Fin m → Bool) (J : Fin m → Fin n → K) : Fin m → Fin n → K :=
  fun i j => if keep i then J i j else 0

/-- Objective-side block of `assembleKktMatrix`: objective Hessian, plus the proximal Hessian when `rho > 0`,
plus the vector-Hessian products of the constraints that use them (prox-solver.hxx:496, 502-513). Each entry of
`vhps` is (`disableGaussNewton()` of the set, `cstr_vector_hessian_prod[i]`). -/
def kktHessian (exact : Bool) (rho : K) (hess proxHess : Matrix (Fin n) (Fin n) K)
    (vhps : List (Bool × Matrix (Fin n) (Fin n) K)) : Matrix (Fin n) (Fin n) K :=
  let h0 := if 0 < rho then hess + proxHess else hess
  vhps.foldl (fun acc v => if !v.1 || exact then acc + v.2 else acc) h0

/-- Diagonal of the lower right block (prox-solver.hxx:499-500, 514-523): `-mu`, and in the primal-dual
system `0.5 * (d + masked d)`. -/
def kktDual (sys : KktSys) (mu : K) (keep : Fin m → Bool) : Fin m → K :=
  match sys with
  | .classic => fun _ => -mu
  | .primalDual => fun i => (1 / 2) * (-mu + (if keep i then -mu else 0))

/-- `assembleKktMatrix` (prox-solver.hxx:490-526); `Hs` is the block made by `kktHessian`, `Jp` the projected
Jacobian. -/
def kktMatrix (Hs : Matrix (Fin n) (Fin n) K) (Jp : Fin m → Fin n → K) (d : Fin m → K) :
    Matrix (Fin n ⊕ Fin m) (Fin n ⊕ Fin m) K :=
  Matrix.fromBlocks Hs (Matrix.of Jp).transpose (Matrix.of Jp) (Matrix.diagonal d)

/-- Right-hand side before the correction (prox-solver.hxx:323-348): primal part. -/
def rhsPrimal (rho : K) (grad proxGrad : Fin n → K) (jac : Fin m → Fin n → K) (lam : Fin m → K) : Fin n → K :=
  fun j => (grad j + ∑ i, jac i j * lam i) + (if 0 < rho then proxGrad j else 0)

/-- Right-hand side, dual part (prox-solver.hxx:332-341). -/
def rhsDual (sys : KktSys) (mu : K) (M : Mults K m) (lam : Fin m → K) : Fin m → K :=
  match sys with
  | .classic => fun i => mu * (M.lamsPlus i - lam i)
  | .primalDual => fun i => (1 / 2) * mu * (M.lamsPdal i - lam i)

/-- Correction of the primal right-hand side for the symmetrised system (prox-solver.hxx:371-387). -/
def rhsCorrection (sys : KktSys) (jac jacProj : Fin m → Fin n → K) (M : Mults K m) (lam : Fin m → K) :
    Fin n → K :=
  fun j => 0 - (∑ i, jac i j * lam i) + (∑ i, jacProj i j * lam i) +
    match sys with
    | .classic => ∑ i, jac i j * M.lamsPlusReproj i
    | .primalDual => ∑ i, jac i j * M.lamsPdalReproj i

/-- Directional derivative handed to the line search (prox-solver.hxx:343-348, 438-440). -/
def dmeritDir (rho beta setMu : K) (grad proxGrad : Fin n → K) (jac : Fin m → Fin n → K)
    (lam lamsPdal : Fin m → K) (dx : Fin n → K) (dlam : Fin m → K) : K :=
  (∑ j, (meritGradient grad jac lamsPdal j + (if 0 < rho then proxGrad j else 0)) * dx j) +
    ∑ i, meritDualGradient beta setMu lam lamsPdal i * dlam i

variable {X H : Type}

/-- `phi_eval(alpha)`, the function searched by the line search (prox-solver.hxx:291-298) with `tryStep`
(584-594): retract, evaluate the problem, recompute the multipliers and evaluate the merit function plus the
proximal penalty.  `none`: a user function threw. -/
def phiEval (P : Ctx X K H n m) (integrate : X → (Fin n → K) → X) (beta mu setMu rho : K) (target x : X)
    (lam lamPrev : Fin m → K) (dx : Fin n → K) (dlam : Fin m → K) (alpha : K) : Option K :=
  let xTrial := integrate x (fun j => alpha * dx j)
  let lamTrial := fun i => lam i + alpha * dlam i
  (P.eval xTrial).map fun fc =>
    let M := computeMultipliers P.sets mu setMu beta fc.2 lamTrial lamPrev
    meritEvaluate P.sets setMu fc.1 M.shiftPdal lamTrial + P.proxVal rho target xTrial

end ProxNLP
