/-
The sizes of everything the solver allocates and touches.

Numbers are forgotten and only the lengths of vectors, the dimensions of matrices, and the
blocks the views point at are kept.  An assignment to a dynamically sized vector of another
length reallocates it, after which the views taken of the old storage dangle; reading a dangling
view, indexing outside a vector or a `std::vector`, and combining vectors of different lengths
are all the outcome `undefined` (an Eigen assertion in a debug build, undefined behaviour in a
release build).  C++ exceptions are the separate outcome `thrown`.

Simplifications.  Every function of the problem takes points of the problem's own manifold, and
every constraint set has the dimension of its function.  A linear solver is a number, the size
it was allocated for, and a flag: whether that size is fixed (BLOCKSPARSE, whose permutation and
block structure are made once, and PROXSUITE, whose stack is) or follows the matrix (DENSE,
BUNCHKAUFMAN, EIGEN).  Loops whose number of turns depends on the values of numbers (line search,
refinement, inertia correction, inner and outer iterations) take any number of turns.
-/
import Mathlib.Data.Nat.Notation
import Mathlib.Data.List.GetD
import Mathlib.Algebra.BigOperators.Group.List.Basic

namespace ProxNLP

/-- How a call can fail: by an exception, or by leaving the memory or the sizes it was given. The
exceptions of prox-solver.hxx:31-60 and the assertions of Eigen. -/
inductive ShapeErr
  | thrown
  | undefined
  deriving DecidableEq, Repr

/-- A check that the code or Eigen makes (or omits, in a release build). The exceptions of
prox-solver.hxx:31-60 and the assertions of Eigen. -/
def chk (P : Prop) [Decidable P] : Except ShapeErr Unit :=
  if P then .ok () else .error .undefined

/-- The sizes of a problem (problem-base.hpp:20-45, 97-101): dimensions of the manifold, the
output dimension of each constraint in the public vector `constraints_`, and the protected cache
`ncs_`, `indices_`, `nc_total_`. -/
structure PShape where
  nx : ℕ
  ndx : ℕ
  nrs : List ℕ
  ncs : List ℕ
  indices : List ℕ
  total : ℕ
  deriving DecidableEq, Repr

/-- The running offsets computed by the loop of problem-base.hpp:114-127. -/
def offsets : ℕ → List ℕ → List ℕ
  | _, [] => []
  | c, n :: l => c :: offsets (c + n) l

/-- `reset_constraint_dim_vars` (problem-base.hpp:114-127). -/
def PShape.reset (p : PShape) : PShape :=
  { p with ncs := p.nrs, indices := offsets 0 p.nrs, total := p.nrs.sum }

/-- Constructor (problem-base.hpp:34-41). -/
def PShape.new (nx ndx : ℕ) (nrs : List ℕ) : PShape :=
  (PShape.mk nx ndx nrs [] [] 0).reset

/-- `addConstraint` (problem-base.hpp:58-62). -/
def PShape.addConstraint (p : PShape) (nr : ℕ) : PShape :=
  { p with nrs := p.nrs ++ [nr] }.reset

/-- The block of constraint `i` that `getSegment` gives (problem-base.hpp:64-67, 76, 50), or
`none` when the cache has no entry `i`. -/
def PShape.block (p : PShape) (i : ℕ) : Option (ℕ × ℕ) :=
  match p.indices[i]?, p.ncs[i]? with
  | some a, some b => some (a, b)
  | _, _ => none

/-- Whether the segment of constraint `i` exists, fits in a vector of length `bound`, and has the
length of all the vectors `vs` it is combined with. problem-base.hpp:64-74. -/
def PShape.segOk (p : PShape) (i bound : ℕ) (vs : List (Option ℕ)) : Bool :=
  match p.block i with
  | some b => decide (b.1 + b.2 ≤ bound) && vs.all (fun v => decide (v = some b.2))
  | none => false

/-- A vector with one view for each constraint: its length, the blocks (start, length) of the
views, and whether the storage the views point at is still the vector's. problem-base.hpp:132-153. -/
structure Stk where
  len : ℕ
  views : List (ℕ × ℕ)
  live : Bool
  deriving DecidableEq, Repr

/-- The block of every constraint; fails when the cache has no entry, or the block does not fit
in `bound` rows. problem-base.hpp:132-153. -/
def PShape.blocks (p : PShape) (bound : ℕ) : Except ShapeErr (List (ℕ × ℕ)) :=
  (List.range p.nrs.length).mapM (fun i =>
    match p.block i with
    | some b => if b.1 + b.2 ≤ bound then .ok b else .error .undefined
    | none => .error .undefined)

/-- `allocateMultipliersOrResiduals` (problem-base.hpp:132-153): resize, zero, take one view for
each constraint. -/
def Stk.alloc (p : PShape) : Except ShapeErr Stk := do
  let v ← p.blocks p.total
  pure ⟨p.total, v, true⟩

/-- Assignment of an expression of length `n` to the vector: another length reallocates. Eigen's
assignment as used in prox-solver.hxx. -/
def Stk.assign (b : Stk) (n : ℕ) : Stk :=
  if n = b.len then b else { b with len := n, live := false }

/-- The length of view `i`; `none` when there is no such view or it dangles. The blocks made in
problem-base.hpp:132-142, workspace.hpp:143-196. -/
def Stk.view (b : Stk) (i : ℕ) : Option ℕ :=
  if b.live then (b.views[i]?).map Prod.snd else none

/-- A matrix with one block of rows for each constraint. workspace.hpp:143-196. -/
structure MStk where
  rows : ℕ
  cols : ℕ
  views : List (ℕ × ℕ)
  live : Bool
  deriving DecidableEq, Repr

/-- Assignment of an `r × c` matrix: other dimensions reallocate. Eigen's assignment as used in
prox-solver.hxx. -/
def MStk.assign (b : MStk) (r c : ℕ) : MStk :=
  if r = b.rows ∧ c = b.cols then b else { b with rows := r, cols := c, live := false }

/-- Dimensions of view `i`. The blocks made in problem-base.hpp:132-142, workspace.hpp:143-196. -/
def MStk.view (b : MStk) (i : ℕ) : Option (ℕ × ℕ) :=
  if b.live then (b.views[i]?).map (fun v => (v.2, b.cols)) else none

/-- The workspace (workspace.hpp:34-121).  `prim` and `dual` are the views of `pd_step`
(start, length) taken by the constructor, valid while `stepLive`. -/
structure WShape where
  nx : ℕ
  ndx : ℕ
  numblocks : ℕ
  numdual : ℕ
  kkt : ℕ × ℕ
  rhs : ℕ
  corr : ℕ
  err : ℕ
  step : ℕ
  prim : ℕ × ℕ
  dual : ℕ × ℕ
  stepLive : Bool
  signature : ℕ
  fac : ℕ
  facFixed : Bool
  xPrev : ℕ
  xTrial : ℕ
  lamsPrev : Stk
  lamsTrial : Stk
  proxGrad : ℕ
  proxHess : ℕ × ℕ
  dualRes : ℕ
  cstr : Stk
  objGrad : ℕ
  objHess : ℕ × ℕ
  meritGrad : ℕ
  meritDual : ℕ
  jac : MStk
  hess : MStk
  jacProj : MStk
  shift : Stk
  plus : Stk
  plusR : Stk
  pdal : Stk
  pdalR : Stk
  shiftPd : Stk
  tmpDx : ℕ
  deriving DecidableEq, Repr

/-- `allocate_ldlt_from_problem` (workspace.hpp:13-20): reads the cached dimension of every
constraint; the solver has the size `ndx + Σ nduals` (ldlt-allocator.hpp:95-125). -/
def PShape.ldltSize (p : PShape) : Except ShapeErr ℕ := do
  let l ← (List.range p.nrs.length).mapM (fun i =>
    match p.ncs[i]? with
    | some n => (Except.ok n : Except ShapeErr ℕ)
    | none => .error .undefined)
  pure (p.ndx + l.sum)

/-- `middleRows` views of a matrix with `r` rows (workspace.hpp:185-195). -/
def rowViews (p : PShape) (r : ℕ) : Except ShapeErr (List (ℕ × ℕ)) := p.blocks r

/-- Workspace constructor and `init` (workspace.hpp:123-196). -/
def WShape.new (p : PShape) (fixed : Bool) : Except ShapeErr WShape := do
  let n := p.ndx + p.total
  let fac ← p.ldltSize
  let s ← Stk.alloc p
  let jv ← rowViews p p.total
  pure
    { nx := p.nx, ndx := p.ndx, numblocks := p.nrs.length, numdual := p.total
      kkt := (n, n), rhs := n, corr := n, err := n, step := n
      prim := (0, p.ndx), dual := (n - p.total, p.total), stepLive := true
      signature := n, fac := fac, facFixed := fixed, xPrev := p.nx, xTrial := p.nx
      lamsPrev := s, lamsTrial := s, proxGrad := p.ndx, proxHess := (p.ndx, p.ndx)
      dualRes := p.ndx, cstr := s, objGrad := p.ndx, objHess := (p.ndx, p.ndx)
      meritGrad := p.ndx, meritDual := p.total
      jac := ⟨p.total, p.ndx, jv, true⟩
      hess := ⟨p.nrs.length * p.ndx, p.ndx,
        (List.range p.nrs.length).map (fun i => (i * p.ndx, p.ndx)), true⟩
      jacProj := ⟨p.total, p.ndx, jv, true⟩
      shift := s, plus := s, plusR := s, pdal := s, pdalR := s, shiftPd := s
      tmpDx := p.ndx }

/-- The results (results.hpp:26-47). -/
structure RShape where
  xOpt : ℕ
  lams : Stk
  active : List ℕ
  viol : ℕ
  deriving DecidableEq, Repr

/-- Results constructor (results.hpp:48-59). -/
def RShape.new (p : PShape) : Except ShapeErr RShape := do
  let s ← Stk.alloc p
  pure ⟨p.nx, s, p.nrs, p.nrs.length⟩

/-- The proximal penalty (prox-solver.hxx:22-25): the manifold it was built with, and the length
of its target point. -/
structure ProxShape where
  nx : ℕ
  ndx : ℕ
  target : ℕ
  deriving DecidableEq, Repr

/-- A solver and the problem it points at.  `bfgs` is the size of the strategy once `setup` has
made a valid one. prox-solver.hpp:60-163. -/
structure SShape where
  p : PShape
  prox : ProxShape
  hess : Bool
  ldltFixed : Bool
  bfgs : Option ℕ
  store : Option (WShape × RShape)
  deriving DecidableEq, Repr

/-- Solver constructor (prox-solver.hxx:15-30, prox-solver.hpp:140); `hess = true` means the
option `HessianApprox::BFGS`, `ldltFixed = true` a linear solver of fixed size (the default is
BUNCHKAUFMAN). -/
def SShape.new (p : PShape) : SShape :=
  ⟨p, ⟨p.nx, p.ndx, p.nx⟩, false, false, none, none⟩

/-- `setup` (prox-solver.hpp:147-163). -/
def SShape.setup (s : SShape) : Except ShapeErr SShape := do
  let w ← WShape.new s.p s.ldltFixed
  let r ← RShape.new s.p
  if s.hess then
    if s.p.ndx = s.p.nx then
      pure { s with store := some (w, r), bfgs := some s.p.ndx }
    else .error .thrown
  else pure { s with store := some (w, r) }

/-! ### The pieces of `solve` -/

/-- `ProblemTpl::evaluate` at a point of length `x` (problem-base.hpp:76-83): each value is
assigned to a view, so the lengths must agree. -/
def evaluateShape (p : PShape) (w : WShape) (x : ℕ) : Except ShapeErr Unit := do
  chk (x = p.nx)
  chk (∀ i < p.nrs.length, w.cstr.view i = p.nrs[i]?)

/-- `computeMultipliers` (prox-solver.hxx:169-204) with inner multipliers of length `inner`. -/
def multipliersShape (p : PShape) (w : WShape) (inner : ℕ) : Except ShapeErr WShape := do
  chk (w.cstr.len = w.lamsPrev.len)
  let shift := w.shift.assign w.cstr.len
  chk (∀ i < p.nrs.length, shift.view i = p.nrs[i]? ∧ w.plus.view i = p.nrs[i]?)
  chk (shift.len = inner)
  let shiftPd := w.shiftPd.assign shift.len
  chk (∀ i < p.nrs.length, shiftPd.view i = p.nrs[i]? ∧ w.pdal.view i = p.nrs[i]?)
  let plusR := w.plusR.assign w.plus.len
  let pdalR := w.pdalR.assign w.pdal.len
  chk (∀ i < p.nrs.length, plusR.view i = p.nrs[i]? ∧ pdalR.view i = p.nrs[i]?)
  pure { w with shift := shift, shiftPd := shiftPd, plusR := plusR, pdalR := pdalR }

/-- `computeProblemDerivatives` without Hessians (prox-solver.hxx:206-226,
problem-base.hpp:85-92). -/
def derivativesShape (p : PShape) (w : WShape) (x : ℕ) : Except ShapeErr WShape := do
  chk (x = p.nx)
  chk (w.objGrad = p.ndx)
  chk (∀ i < p.nrs.length, w.jac.view i = (p.nrs[i]?).map (fun n => (n, p.ndx)))
  let jp := w.jacProj.assign w.jac.rows w.jac.cols
  chk (∀ i < p.nrs.length, jp.view i = (p.nrs[i]?).map (fun n => (n, p.ndx)))
  chk (∀ i < p.nrs.length, w.shift.view i = p.nrs[i]? ∧ w.shiftPd.view i = p.nrs[i]?)
  pure { w with jacProj := jp }

/-- Which Hessian the pass uses (prox-solver.hxx:233-247). -/
inductive HessKind
  | bfgs
  | identity
  | function
  deriving DecidableEq, Repr

/-- The Hessian part of `computeProblemDerivatives` (prox-solver.hxx:228-248,
problem-base.hpp:94-105, bfgs-strategy.hpp:45-81).  Every constraint is asked for its
vector-Hessian product, which asks for more than either of EXACT and GAUSS_NEWTON does. -/
def hessiansShape (p : PShape) (bfgs : Option ℕ) (w : WShape) (x : ℕ) :
    HessKind → Except ShapeErr Unit
  | .identity => pure ()
  | .bfgs =>
    match bfgs with
    | none => .error .thrown
    | some n => chk (x = n ∧ w.objGrad = n ∧ w.objHess = (n, n))
  | .function => do
    chk (x = p.nx ∧ w.objHess = (p.ndx, p.ndx))
    chk (∀ i < p.nrs.length, w.pdal.view i = p.nrs[i]? ∧ w.hess.view i = some (p.ndx, p.ndx))

/-- The loop over `computeActiveSet` (prox-solver.hxx:306-310). -/
def activeShape (p : PShape) (w : WShape) (r : RShape) : Except ShapeErr Unit :=
  chk (∀ i < p.nrs.length, w.shift.view i = p.nrs[i]? ∧ r.active[i]? = p.nrs[i]?)

/-- `ALMeritFunction::evaluate` (pdal.hxx:14-30) with the views of `lams`: the loop runs to the
number of blocks the *workspace* was built with. -/
def meritShape (p : PShape) (w : WShape) (lams : Stk) : Except ShapeErr Unit :=
  chk (∀ i < w.numblocks, i < p.nrs.length ∧ w.shiftPd.view i = p.nrs[i]? ∧
    lams.view i = p.nrs[i]?)

/-- `prox_penalty.call` at a point of length `x`
(quadratic-residual.hxx, state-residual.hpp). -/
def proxCallShape (q : ProxShape) (x : ℕ) : Except ShapeErr Unit :=
  chk (x = q.nx ∧ q.target = q.nx)

/-- `prox_penalty.computeGradient`, `computeHessian` into the workspace
(prox-solver.hxx:316-320). -/
def proxDerivShape (q : ProxShape) (w : WShape) (x : ℕ) : Except ShapeErr Unit :=
  chk (x = q.nx ∧ q.target = q.nx ∧ w.proxGrad = q.ndx ∧ w.proxHess = (q.ndx, q.ndx))

/-- Filling the right-hand side (prox-solver.hxx:323-341): head of `ndx`, tail of
`kkt_rhs.size() − ndx`, both from the current manifold. -/
def rhsShape (p : PShape) (w : WShape) (r : RShape) : Except ShapeErr Unit := do
  chk (p.ndx ≤ w.rhs ∧ p.ndx ≤ w.corr)
  chk (w.objGrad = p.ndx ∧ w.jac.cols = p.ndx ∧ w.jac.rows = r.lams.len)
  chk (w.plus.len = r.lams.len ∧ w.pdal.len = r.lams.len ∧ r.lams.len = w.rhs - p.ndx)

/-- `ALMeritFunction::computeGradient` (pdal.hxx:32-47). -/
def meritGradShape (p : PShape) (w : WShape) (r : RShape) : Except ShapeErr WShape := do
  let w := { w with meritGrad := w.objGrad }
  chk (w.jac.cols = w.meritGrad ∧ w.jac.rows = w.pdal.len)
  chk (∀ i < w.numblocks, i < p.nrs.length ∧
    p.segOk i w.meritDual [r.lams.view i, w.pdal.view i] = true)
  pure w

/-- Adding the proximal gradient (prox-solver.hxx:345-348). -/
def proxAddShape (p : PShape) (w : WShape) : Except ShapeErr Unit :=
  chk (w.proxGrad = p.ndx ∧ w.meritGrad = w.proxGrad)

/-- `computePrimalResiduals` (prox-solver.hxx:250-268) and the dual residual
(prox-solver.hxx:353-359). -/
def residualsShape (p : PShape) (w : WShape) (r : RShape) : Except ShapeErr WShape := do
  chk (w.cstr.len = r.lams.len)
  let shift := w.shift.assign w.cstr.len
  chk (∀ i < p.nrs.length, shift.view i = p.nrs[i]? ∧ w.cstr.view i = p.nrs[i]? ∧ i < r.viol)
  let w := { w with shift := shift, dualRes := w.objGrad }
  chk (w.jac.cols = w.dualRes ∧ w.jac.rows = r.lams.len)
  pure w

/-- The correction of the right-hand side (prox-solver.hxx:371-389). -/
def correctionShape (p : PShape) (w : WShape) (r : RShape) : Except ShapeErr Unit := do
  chk (p.ndx ≤ w.corr ∧ w.jac.cols = p.ndx ∧ w.jacProj.cols = p.ndx)
  chk (w.jac.rows = r.lams.len ∧ w.jacProj.rows = r.lams.len)
  chk (w.plusR.len = w.jac.rows ∧ w.pdalR.len = w.jac.rows)
  chk (w.rhs = w.corr)

/-- `assembleKktMatrix` (prox-solver.hxx:490-526): again the loop runs to the workspace's number
of blocks. -/
def assembleShape (p : PShape) (w : WShape) (rho pd : Bool) : Except ShapeErr Unit := do
  chk (p.ndx ≤ w.kkt.1 ∧ p.ndx ≤ w.kkt.2 ∧ w.numdual ≤ w.kkt.1 ∧ w.numdual ≤ w.kkt.2)
  chk (w.objHess = (p.ndx, p.ndx))
  chk (w.jacProj.rows = w.numdual ∧ w.jacProj.cols = p.ndx)
  chk (rho = true → w.proxHess = (p.ndx, p.ndx))
  chk (∀ i < w.numblocks, i < p.nrs.length ∧ w.hess.view i = some (p.ndx, p.ndx) ∧
    (pd = true → p.segOk i w.numdual [w.shiftPd.view i] = true))

/-- One turn of the inertia loop (prox-solver.hxx:399-429): factorise (dense.hpp:182-188,
bunchkaufman.hpp:642-662, block-ldlt.hpp:322-344), read the signature, undo the shift of the
diagonal. -/
def factorShape (p : PShape) (w : WShape) : Except ShapeErr WShape := do
  chk (p.ndx ≤ w.kkt.1 ∧ p.ndx ≤ w.kkt.2)
  chk (w.kkt.1 = w.kkt.2 ∧ (w.facFixed = true → w.kkt.1 = w.fac))
  pure { w with signature := w.kkt.1, fac := w.kkt.1 }

/-- Assignment of a vector of length `n` to `pd_step`: another length reallocates, and the views
`prim_step`, `dual_step` dangle. prox-solver.hxx:393-431. -/
def WShape.assignStep (w : WShape) (n : ℕ) : WShape :=
  if n = w.step then w else { w with step := n, stepLive := false }

/-- First solve of `iterativeRefinement` (prox-solver.hxx:539-541). -/
def solveStepShape (w : WShape) : Except ShapeErr WShape := do
  let w := w.assignStep w.rhs
  chk (w.step = w.fac)
  pure w

/-- One turn of its loop (prox-solver.hxx:533-542). -/
def refineTurnShape (w : WShape) : Except ShapeErr WShape := do
  let w := { w with err := w.rhs }
  chk (w.kkt.1 = w.err ∧ w.kkt.2 = w.step)
  chk (w.err = w.fac ∧ w.step = w.err)
  pure w

/-- The directional derivative (prox-solver.hxx:438-440). -/
def dmeritShape (w : WShape) : Except ShapeErr Unit := do
  chk (w.stepLive = true ∧ w.prim.1 + w.prim.2 ≤ w.step ∧ w.dual.1 + w.dual.2 ≤ w.step)
  chk (w.meritGrad = w.prim.2 ∧ w.meritDual = w.dual.2)

/-- `tryStep` (prox-solver.hxx:584-594). -/
def tryStepShape (p : PShape) (w : WShape) (r : RShape) : Except ShapeErr WShape := do
  chk (w.stepLive = true ∧ w.prim.1 + w.prim.2 ≤ w.step ∧ w.dual.1 + w.dual.2 ≤ w.step)
  let w := { w with tmpDx := w.prim.2 }
  chk (r.xOpt = p.nx ∧ w.tmpDx = p.ndx ∧ w.xTrial = p.nx)
  chk (r.lams.len = w.dual.2)
  pure { w with lamsTrial := w.lamsTrial.assign r.lams.len }

/-- `phi_eval` (prox-solver.hxx:291-298). -/
def phiShape (p : PShape) (q : ProxShape) (w : WShape) (r : RShape) :
    Except ShapeErr WShape := do
  let w ← tryStepShape p w r
  evaluateShape p w w.xTrial
  let w ← multipliersShape p w w.lamsTrial.len
  meritShape p w w.lamsTrial
  proxCallShape q w.xTrial
  pure w

/-- `n` turns of a loop. The loop of prox-solver.hxx:399-429. -/
def turns {α : Type} (f : α → Except ShapeErr α) : ℕ → α → Except ShapeErr α
  | 0, a => .ok a
  | n + 1, a => f a >>= turns f n

/-! ### Passes and calls -/

/-- What the numbers and options decide in one pass of `innerLoop`: whether the proximal term is
on, the KKT system, the Hessian when it is not BFGS (identity, or from the functions), and, unless the pass returns at the test, how often the inertia loop, the refinement loop
and the line search go round. The branches of prox-solver.hxx:278-488. -/
structure PassChoice where
  rho : Bool
  pd : Bool
  identity : Bool
  step : Option (ℕ × ℕ × ℕ)
  deriving DecidableEq, Repr

/-- One pass of the loop of `innerLoop` (prox-solver.hxx:300-485). -/
def passShape (p : PShape) (q : ProxShape) (useB : Bool) (bfgs : Option ℕ) (c : PassChoice)
    (s : WShape × RShape) : Except ShapeErr (WShape × RShape) := do
  let r := s.2
  evaluateShape p s.1 r.xOpt
  let w ← multipliersShape p s.1 r.lams.len
  let w ← derivativesShape p w r.xOpt
  hessiansShape p bfgs w r.xOpt
    (if useB then .bfgs else if c.identity then .identity else .function)
  activeShape p w r
  meritShape p w r.lams
  if c.rho then do
    proxCallShape q r.xOpt
    proxDerivShape q w r.xOpt
  rhsShape p w r
  let w ← meritGradShape p w r
  if c.rho then proxAddShape p w
  let w ← residualsShape p w r
  match c.step with
  | none => pure (w, r)
  | some (a, b, d) => do
    correctionShape p w r
    assembleShape p w c.rho c.pd
    let w ← turns (factorShape p) a w
    let w ← solveStepShape w
    let w ← turns refineTurnShape b w
    dmeritShape w
    let w ← turns (fun w => phiShape p q w r) d w
    let w ← tryStepShape p w r
    pure (w, { r with xOpt := w.xTrial, lams := r.lams.assign w.lamsTrial.len })

/-- Which multipliers an outer iteration accepts (prox-solver.hxx:150-167); `none` when it
rejects. -/
inductive AcceptKind
  | reject
  | newton
  | primal
  | primalDual
  deriving DecidableEq, Repr

/-- End of an outer iteration (prox-solver.hxx:90-105, 151-170). -/
def outerShape (q : ProxShape) (k : AcceptKind) (s : WShape × RShape) :
    ProxShape × WShape × RShape :=
  let w := { s.1 with xPrev := s.2.xOpt }
  let q := { q with target := w.xPrev }
  match k with
  | .reject => (q, w, s.2)
  | .newton =>
    let w := { w with lamsPrev := w.lamsPrev.assign s.2.lams.len }
    (q, w, { s.2 with lams := s.2.lams.assign w.lamsPrev.len })
  | .primal =>
    let w := { w with lamsPrev := w.lamsPrev.assign w.plus.len }
    (q, w, { s.2 with lams := s.2.lams.assign w.lamsPrev.len })
  | .primalDual =>
    let w := { w with lamsPrev := w.lamsPrev.assign w.pdal.len }
    (q, w, { s.2 with lams := s.2.lams.assign w.lamsPrev.len })

/-- A step of a solve: a pass, or the end of an outer iteration. prox-solver.hxx:85-108 and
278-488. -/
inductive SolveEv
  | pass (c : PassChoice)
  | outer (k : AcceptKind)
  deriving DecidableEq, Repr

/-- The state during a solve: the proximal penalty, the workspace and the results.
prox-solver.hxx:85-108 and 278-488. -/
abbrev RunShape := ProxShape × WShape × RShape

/-- One event (prox-solver.hxx:85-108, 303-490). -/
def evShape (p : PShape) (useB : Bool) (bfgs : Option ℕ) (s : RunShape) :
    SolveEv → Except ShapeErr RunShape
  | .pass c => do
    let t ← passShape p s.1 useB bfgs c s.2
    pure (s.1, t)
  | .outer k => pure (outerShape s.1 k s.2)

/-- Any sequence of passes and outer iterations. prox-solver.hxx:85-108 and 278-488. -/
def runShape (p : PShape) (useB : Bool) (bfgs : Option ℕ) (s : RunShape) :
    List SolveEv → Except ShapeErr RunShape
  | [] => .ok s
  | e :: es => do
    let t ← evShape p useB bfgs s e
    runShape p useB bfgs t es

/-- `solve(x0, lams0)` with a stacked vector (prox-solver.hxx:51-125), for starting vectors of
lengths `x0` and `lams0`. -/
def SShape.solve (s : SShape) (x0 lams0 : ℕ) (evs : List SolveEv) : Except ShapeErr SShape :=
  match s.store with
  | none => .error .thrown
  | some (w, r) => do
    let r := { r with xOpt := x0 }
    let w := { w with xPrev := x0 }
    let s₀ : RunShape :=
      if lams0 = w.numdual then
        (s.prox, { w with lamsPrev := w.lamsPrev.assign lams0 },
          { r with lams := r.lams.assign lams0 })
      else (s.prox, w, r)
    let t ← runShape s.p s.hess s.bfgs s₀ evs
    pure { s with prox := t.1, store := some t.2 }

/-- `solve(x0, lams0)` with one vector for each constraint (prox-solver.hxx:32-49). -/
def SShape.solveBlocks (s : SShape) (x0 : ℕ) (lams0 : List ℕ) (evs : List SolveEv) :
    Except ShapeErr SShape :=
  if s.p.nrs.length ≠ lams0.length then .error .thrown
  else do
    chk (∀ i < s.p.nrs.length, s.p.segOk i s.p.total [lams0[i]?] = true)
    s.solve x0 s.p.total evs

/-- What a user does with a problem and its solver.  `editConstraints` and `setManifold` write the
public members `constraints_` and `manifold_` of the problem (problem-base.hpp:24-28);
`useBfgs` and `useLdlt` the public options `hess_approx` and `ldlt_choice_` of the solver. -/
inductive UserOp
  | addConstraint (nr : ℕ)
  | setup
  | useBfgs (b : Bool)
  | useLdlt (fixed : Bool)
  | solve (x0 lams0 : ℕ) (evs : List SolveEv)
  | solveBlocks (x0 : ℕ) (lams0 : List ℕ) (evs : List SolveEv)
  | editConstraints (nrs : List ℕ)
  | setManifold (nx ndx : ℕ)
  deriving DecidableEq, Repr

/-- One call (problem-base.hpp:58-62, prox-solver.hpp:147-176).  A history ends at the first
exception: what a program that catches it goes on with is not modelled. -/
def SShape.op (s : SShape) : UserOp → Except ShapeErr SShape
  | .addConstraint nr => .ok { s with p := s.p.addConstraint nr }
  | .setup => s.setup
  | .useBfgs b => .ok { s with hess := b }
  | .useLdlt b => .ok { s with ldltFixed := b }
  | .solve x0 l evs => s.solve x0 l evs
  | .solveBlocks x0 l evs => s.solveBlocks x0 l evs
  | .editConstraints nrs => .ok { s with p := { s.p with nrs := nrs } }
  | .setManifold nx ndx => .ok { s with p := { s.p with nx := nx, ndx := ndx } }

/-- A history of calls. Not in the code: a history of calls of problem-base.hpp:59-62,
prox-solver.hpp:147-163 and prox-solver.hxx:31-127. -/
def SShape.ops (s : SShape) : List UserOp → Except ShapeErr SShape
  | [] => .ok s
  | o :: os => do
    let t ← s.op o
    t.ops os

end ProxNLP
