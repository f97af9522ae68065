import Verif.Model.Solver
import Verif.Model.Functions

/-!
Solvers that run at the same time in different threads. The only memory reachable from two solver objects that a solve changes is

* the parameter `mu_` (with `mu_inv_`) of the constraint sets: `mutable` members (constraint-set.hpp:113-115) written through the
  constant sets of the problem by `setPenalty` (prox-solver.hxx:546-554). The sets belong to the `Problem` object, which holds them by
  value (`polymorphic`, constraint-set.hpp:129, problem-base.hpp:29): copies of a problem have their own;
* the buffers of a `QuadraticResidualCost` (quadratic-residual.hpp:68-72), written by its constant members. The cost is held by a
  `shared_ptr` (problem-base.hpp:27): copies of a problem refer to the same cost object.

There is no lock or atomic variable in the library.
-/

namespace ProxNLP

/-! ### Threads -/

/-- A thread as the shared memory sees it: the next access to one of the shared locations `L`, and how the thread goes on; everything it
computes in its own memory between two accesses is inside `k`. `ret`: the call has returned (or thrown: `R` tells). Not in the code: the
abstract machine of C++ the members of prox-solver.hxx:31-594 run on, with sequentially consistent accesses (a C++ program with a race has
in addition no defined behaviour at all). -/
inductive Prog (L : Type) (V : L → Type) (R : Type) where
  | ret (r : R)
  | read (l : L) (k : V l → Prog L V R)
  | write (l : L) (v : V l) (k : Prog L V R)

/-- Sequential composition. Not in the code, see `Prog` (prox-solver.hxx:31-594). -/
def Prog.bind {L : Type} {V : L → Type} {R R' : Type} (p : Prog L V R) (f : R → Prog L V R') : Prog L V R' :=
  match p with
  | .ret r => f r
  | .read l k => .read l fun v => (k v).bind f
  | .write l v k => .write l v (k.bind f)

/-- The thread without any other: the memory it leaves and what it returns. Not in the code, see `Prog` (prox-solver.hxx:31-594). -/
def Prog.alone {L : Type} [DecidableEq L] {V : L → Type} {R : Type} : Prog L V R → (∀ l, V l) → (∀ l, V l) × R
  | .ret r, mem => (mem, r)
  | .read l k, mem => (k (mem l)).alone mem
  | .write l v k, mem => k.alone (Function.update mem l v)

/-- The shared memory and the threads. Not in the code, see `Prog` (prox-solver.hxx:31-594). -/
structure Machine (I L : Type) (V : L → Type) (R : I → Type) where
  mem : ∀ l, V l
  threads : ∀ i, Prog L V (R i)

/-- Thread `i` performs its next access (nothing happens if it has returned). Not in the code, see `Prog` (prox-solver.hxx:31-594). -/
def Machine.step {I L : Type} [DecidableEq I] [DecidableEq L] {V : L → Type} {R : I → Type} (M : Machine I L V R) (i : I) :
    Machine I L V R :=
  match M.threads i with
  | .ret _ => M
  | .read l k => { M with threads := Function.update M.threads i (k (M.mem l)) }
  | .write l v k => { mem := Function.update M.mem l v, threads := Function.update M.threads i k }

/-- A schedule: which thread makes the next access, for each access. Not in the code, see `Prog` (prox-solver.hxx:31-594). -/
def Machine.run {I L : Type} [DecidableEq I] [DecidableEq L] {V : L → Type} {R : I → Type} (M : Machine I L V R) :
    List I → Machine I L V R
  | [] => M
  | i :: s => (M.step i).run s

/-! ### A solve as such a thread -/

/-- The shared locations: the parameter of the sets of problem object `p` (constraint-set.hpp:114-115), the buffer `err` of cost object `c`
(quadratic-residual.hpp:68). -/
inductive SharedLoc where
  | setMu (p : ℕ)
  | err (c : ℕ)
deriving DecidableEq

/-- What they hold. The buffer `err = r(x)` (quadratic-residual.hxx:23-27) is represented by the point `x`. The other buffers of the cost
(quadratic-residual.hpp:69-72) are left out: every member that reads them writes them before. constraint-set.hpp:114-115. -/
def SharedVal (X K : Type) : SharedLoc → Type
  | .setMu _ => K
  | .err _ => X

/-- The problem a thread's solver points to (prox-solver.hpp:61). `P`: the problem and step computation as in `solve`; `problem`: which
`Problem` object; `cost`: which `QuadraticResidualCost` object the problem refers to, `none` for a cost that keeps no buffer; `gradErr y x`:
what `computeGradient(x)` writes when `err` holds the residual at `y` (quadratic-residual.hxx:37-45). -/
structure ThreadCtx (X K H : Type) (n m : ℕ) where
  P : Ctx X K H n m
  problem : ℕ
  cost : Option ℕ
  gradErr : X → X → Fin n → K

section
variable {X K H : Type} {n m : ℕ} {R : Type}

/-- `setPenalty` on the sets: one assignment per constraint, all with the same value, here one write; none without constraints.
prox-solver.hxx:546-554. -/
def ThreadCtx.putMu (T : ThreadCtx X K H n m) (mu : K) (k : Prog SharedLoc (SharedVal X K) R) : Prog SharedLoc (SharedVal X K) R :=
  if m = 0 then k else .write (.setMu T.problem) mu k

/-- A read of the parameter of the sets (constraint-set.hpp:110; pdal.hxx:40-41; l1-penalty.hpp:35-52). `own`: value in use without
constraints, where nothing is read. -/
def ThreadCtx.getMu (T : ThreadCtx X K H n m) (own : K) (k : K → Prog SharedLoc (SharedVal X K) R) : Prog SharedLoc (SharedVal X K) R :=
  if m = 0 then k own else .read (.setMu T.problem) k

/-- `cost().call(x)`: writes the buffer of the cost. quadratic-residual.hxx:23-35, problem-base.hpp:76-83. -/
def ThreadCtx.putErr (T : ThreadCtx X K H n m) (x : X) (k : Prog SharedLoc (SharedVal X K) R) : Prog SharedLoc (SharedVal X K) R :=
  match T.cost with
  | none => k
  | some c => .write (.err c) x k

/-- The read of the buffer in `cost().computeGradient(x)`: the point whose residual is used. quadratic-residual.hxx:37-45. -/
def ThreadCtx.getErr (T : ThreadCtx X K H n m) (x : X) (k : X → Prog SharedLoc (SharedVal X K) R) : Prog SharedLoc (SharedVal X K) R :=
  match T.cost with
  | none => k x
  | some c => .read (.err c) k

/-- The problem with the gradient it computes when the buffer of the cost holds the residual at `y`. quadratic-residual.hxx:37-45. -/
def ThreadCtx.at (T : ThreadCtx X K H n m) (y : X) : Ctx X K H n m := { T.P with grad := T.gradErr y }

end

section
variable {X K H : Type} {n m : ℕ} [Field K] [LinearOrder K]

/-- `innerLoop` (prox-solver.hxx:300-485) as `ProxNLP.innerLoop`, with its accesses to the shared locations: the evaluation of the cost
(302), the uses of the parameter of the sets for multipliers, merit function and residuals (303-353), the gradient (304), the uses of the
parameter in the line search (444-453) and the last evaluation of the cost in the line search (289-298, 446). Simplified:
the reads of one group count as one access, and so do the evaluations of one line search; the Hessian does not read the buffer. -/
def innerProg (T : ThreadCtx X K H n m) (S : Settings K) (st : St X K H m) :
    Prog SharedLoc (SharedVal X K) (Except String (St X K H m)) :=
  T.putErr st.xOpt <| T.getMu st.setMu fun sm => T.getErr st.xOpt fun y =>
  match evalAt (T.at y) S st.mu sm st.rho st.target st.xOpt st.lamsOpt st.lamsPrev with
  | none => .ret (.error "evaluation")
  | some ev =>
    let st1 := afterEval (T.at y) { st with setMu := sm } ev
    if ev.innerCrit ≤ st.innerTol ∨ ev.outerCrit ≤ S.targetTol then .ret (.ok st1)
    else T.getMu sm fun sm' =>
      match T.P.step (stepIn { st1 with setMu := sm' } ev) with
      | .error e => .ret (.error e)
      | .ok o =>
        T.putErr o.x <|
        let st2 := { acceptStep st1 o with numIters := st.numIters + 1 }
        if st.numIters + 1 ≥ S.maxIters then .ret (.ok { st2 with converged := .maxIters })
        else innerProg T S st2
termination_by S.maxIters - st.numIters
decreasing_by omega

/-- The outer loop of `solve` (prox-solver.hxx:85-108) as `ProxNLP.outerLoop`, with its accesses; `updatePenalty` (270-276) writes the
parameter of the sets. -/
def outerProg (T : ThreadCtx X K H n m) (S : Settings K) (st : St X K H m) :
    Prog SharedLoc (SharedVal X K) (Except String (St X K H m)) :=
  if st.numIters < S.maxIters ∧ st.alIters < S.maxAlIters then
    (innerProg T S (startOuter T.P st)).bind fun r =>
      match r with
      | .error e => .ret (.error e)
      | .ok st1 =>
        let st2 := afterInner S st1
        let rest :=
          if max st2.prim st2.dual < S.targetTol then .ret (.ok { st2 with converged := .success })
          else outerProg T S { setProxParameter st2 (st2.rho * S.rhoUpdateFactor) with alIters := st.alIters + 1 }
        if st1.prim < st1.primTol then rest else T.putMu st2.setMu rest
  else .ret (.ok st)
termination_by S.maxAlIters - st.alIters
decreasing_by omega

/-- `solve` (prox-solver.hxx:51-127) as `ProxNLP.solve`, with its accesses to the shared locations. -/
def solveProg (T : ThreadCtx X K H n m) (S : Settings K) (st : St X K H m) (x0 : X) (k : ℕ) (lams0 : Fin k → K) :
    Prog SharedLoc (SharedVal X K) (Except String (St X K H m)) :=
  if st.hasSetup = false then .ret (.error "Either Results or Workspace are unitialized. Call setup() first.")
  else T.putMu S.muInit <| (outerProg T S (initSolve S st x0 k lams0)).bind fun r =>
    match r with
    | .error e => .ret (.error e)
    | .ok st => .ret (.ok (invokeCallbacks st))

/-- Threads `i`, each calling `solve(x0, lams0)` of a solver of its own, on the problem objects `T i`. Not in the code: a program that
uses prox-solver.hxx:51-127. -/
def Machine.solves {I : Type} {H : I → Type} {n m : I → ℕ} (mem : ∀ l, SharedVal X K l) (T : ∀ i, ThreadCtx X K (H i) (n i) (m i))
    (S : I → Settings K) (st : ∀ i, St X K (H i) (m i)) (x0 : I → X) (k : I → ℕ) (lams0 : ∀ i, Fin (k i) → K) :
    Machine I SharedLoc (SharedVal X K) (fun i => Except String (St X K (H i) (m i))) :=
  { mem := mem, threads := fun i => solveProg (T i) (S i) (st i) (x0 i) (k i) (lams0 i) }

/-- A problem object whose cost is the `QuadraticResidualCost` object `c` with parameters `q` (quadratic-residual.hxx:23-45,
problem-base.hpp:76-87): `P` without its own gradient, value from `q`. -/
def ThreadCtx.ofQuad {p : ℕ} (P : Ctx X K H n m) (q : QuadCost X K n p) (problem c : ℕ) : ThreadCtx X K H n m :=
  { P := { P with
      eval := fun x => (P.eval x).map fun fc => ((q.call x).2, fc.2)
      grad := fun x => ((q.call x).1.gradient x).2 }
    problem := problem
    cost := some c
    gradErr := fun y x => ((q.call y).1.gradient x).2 }

end

end ProxNLP
