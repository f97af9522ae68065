import Verif.Model.Step
import Verif.Model.Functions
import Mathlib.Algebra.BigOperators.Fin

/-!
The solver as its cost and constraint functions see it: the sequence of calls it makes on them, in order. `ProxNLP.solve` takes values and
derivatives from mathematical functions; here every call goes to an object that may keep anything in its own memory between calls (buffers of
`QuadraticResidualCost`, caches of user-written functions) and may answer differently each time or throw.

Not in the sequence: the members of the manifold and of the constraint sets. Simplified as in `Step.lean`: every exception of an evaluation
inside the line search counts as a `std::runtime_error` (linesearch-armijo.hpp:73, 137).
-/

namespace ProxNLP

/-- One call on the cost or on constraint function `i` (with `d i` outputs). cost-function.hpp:42-46, function-base.hpp:29-30, 58-60, 90-95; called from
problem-base.hpp:76-105. -/
inductive Query (X K : Type) (nc : ℕ) (d : Fin nc → ℕ) where
  /-- `cost().call(x)` -/
  | cost (x : X)
  /-- `func(x)` of constraint `i` -/
  | cstr (i : Fin nc) (x : X)
  /-- `cost().computeGradient(x, …)` -/
  | grad (x : X)
  /-- `computeJacobian(x, …)` of constraint `i` -/
  | jac (i : Fin nc) (x : X)
  /-- `cost().computeHessian(x, …)` -/
  | hess (x : X)
  /-- `vectorHessianProduct(x, lam, …)` of constraint `i` -/
  | vhp (i : Fin nc) (x : X) (lam : Fin (d i) → K)

/-- What a call returns or writes when it does not throw. cost-function.hpp:42-46, function-base.hpp:29-30, 58-60, 90-95. -/
def Query.Ans {X K : Type} {nc : ℕ} {d : Fin nc → ℕ} (n : ℕ) : Query X K nc d → Type
  | .cost _ => K
  | .cstr i _ => Fin (d i) → K
  | .grad _ => Fin n → K
  | .jac i _ => Fin (d i) → Fin n → K
  | .hess _ => Matrix (Fin n) (Fin n) K
  | .vhp _ _ _ => Matrix (Fin n) (Fin n) K

/-- A computation that makes such calls: it has ended, or its next call and how it goes on with the answer (`none`: the call throws). Not in
the code: the representation of prox-solver.hxx:51-127 used here. -/
inductive Calls (X K : Type) (nc : ℕ) (d : Fin nc → ℕ) (n : ℕ) (R : Type) where
  | ret (r : R)
  | call (q : Query X K nc d) (k : Option (q.Ans n) → Calls X K nc d n R)

variable {X K : Type} {nc : ℕ} {d : Fin nc → ℕ} {n : ℕ} {R R' : Type}

/-- Sequential composition. Not in the code, see `Calls` (prox-solver.hxx:51-127). -/
def Calls.bind (p : Calls X K nc d n R) (f : R → Calls X K nc d n R') : Calls X K nc d n R' :=
  match p with
  | .ret r => f r
  | .call q k => .call q fun a => (k a).bind f

/-- FnObjects with a memory `σ` of their own: what each call answers and leaves in the memory. Not in the code: user-written subclasses of
cost-function.hpp:42-46 and function-base.hpp:29-95. -/
def FnObjects (X K : Type) (nc : ℕ) (d : Fin nc → ℕ) (n : ℕ) (σ : Type) : Type :=
  (q : Query X K nc d) → σ → Option (q.Ans n) × σ

/-- A call made, and whether it returned (`false`: it threw). Not in the code, see `Calls` (prox-solver.hxx:51-127). -/
abbrev CallRec (X K : Type) (nc : ℕ) (d : Fin nc → ℕ) : Type := Query X K nc d × Bool

/-- Run with given objects: the result, the memory of the objects afterwards, and the calls made, in order (`l`: the ones before). Not in
the code, see `Calls` (prox-solver.hxx:51-127). -/
def Calls.run {σ : Type} (U : FnObjects X K nc d n σ) :
    Calls X K nc d n R → σ → List (CallRec X K nc d) → R × σ × List (CallRec X K nc d)
  | .ret r, s, l => (r, s, l)
  | .call q k, s, l => (k (U q s).1).run U (U q s).2 (l ++ [(q, (U q s).1.isSome)])

/-- A problem whose cost is the `QuadraticResidualCost` object `q`; its memory are the buffers `err` and `tmp_w_err`
(quadratic-residual.hxx:23-64). The constraint functions `cstr`, `jac`, `vhp` keep nothing. -/
def QuadCost.objects [Field K] {p : ℕ} (q : QuadCost X K n p) (cstr : (i : Fin nc) → X → Option (Fin (d i) → K))
    (jac : (i : Fin nc) → X → Fin (d i) → Fin n → K) (vhp : (i : Fin nc) → X → (Fin (d i) → K) → Matrix (Fin n) (Fin n) K) :
    FnObjects X K nc d n ((Fin p → K) × (Fin p → K))
  | .cost x, s =>
    let r := QuadCost.call { q with err := s.1, tmpWErr := s.2 } x
    (some r.2, (r.1.err, r.1.tmpWErr))
  | .grad x, s =>
    let r := QuadCost.gradient { q with err := s.1, tmpWErr := s.2 } x
    (some r.2, (r.1.err, r.1.tmpWErr))
  | .hess x, s =>
    let r := QuadCost.hessian { q with err := s.1, tmpWErr := s.2 } x
    (some r.2, (r.1.err, r.1.tmpWErr))
  | .cstr i x, s => (cstr i x, s)
  | .jac i x, s => (some (jac i x), s)
  | .vhp i x lam, s => (some (vhp i x lam), s)

/-- Go on if the call did not throw, else end with `r`. Not in the code, see `Calls` (prox-solver.hxx:51-127). -/
def Calls.andThen {A : Type} (a : Option A) (r : R) (f : A → Calls X K nc d n R) : Calls X K nc d n R :=
  match a with
  | none => .ret r
  | some v => f v

/-! ### The functions of the problem -/

/-- Loop over the constraints in `Problem::evaluate` (problem-base.hpp:79-82); `acc`: the values written so far. -/
def cstrsP (x : X) : List (Fin nc) → (∀ i, Fin (d i) → K) → Calls X K nc d n (Option (∀ i, Fin (d i) → K))
  | [], acc => .ret (some acc)
  | i :: is, acc => .call (.cstr i x) fun a => .andThen a none fun v => cstrsP x is (Function.update acc i v)

/-- The segments of the constraints as one vector (problem-base.hpp:76-82, workspace.hpp:157-160; see C12). -/
def stackSegs {A : Type} (v : ∀ i, Fin (d i) → A) : Fin (∑ i, d i) → A :=
  fun k => v (finSigmaFinEquiv.symm k).1 (finSigmaFinEquiv.symm k).2

/-- Segment `i` of a stacked vector (problem-base.hpp:64-70). -/
def segOf (lam : Fin (∑ i, d i) → K) (i : Fin nc) : Fin (d i) → K := fun a => lam (finSigmaFinEquiv ⟨i, a⟩)

/-- `Problem::evaluate` (problem-base.hpp:76-83). The values are written over old ones; the start value 0 is overwritten. -/
def evaluateP [Zero K] (x : X) : Calls X K nc d n (Option (K × (Fin (∑ i, d i) → K))) :=
  .call (.cost x) fun a => .andThen a none fun v =>
    (cstrsP x (List.finRange nc) fun _ _ => 0).bind fun r => .ret (r.map fun c => (v, stackSegs c))

/-- Loop over the constraints in `computeDerivatives` (problem-base.hpp:88-91). -/
def jacsP (x : X) : List (Fin nc) → (∀ i, Fin (d i) → Fin n → K) → Calls X K nc d n (Option (∀ i, Fin (d i) → Fin n → K))
  | [], acc => .ret (some acc)
  | i :: is, acc => .call (.jac i x) fun a => .andThen a none fun v => jacsP x is (Function.update acc i v)

/-- `Problem::computeDerivatives` (problem-base.hpp:85-92). -/
def derivsP [Zero K] (x : X) : Calls X K nc d n (Option ((Fin n → K) × (Fin (∑ i, d i) → Fin n → K))) :=
  .call (.grad x) fun a => .andThen a none fun g =>
    (jacsP x (List.finRange nc) fun _ _ _ => 0).bind fun r => .ret (r.map fun J => (g, stackSegs J))

/-- Loop over the constraints in `computeHessians` (problem-base.hpp:97-104). `off i`: `disableGaussNewton()` of the set of constraint `i`,
`all`: the argument `evaluate_all_constraint_hessians`. The entries of constraints without a product (never read, prox-solver.hxx:505-514)
are given as 0. -/
def vhpsP [Zero K] (off : Fin nc → Bool) (all : Bool) (x : X) (lam : Fin (∑ i, d i) → K) :
    List (Fin nc) → List (Bool × Matrix (Fin n) (Fin n) K) → Calls X K nc d n (Option (List (Bool × Matrix (Fin n) (Fin n) K)))
  | [], acc => .ret (some acc)
  | i :: is, acc =>
    if !off i || all then
      .call (.vhp i x (segOf lam i)) fun a => .andThen a none fun (v : Matrix (Fin n) (Fin n) K) =>
        vhpsP off all x lam is (acc ++ [(off i, v)])
    else vhpsP off all x lam is (acc ++ [(off i, 0)])

/-- The Hessian part of `computeProblemDerivatives` (prox-solver.hxx:233-247) with `Problem::computeHessians` (problem-base.hpp:94-105): no
call for BFGS and IDENTITY. -/
def hessP [Zero K] (approx : HessApprox) (off : Fin nc → Bool) (x : X) (lam : Fin (∑ i, d i) → K) :
    Calls X K nc d n (Option (Matrix (Fin n) (Fin n) K × List (Bool × Matrix (Fin n) (Fin n) K))) :=
  match approx with
  | .bfgs => .ret (some (0, []))
  | .identity => .ret (some (0, []))
  | _ => .call (.hess x) fun a => .andThen a none fun H =>
      (vhpsP off (approx == .exact) x lam (List.finRange nc) []).bind fun r => .ret (r.map fun V => (H, V))

/-! ### The line search -/

section
variable {B : Type} [Field K] [LinearOrder K]

/-- `lsFirst` for a merit function that makes calls and writes the workspace (`B`). linesearch-armijo.hpp:63-79. -/
def lsFirstP (phi : K → B → Calls X K nc d n (Option K × B)) (alphaMin : K) :
    ℕ → K → List K → B → Calls X K nc d n (Option (K × LSSample K × List K) × B)
  | 0, _, _, b => .ret (none, b)
  | fuel + 1, alpha, tr, b => (phi alpha b).bind fun r =>
    match r.1 with
    | some v => .ret (some (alpha, LSSample.mk' alpha v, alpha :: tr), r.2)
    | none =>
      let a := alpha * (1 / 2)
      if a ≤ alphaMin then .ret (some (alphaMin, LSSample.default, alpha :: tr), r.2)
      else lsFirstP phi alphaMin fuel a (alpha :: tr) r.2

/-- `lsLoop` for such a merit function. linesearch-armijo.hpp:86-146. -/
def lsLoopP (sqrt : K → K) (sing : LSSample K → LSSample K → K → K → Option K) (phi : K → B → Calls X K nc d n (Option K × B))
    (o : LSOptions K) (phi0 dphi0 : K) (tr0 : List K) :
    ℕ → K → LSSample K → LSSample K → List K → B → Calls X K nc d n (LSResult K × B)
  | 0, alpha, latest, _, tr, b => .ret (⟨max alpha o.alphaMin, latest.phi, tr0, tr, true⟩, b)
  | k + 1, alpha, latest, previous, tr, b =>
    if latest.phi - phi0 ≤ o.armijoC1 * alpha * dphi0 then
      .ret (⟨max alpha o.alphaMin, latest.phi, tr0, tr, false⟩, b)
    else
      let a := lsNextAlpha sqrt sing o phi0 dphi0 alpha latest previous
      (phi a b).bind fun r =>
      match r.1 with
      | none => lsLoopP sqrt sing phi o phi0 dphi0 tr0 k a latest latest (a :: tr) r.2
      | some v =>
        if a ≤ o.alphaMin then .ret (⟨max a o.alphaMin, v, tr0, a :: tr, false⟩, r.2)
        else lsLoopP sqrt sing phi o phi0 dphi0 tr0 k a (LSSample.mk' a v) latest (a :: tr) r.2

/-- `lsRun` for such a merit function. linesearch-armijo.hpp:59-147. -/
def lsRunP (sqrt : K → K) (sing : LSSample K → LSSample K → K → K → Option K) (phi : K → B → Calls X K nc d n (Option K × B))
    (o : LSOptions K) (phi0 dphi0 : K) (fuel : ℕ) (b : B) : Calls X K nc d n (Option (LSResult K) × B) :=
  (lsFirstP phi o.alphaMin fuel 1 [] b).bind fun r =>
  match r.1 with
  | none => .ret (none, r.2)
  | some (alpha, latest, tr) =>
    if |dphi0| < o.dphiThresh then .ret (some ⟨alpha, latest.phi, tr, [], false⟩, r.2)
    else (lsLoopP sqrt sing phi o phi0 dphi0 tr o.maxNumSteps alpha latest LSSample.default [] r.2).bind fun q =>
      .ret (some q.1, q.2)

end

/-! ### The solver -/

section
variable [Field K] [LinearOrder K]

/-- `phi_eval` (prox-solver.hxx:291-298): evaluate at the trial point, write the multipliers. An evaluation that throws leaves the
multipliers as they are. The functions in `C` itself (`eval`, `grad`, `jac`, `objHess`, `cstrVhp`) are not used here or below. -/
def phiP (C : StepCfg X K n (∑ i, d i)) (i : StepIn X K (Hidden K n (∑ i, d i)) n (∑ i, d i)) (dx : Fin n → K)
    (dlam : Fin (∑ i, d i) → K) (alpha : K) (b : Mults K (∑ i, d i)) : Calls X K nc d n (Option K × Mults K (∑ i, d i)) :=
  let xTrial := C.integrate i.x (fun j => alpha * dx j)
  let lamTrial := fun k => i.lam k + alpha * dlam k
  (evaluateP xTrial).bind fun r =>
  match r with
  | none => .ret (none, b)
  | some fc =>
    let M := computeMultipliers C.sets i.mu i.setMu C.beta fc.2 lamTrial i.lamPrev
    .ret (some (meritEvaluate C.sets i.setMu fc.1 M.shiftPdal lamTrial + C.proxVal i.rho i.target xTrial), M)

/-- The whole step (prox-solver.hxx:369-459), as `stepFull`. -/
def stepP (C : StepCfg X K n (∑ i, d i)) (i : StepIn X K (Hidden K n (∑ i, d i)) n (∑ i, d i)) :
    Calls X K nc d n (Except String (StepOut X K (Hidden K n (∑ i, d i)) (∑ i, d i))) :=
  let M := computeMultipliers C.sets i.mu i.setMu C.beta i.ev.c i.lam i.lamPrev
  match stepDirection C i M with
  | .error e => .ret (.error e)
  | .ok (s, st) =>
    let dx := fun j => s (.inl j)
    let dlam := fun k => s (.inr k)
    let dphi0 := dmeritDir i.rho C.beta i.setMu i.ev.grad i.ev.proxGrad i.ev.jac i.lam M.lamsPdal dx dlam
    (lsRunP C.sqrt C.sing (phiP C i dx dlam) C.ls i.ev.merit dphi0 C.fuel M).bind fun q =>
    match q.1 with
    | none => .ret (.error "(does not end)")
    | some r =>
      .ret (.ok { x := C.integrate i.x (fun j => r.alpha * dx j), lam := fun k => i.lam k + r.alpha * dlam k
                  merit := r.ret, lamsPlus := q.2.lamsPlus, lamsPdal := q.2.lamsPdal
                  hidden := { i.hidden with deltaLast := st.deltaLast, fac := st.fac } })

/-- The problem with the values and derivatives that the calls have just written into the workspace. problem-base.hpp:76-105. -/
def StepCfg.withVals {m : ℕ} (C : StepCfg X K n m) (fc : K × (Fin m → K)) (g : Fin n → K) (J : Fin m → Fin n → K)
    (H : Matrix (Fin n) (Fin n) K) (V : List (Bool × Matrix (Fin n) (Fin n) K)) : StepCfg X K n m :=
  { C with
    eval := fun _ => some fc
    grad := fun _ => g
    jac := fun _ => J
    objHess := fun _ => H
    cstrVhp := fun _ _ => V }

/-- `innerLoop` from the top of its `while(true)` (prox-solver.hxx:300-485), as `ProxNLP.innerLoop`. -/
def innerP (C : StepCfg X K n (∑ i, d i)) (off : Fin nc → Bool) (S : Settings K)
    (st : St X K (Hidden K n (∑ i, d i)) (∑ i, d i)) :
    Calls X K nc d n (Except String (St X K (Hidden K n (∑ i, d i)) (∑ i, d i))) :=
  (evaluateP st.xOpt).bind fun r => .andThen r (.error "evaluation") fun fc =>
  (derivsP st.xOpt).bind fun r => .andThen r (.error "derivatives") fun gJ =>
  .andThen (evalAt (concreteCtx (C.withVals fc gJ.1 gJ.2 0 [])) S st.mu st.setMu st.rho st.target st.xOpt st.lamsOpt st.lamsPrev)
    (.error "evaluation") fun ev =>
  (hessP C.approx off st.xOpt ev.lamsPdal).bind fun r => .andThen r (.error "derivatives") fun HV =>
    let st1 := afterEval (concreteCtx (C.withVals fc gJ.1 gJ.2 HV.1 HV.2)) st ev
    if ev.innerCrit ≤ st.innerTol ∨ ev.outerCrit ≤ S.targetTol then .ret (.ok st1)
    else
      (stepP C (stepIn st1 ev)).bind fun r =>
      match r with
      | .error e => .ret (.error e)
      | .ok o =>
        let st2 := { acceptStep st1 o with numIters := st.numIters + 1 }
        if st.numIters + 1 ≥ S.maxIters then .ret (.ok { st2 with converged := .maxIters })
        else innerP C off S st2
termination_by S.maxIters - st.numIters
decreasing_by omega

/-- The outer loop (prox-solver.hxx:85-108), as `ProxNLP.outerLoop`. -/
def outerP (C : StepCfg X K n (∑ i, d i)) (off : Fin nc → Bool) (S : Settings K)
    (st : St X K (Hidden K n (∑ i, d i)) (∑ i, d i)) :
    Calls X K nc d n (Except String (St X K (Hidden K n (∑ i, d i)) (∑ i, d i))) :=
  if st.numIters < S.maxIters ∧ st.alIters < S.maxAlIters then
    (innerP C off S (startOuter (concreteCtx C) st)).bind fun r =>
    match r with
    | .error e => .ret (.error e)
    | .ok st1 =>
      let st2 := afterInner S st1
      if max st2.prim st2.dual < S.targetTol then .ret (.ok { st2 with converged := .success })
      else outerP C off S { setProxParameter st2 (st2.rho * S.rhoUpdateFactor) with alIters := st.alIters + 1 }
  else .ret (.ok st)
termination_by S.maxAlIters - st.alIters
decreasing_by omega

/-- `solve(x0, lams0)` (prox-solver.hxx:51-127), as `ProxNLP.solve`. -/
def solveP (C : StepCfg X K n (∑ i, d i)) (off : Fin nc → Bool) (S : Settings K)
    (st : St X K (Hidden K n (∑ i, d i)) (∑ i, d i)) (x0 : X) (k : ℕ) (lams0 : Fin k → K) :
    Calls X K nc d n (Except String (St X K (Hidden K n (∑ i, d i)) (∑ i, d i))) :=
  if st.hasSetup = false then .ret (.error "Either Results or Workspace are unitialized. Call setup() first.")
  else
    (outerP C off S (initSolve S st x0 k lams0)).bind fun r =>
    match r with
    | .error e => .ret (.error e)
    | .ok st => .ret (.ok (invokeCallbacks st))

end

end ProxNLP
