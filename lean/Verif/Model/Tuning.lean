import Verif.Model.Step

/-!
A solver object whose settings are changed between calls: the public members of `ProxNLPSolverTpl` (prox-solver.hpp:62-129; exposed to Python
in bindings/python/expose-solver.cpp:117-191), its setters, `setup()` and `solve()`, in any order.

Left out: `verbose` and the logger (C96), `ls_strat` (only ARMIJO is implemented), changes of the problem (C117) and changes made by a callback
while `solve()` is running.
-/

namespace ProxNLP

variable {X K : Type} {n m : ℕ} [Field K] [LinearOrder K]

/-- A `ProxNLPSolverTpl` object (prox-solver.hpp:60-132). `cfg`: the problem and the members read by a step; its linear solver is the one
in `workspace_->ldlt_`, made by the last `setup()`. `set`: the other settings. `choice`: the member `ldlt_choice_`. `st`: the rest. -/
structure TunedSolver (X K : Type) (n m : ℕ) where
  cfg : StepCfg X K n m
  set : Settings K
  choice : Backend K n m
  st : St X K (Hidden K n m) m

/-- What a program does with a solver object. Members: prox-solver.hpp:62-126; calls: 147-163, 181-219. -/
inductive TuneOp (X K : Type) (n m : ℕ) where
  /-- `solver.target_tol = v`, and so on -/
  | targetTol (v : K)
  | muInit (v : K)
  | rhoInit (v : K)
  | muLower (v : K)
  | muUpper (v : K)
  | innerTol0 (v : K)
  | primTol0 (v : K)
  | innerTolMin (v : K)
  /-- `bcl_params.prim_alpha = v`, and so on -/
  | primAlpha (v : K)
  | primBeta (v : K)
  | dualAlpha (v : K)
  | dualBeta (v : K)
  | muFactor (v : K)
  | rhoFactor (v : K)
  | maxIters (k : ℕ)
  | maxAlIters (k : ℕ)
  | mulMode (v : MulMode)
  | kktSystem (v : KktSys)
  | hessApprox (v : HessApprox)
  /-- `reg_init` and the other parameters of the inertia correction -/
  | inertia (v : InertiaParams K)
  | kktTolerance (v : K)
  | maxRefinementSteps (k : ℕ)
  | lsOptions (v : LSOptions K)
  | ldltChoice (v : Backend K n m)
  /-- `solver.setDualPenalty(beta)` -/
  | setDualPenalty (beta : K)
  /-- `solver.setPenalty(mu)` -/
  | setPenalty (mu : K)
  /-- `solver.setProxParameter(rho)` -/
  | setProxParameter (rho : K)
  | registerCallback (cb : ℕ)
  | clearCallbacks
  | setup
  | solve (x0 : X) (k : ℕ) (lams0 : Fin k → K)

/-- A newly constructed solver (prox-solver.hxx:15-30) on a problem, with all settings given. Members that the constructor does not take
have default values (prox-solver.hpp:70-126); here they are given as well. `workspace_` is empty. -/
def TunedSolver.new (C : StepCfg X K n m) (S : Settings K) (b : Backend K n m) : TunedSolver X K n m where
  cfg := C
  set := S
  choice := b
  st := St.fresh (concreteCtx C) S { hess := 0, vhps := [], bfgs := Bfgs.default, deltaLast := 0, fac := none }

/-- `setup()` (prox-solver.hpp:147-163) on a problem with `nx == ndx`: a workspace with the chosen linear solver; the BFGS strategy is replaced
only if BFGS is selected at that time. -/
def TunedSolver.setup (o : TunedSolver X K n m) : TunedSolver X K n m :=
  let C := { o.cfg with backend := o.choice }
  { o with
    cfg := C
    st := ProxNLP.setup (concreteCtx C)
      { hidden0 C with bfgs := if C.approx = .bfgs then Bfgs.new else o.st.hidden.bfgs } o.st }

/-- `solve(x0, lams0)` (prox-solver.hxx:51-127). With BFGS selected and a strategy object that `setup()` has not made, the first update throws
(bfgs-strategy.hpp:34-38, called from prox-solver.hxx:235). Simplified: if evaluating the problem throws before that, this is another
exception in the code. -/
def TunedSolver.solve (o : TunedSolver X K n m) (x0 : X) (k : ℕ) (lams0 : Fin k → K) : Except String (St X K (Hidden K n m) m) :=
  if o.st.hasSetup = true ∧ o.cfg.approx = .bfgs ∧ o.st.hidden.bfgs.isInit = false ∧ o.st.hidden.bfgs.isValid = false ∧
      0 < o.set.maxIters ∧ 0 < o.set.maxAlIters then
    .error "Cannot initialize an invalid BFGSStrategy. Use the constructor with num_vars first."
  else ProxNLP.solve (concreteCtx o.cfg) o.set o.st x0 k lams0

/-- Assignments and calls other than `solve`. prox-solver.hpp:62-126, 147-163, 205-219; prox-solver.hxx:546-562. -/
def TunedSolver.assign (o : TunedSolver X K n m) : TuneOp X K n m → TunedSolver X K n m
  | .targetTol v => { o with set := { o.set with targetTol := v } }
  | .muInit v => { o with set := { o.set with muInit := v } }
  | .rhoInit v => { o with set := { o.set with rhoInit := v } }
  | .muLower v => { o with set := { o.set with muLower := v } }
  | .muUpper v => { o with set := { o.set with muUpper := v } }
  | .innerTol0 v => { o with set := { o.set with innerTol0 := v } }
  | .primTol0 v => { o with set := { o.set with primTol0 := v } }
  | .innerTolMin v => { o with set := { o.set with innerTolMin := v } }
  | .primAlpha v => { o with set := { o.set with primAlpha := v } }
  | .primBeta v => { o with set := { o.set with primBeta := v } }
  | .dualAlpha v => { o with set := { o.set with dualAlpha := v } }
  | .dualBeta v => { o with set := { o.set with dualBeta := v } }
  | .muFactor v => { o with set := { o.set with muUpdateFactor := v } }
  | .rhoFactor v => { o with set := { o.set with rhoUpdateFactor := v } }
  | .maxIters k => { o with set := { o.set with maxIters := k } }
  | .maxAlIters k => { o with set := { o.set with maxAlIters := k } }
  | .mulMode v => { o with set := { o.set with mode := v } }
  | .kktSystem v => { o with set := { o.set with kkt := v }, cfg := { o.cfg with kkt := v } }
  | .hessApprox v => { o with cfg := { o.cfg with approx := v } }
  | .inertia v => { o with cfg := { o.cfg with inertia := v } }
  | .kktTolerance v => { o with cfg := { o.cfg with refineTol := v } }
  | .maxRefinementSteps k => { o with cfg := { o.cfg with refineSteps := k } }
  | .lsOptions v => { o with cfg := { o.cfg with ls := v } }
  | .ldltChoice v => { o with choice := v }
  | .setDualPenalty b => { o with set := { o.set with pdalBeta := b }, cfg := { o.cfg with beta := b } }
  | .setPenalty mu => { o with st := ProxNLP.setPenalty o.st mu }
  | .setProxParameter rho => { o with st := ProxNLP.setProxParameter o.st rho }
  | .registerCallback cb => { o with st := ProxNLP.registerCallback o.st cb }
  | .clearCallbacks => { o with st := ProxNLP.clearCallbacks o.st }
  | .setup => o.setup
  | .solve _ _ _ => o

/-- The effect of an operation. A call of `solve` (prox-solver.hxx:51-127) that throws may leave anything in the workspace and the results; it
neither frees them nor changes the list of callbacks. -/
inductive TunedSolver.Step : TunedSolver X K n m → TuneOp X K n m → TunedSolver X K n m → Prop where
  | assign (o op) (h : ∀ x0 k lams0, op ≠ .solve x0 k lams0) : Step o op (o.assign op)
  | returned (o x0 k lams0 s) (h : o.solve x0 k lams0 = .ok s) : Step o (.solve x0 k lams0) { o with st := s }
  | thrown (o x0 k lams0 e s) (h : o.solve x0 k lams0 = .error e) (h1 : s.hasSetup = o.st.hasSetup)
      (h2 : s.callbacks = o.st.callbacks) : Step o (.solve x0 k lams0) { o with st := s }

/-- A history of operations. Not in the code: a program using prox-solver.hpp:62-219. -/
inductive TunedSolver.Runs : TunedSolver X K n m → List (TuneOp X K n m) → TunedSolver X K n m → Prop where
  | nil (o) : Runs o [] o
  | snoc {o ops o' op o''} (h : Runs o ops o') (h' : Step o' op o'') : Runs o (ops ++ [op]) o''

end ProxNLP
