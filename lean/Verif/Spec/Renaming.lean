import Verif.Model.Step
import Mathlib.Algebra.BigOperators.Group.List.Basic

/-!
Specification for C111: when two problems are the same up to names, and when two solver states are.
-/

namespace ProxNLP.Spec

variable {X X' K : Type} {n m : ℕ}

/-- Another way to write a problem down: points `x` become `point x` (for example other coordinates of the same point), the variable in
place `j` is the old variable `var j`, the constraint row in place `i` is the old row `row i`, the cost is larger by the constant `shift`.
`origin`: the coordinates of points (as BFGS sees them) move by this vector. -/
structure Renaming (X X' K : Type) (n m : ℕ) where
  point : X → X'
  var : Equiv.Perm (Fin n)
  row : Equiv.Perm (Fin m)
  shift : K
  origin : Fin n → K

/-- A matrix on the variables, its rows and columns renamed. -/
def Renaming.mat (ρ : Renaming X X' K n m) (A : Matrix (Fin n) (Fin n) K) : Matrix (Fin n) (Fin n) K :=
  Matrix.of fun i j => A (ρ.var i) (ρ.var j)

/-- A matrix on variables and constraint rows, renamed. -/
def Renaming.kkt (ρ : Renaming X X' K n m) (A : Matrix (Fin n ⊕ Fin m) (Fin n ⊕ Fin m) K) :
    Matrix (Fin n ⊕ Fin m) (Fin n ⊕ Fin m) K :=
  Matrix.of fun a b => A (Sum.map ρ.var ρ.row a) (Sum.map ρ.var ρ.row b)

/-- What the second derivatives of the constraints add to the Hessian of the subproblem; each entry is one constraint, with the mark of those
that the Gauss-Newton approximation leaves out. -/
def secondOrder [AddCommMonoid K] (exact : Bool) (v : List (Bool × Matrix (Fin n) (Fin n) K)) : Matrix (Fin n) (Fin n) K :=
  (v.map fun p => if !p.1 || exact then p.2 else 0).sum

/-- `C'` is the problem `C` written with other names: values, derivatives, constraint sets, retraction and distances are those of `C` at
the corresponding arguments. The rows may be distributed among constraint objects in another way (`cstrVhp` has one entry per constraint
object), as long as their second derivatives add up to the same matrix. -/
structure SameProblem [Field K] (ρ : Renaming X X' K n m) (C : StepCfg X K n m) (C' : StepCfg X' K n m) : Prop where
  eval : ∀ x, C'.eval (ρ.point x) = (C.eval x).map fun fc => (fc.1 + ρ.shift, fun i => fc.2 (ρ.row i))
  grad : ∀ x j, C'.grad (ρ.point x) j = C.grad x (ρ.var j)
  jac : ∀ x i j, C'.jac (ρ.point x) i j = C.jac x (ρ.row i) (ρ.var j)
  objHess : ∀ x, C'.objHess (ρ.point x) = ρ.mat (C.objHess x)
  cstrVhp : ∀ exact x l, secondOrder exact (C'.cstrVhp (ρ.point x) fun i => l (ρ.row i)) = ρ.mat (secondOrder exact (C.cstrVhp x l))
  projection : ∀ mu z i, C'.sets.projection mu (fun k => z (ρ.row k)) i = C.sets.projection mu z (ρ.row i)
  normal : ∀ mu z i, C'.sets.normal mu (fun k => z (ρ.row k)) i = C.sets.normal mu z (ρ.row i)
  active : ∀ mu z i, C'.sets.active mu (fun k => z (ρ.row k)) i = C.sets.active mu z (ρ.row i)
  evaluate : ∀ mu z, C'.sets.evaluate mu (fun k => z (ρ.row k)) = C.sets.evaluate mu z
  neutral : C'.neutral = ρ.point C.neutral
  coords : ∀ x j, C'.coords (ρ.point x) j = C.coords x (ρ.var j) + ρ.origin j
  integrate : ∀ x v, C'.integrate (ρ.point x) (fun j => v (ρ.var j)) = ρ.point (C.integrate x v)
  proxVal : ∀ rho t x, C'.proxVal rho (ρ.point t) (ρ.point x) = C.proxVal rho t x
  proxGrad : ∀ rho t x j, C'.proxGrad rho (ρ.point t) (ρ.point x) j = C.proxGrad rho t x (ρ.var j)
  proxHess : ∀ rho t x, C'.proxHess rho (ρ.point t) (ρ.point x) = ρ.mat (C.proxHess rho t x)

/-- The same options of the solver, the linear solver and its refinement aside. -/
structure SameOptions (C : StepCfg X K n m) (C' : StepCfg X' K n m) : Prop where
  approx : C'.approx = C.approx
  kkt : C'.kkt = C.kkt
  beta : C'.beta = C.beta
  ls : C'.ls = C.ls
  sqrt : C'.sqrt = C.sqrt
  sing : C'.sing = C.sing
  fuel : C'.fuel = C.fuel

/-- The same linear solver up to names: the inertia test has the same outcome and the solutions are the same. -/
structure SameBackend (ρ : Renaming X X' K n m) (B B' : Backend K n m) : Prop where
  sig : ∀ A, checkInertia n m (B'.sig (ρ.kkt A)) = checkInertia n m (B.sig A)
  solve : ∀ A (b : Fin n ⊕ Fin m → K) a, B'.solve (ρ.kkt A) (fun c => b (Sum.map ρ.var ρ.row (finSumFinEquiv.symm c))) a =
    B.solve A (fun c => b (finSumFinEquiv.symm c)) (finSumFinEquiv (Sum.map ρ.var ρ.row (finSumFinEquiv.symm a)))

/-- The constant does not matter to the line search: no constant is added, or no function of the problem throws, and what the cubic
interpolation yields on a singular system depends only on differences of values. -/
def ConstantSafe [Add K] [Zero K] (ρ : Renaming X X' K n m) (C : StepCfg X K n m) : Prop :=
  ρ.shift = 0 ∨ ((∀ x, C.eval x ≠ none) ∧ ∀ c0 c1 : LSSample K, ∀ lo hi,
    C.sing { c0 with phi := c0.phi + ρ.shift } { c1 with phi := c1.phi + ρ.shift } lo hi = C.sing c0 c1 lo hi)

/-- What a solver keeps from one iteration to the next beside its results, renamed. -/
structure SameHidden [AddCommMonoid K] (ρ : Renaming X X' K n m) (h h' : Hidden K n m) : Prop where
  hess : h'.hess = ρ.mat h.hess
  vhps : ∀ exact, secondOrder exact h'.vhps = ρ.mat (secondOrder exact h.vhps)
  isInit : h'.bfgs.isInit = h.bfgs.isInit
  isPsd : h'.bfgs.isPsd = h.bfgs.isPsd
  isValid : h'.bfgs.isValid = h.bfgs.isValid
  xPrev : h.bfgs.isInit = true → ∀ j, h'.bfgs.xPrev j = h.bfgs.xPrev (ρ.var j) + ρ.origin j
  gPrev : h.bfgs.isInit = true → ∀ j, h'.bfgs.gPrev j = h.bfgs.gPrev (ρ.var j)
  deltaLast : h'.deltaLast = h.deltaLast
  fac : h'.fac = h.fac.map ρ.kkt

/-- The state of a solver and everything it reports, renamed; cost value, merit value and `hidden` given separately. -/
def Renaming.state [Add K] {H H' : Type} (ρ : Renaming X X' K n m) (value merit : K) (hidden : H') (st : St X K H m) : St X' K H' m :=
  { hasSetup := st.hasSetup
    xOpt := ρ.point st.xOpt
    xPrev := ρ.point st.xPrev
    lamsOpt := fun i => st.lamsOpt (ρ.row i)
    lamsPrev := fun i => st.lamsPrev (ρ.row i)
    lamsPlus := fun i => st.lamsPlus (ρ.row i)
    lamsPdal := fun i => st.lamsPdal (ρ.row i)
    mu := st.mu
    setMu := st.setMu
    rho := st.rho
    primTol := st.primTol
    innerTol := st.innerTol
    target := ρ.point st.target
    converged := st.converged
    numIters := st.numIters
    alIters := st.alIters
    prim := st.prim
    dual := st.dual
    value := value
    merit := merit
    active := fun i => st.active (ρ.row i)
    rowErr := fun i => st.rowErr (ρ.row i)
    resMu := st.resMu
    resRho := st.resRho
    hidden := hidden
    callbacks := st.callbacks
    trace := st.trace.map fun t => (t.1, { x := ρ.point t.2.x, lam := fun i => t.2.lam (ρ.row i), merit := t.2.merit + ρ.shift, numIters := t.2.numIters })
    outerLog := st.outerLog.map fun r => { r with target := ρ.point r.target, x := ρ.point r.x }
    endLog := st.endLog.map fun r => { r with x := ρ.point r.x }
    accepted := st.accepted.map fun a => (ρ.point a.1, fun i => a.2 (ρ.row i)) }

/-- Two solvers that are in the same state up to names (whatever cost and merit values they show). -/
def SameState [AddCommMonoid K] (ρ : Renaming X X' K n m) (st : St X K (Hidden K n m) m) (st' : St X' K (Hidden K n m) m) : Prop :=
  ∃ v mer h, SameHidden ρ st.hidden h ∧ st' = ρ.state v mer h st

/-- The same outcome of a solve: the same exception, or the same results, reports, callbacks and state up to names, with value and merit
larger by the constant. -/
def SameOutcome [AddCommMonoid K] (ρ : Renaming X X' K n m) :
    Except String (St X K (Hidden K n m) m) → Except String (St X' K (Hidden K n m) m) → Prop
  | .error e, .error e' => e' = e
  | .ok r, .ok r' => ∃ h, SameHidden ρ r.hidden h ∧ r' = ρ.state (r.value + ρ.shift) (r.merit + ρ.shift) h r
  | _, _ => False

/-- Nothing is renamed; the constant `c` is added to the cost. -/
def Renaming.constant [Zero K] (c : K) : Renaming X X K n m := ⟨id, 1, 1, c, 0⟩

/-- The constraint rows are listed in another order. -/
def Renaming.rows [Zero K] (σ : Equiv.Perm (Fin m)) : Renaming X X K n m := ⟨id, 1, σ, 0, 0⟩

/-- The variables of a problem on `ℝⁿ` are listed in another order. -/
def Renaming.vars [Zero K] (τ : Equiv.Perm (Fin n)) : Renaming (Fin n → K) (Fin n → K) K n m := ⟨fun x j => x (τ j), τ, 1, 0, 0⟩

/-- The same problem with the cost `f(x) + c`. -/
def addConstant [Add K] (c : K) (C : StepCfg X K n m) : StepCfg X K n m :=
  { C with eval := fun x => (C.eval x).map fun fc => (fc.1 + c, fc.2) }

/-- The same problem, its rows listed in the order `σ`. Row `i` of the problem belongs to the set and local row `leaf i`. -/
def reorderRows [Field K] [LinearOrder K] (σ : Equiv.Perm (Fin m)) (leaf : Fin m → LeafSet K × ℕ) (C : StepCfg X K n m) : StepCfg X K n m :=
  { C with
    eval := fun x => (C.eval x).map fun fc => (fc.1, fun i => fc.2 (σ i))
    jac := fun x i => C.jac x (σ i)
    cstrVhp := fun x l => C.cstrVhp x fun i => l (σ.symm i)
    sets := StackedSet.ofLeaves fun i => leaf (σ i) }

/-- The constraint objects of a problem: each holds some of the rows. `hess x i` is the second derivative of row `i`, `left i` says whether the
Gauss-Newton approximation leaves the rows of that kind of set out; a constraint object reports `∑ λᵢ ∇²cᵢ(x)` over its rows. -/
def groupedRows [Field K] (hess : X → Fin m → Matrix (Fin n) (Fin n) K) (left : Fin m → Bool) (groups : List (List (Fin m))) (x : X)
    (l : Fin m → K) : List (Bool × Matrix (Fin n) (Fin n) K) :=
  groups.map fun g => (g.any left, (g.map fun i => l i • hess x i).sum)

/-- Each row is in exactly one constraint object, and the rows of one object are of the same kind. -/
def IsGrouping (left : Fin m → Bool) (groups : List (List (Fin m))) : Prop :=
  groups.flatten.Perm (List.finRange m) ∧ ∀ g ∈ groups, ∀ i ∈ g, ∀ k ∈ g, left i = left k

/-- The same problem on `ℝⁿ`, its variables listed in the order `τ`: `y` stands for the point `x` with `x (τ j) = y j`. -/
def reorderVars (τ : Equiv.Perm (Fin n)) (C : StepCfg (Fin n → K) K n m) : StepCfg (Fin n → K) K n m :=
  { C with
    eval := fun y => C.eval fun j => y (τ.symm j)
    grad := fun y j => C.grad (fun j => y (τ.symm j)) (τ j)
    jac := fun y i j => C.jac (fun j => y (τ.symm j)) i (τ j)
    objHess := fun y => Matrix.of fun a b => C.objHess (fun j => y (τ.symm j)) (τ a) (τ b)
    cstrVhp := fun y l => (C.cstrVhp (fun j => y (τ.symm j)) l).map fun v => (v.1, Matrix.of fun a b => v.2 (τ a) (τ b))
    neutral := fun j => C.neutral (τ j)
    coords := fun y j => C.coords (fun j => y (τ.symm j)) (τ j)
    integrate := fun y v j => C.integrate (fun j => y (τ.symm j)) (fun j => v (τ.symm j)) (τ j)
    proxVal := fun rho t y => C.proxVal rho (fun j => t (τ.symm j)) (fun j => y (τ.symm j))
    proxGrad := fun rho t y j => C.proxGrad rho (fun j => t (τ.symm j)) (fun j => y (τ.symm j)) (τ j)
    proxHess := fun rho t y => Matrix.of fun a b => C.proxHess rho (fun j => t (τ.symm j)) (fun j => y (τ.symm j)) (τ a) (τ b) }

end ProxNLP.Spec
