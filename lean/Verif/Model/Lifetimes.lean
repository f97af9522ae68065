import Mathlib.Data.List.Basic

/-!
Model of object lifetimes behind the Python bindings (bindings/python/expose-solver.cpp, expose-problem.cpp,
expose-autodiff.cpp, expose-results.cpp) of `ProxNLPSolverTpl` (prox-solver.hpp), `ProblemTpl` (problem-base.hpp) and
`finite_difference_wrapper` (modelling/autodiff/finite-difference.hpp).

Python objects are numbered in order of creation and never renumbered.  A Python object keeps others alive in two ways:
* a C++ member of type `shared_ptr` made from a Python object holds a reference to that object;
* an object returned with `return_internal_reference` holds a reference to the object it was obtained from.
A C++ pointer or reference keeps nothing alive.  An object is destroyed as soon as it cannot be reached from a variable
(reference counting; the references of this model go from newer to older objects, so there are no cycles).

Simplifications: a temporary is a variable deleted right after the call.  Values are not modelled, only which objects a
call touches.  Multipliers, workspace and scalar members behave like the results and are left out.
-/

namespace ProxNLP

/-- Part of an object a C++ pointer designates: the object itself, the content of `Problem::manifold_`
(problem-base.hpp:27), or what `results_` of a solver points to (prox-solver.hpp:132). -/
inductive PySlot where
  | whole | manifold | results
  deriving DecidableEq, Repr

/-- A C++ pointer or reference.  `ver` tells which content of the slot it was made for: assigning to `manifold_` and
`setup()` destroy the old content. problem-base.hpp:25-29, prox-solver.hpp `problem_`,
finite-difference.hpp:86-87. -/
structure PyPtr where
  obj : ℕ
  slot : PySlot
  ver : ℕ
  deriving DecidableEq, Repr

/-- Python objects of the bindings, with the pointers and references they hold.
bindings/python/expose-solver.cpp, expose-problem.cpp, expose-autodiff.cpp:24-37. -/
inductive PyObj where
  /-- a manifold -/
  | space
  /-- a function or cost written by the user; it refers to nothing -/
  | func
  /-- `FiniteDifferenceHelper`, `FiniteDifferenceHelperC2`: members `const Manifold &space; const FuncType &func;`
  (finite-difference.hpp:86-87, 119-120; expose-autodiff.cpp:24-37, no call policy) -/
  | fd (space func : PyPtr)
  /-- `Problem`: cost and constraint functions by `shared_ptr`, the manifold by value (problem-base.hpp:27-31) -/
  | problem (deps : List ℕ) (mver : ℕ)
  /-- `ProxNLPSolver`: `Problem *problem_` (prox-solver.hpp:61), and how often `setup()` was called -/
  | solver (prob : PyPtr) (setups : ℕ)
  /-- an object returned with `return_internal_reference` or `ReturnInternalStdUniquePtr`, and the object it keeps alive -/
  | ref (target : PyPtr) (custodian : ℕ)
  deriving DecidableEq, Repr

/-- Objects ever created, and the variables of the program with the objects they hold. Not in the
code: the memory of a Python program using bindings/python/expose-solver.cpp and
expose-problem.cpp; reference counting of CPython. -/
structure LtState where
  objs : List PyObj
  vars : List (ℕ × ℕ)
  deriving DecidableEq, Repr

/-- Objects kept alive by an object. bindings/python/expose-solver.cpp, expose-problem.cpp,
expose-autodiff.cpp:24-37. -/
def PyObj.strong : PyObj → List ℕ
  | .problem deps _ => deps
  | .ref _ c => [c]
  | _ => []

/-- Reachable from the variables `vars` along at most `k` references. Not in the code: the memory
of a Python program using bindings/python/expose-solver.cpp and expose-problem.cpp; reference
counting of CPython. -/
def heldWithin (objs : List PyObj) (vars : List (ℕ × ℕ)) : ℕ → ℕ → Bool
  | 0, i => vars.any fun v => v.2 == i
  | k + 1, i => (vars.any fun v => v.2 == i) || (List.range objs.length).any fun p =>
      (match objs[p]? with | some o => o.strong.contains i | none => false) && heldWithin objs vars k p

/-- The object still exists. Not in the code: the memory of a Python program using
bindings/python/expose-solver.cpp and expose-problem.cpp; reference counting of CPython. -/
def LtState.alive (s : LtState) (i : ℕ) : Bool := heldWithin s.objs s.vars s.objs.length i

/-- The current content of a slot; `none`: there is none. The assignments of
prox-solver.hpp:147-163 to members whose references were handed out by expose-solver.cpp,
expose-results.cpp. -/
def LtState.version (s : LtState) (i : ℕ) (slot : PySlot) : Option ℕ :=
  match s.objs[i]?, slot with
  | some _, .whole => some 0
  | some (.problem _ m), .manifold => some m
  | some (.solver _ n), .results => if n = 0 then none else some n
  | _, _ => none

/-- The pointer designates something that exists. The assignments of prox-solver.hpp:147-163 to
members whose references were handed out by expose-solver.cpp, expose-results.cpp. -/
def LtState.valid (s : LtState) (p : PyPtr) : Bool := s.alive p.obj && (s.version p.obj p.slot == some p.ver)

/-- A method call on object `i` touches only what exists.  `fuel` bounds the nesting.
* `FiniteDifferenceHelper`: `space` and `func` (finite-difference.hpp:96-103, 127-140);
* `Problem`: its functions (problem-base.hpp:76-105);
* `ProxNLPSolver`, `solve` and the other methods: the problem and its functions (prox-solver.hxx);
* a returned object: what it designates. -/
def LtState.touch (s : LtState) : ℕ → ℕ → Bool
  | 0, _ => false
  | fuel + 1, i => s.alive i && match s.objs[i]? with
    | some .space => true
    | some .func => true
    | some (.fd sp f) => s.valid sp && (s.valid f && LtState.touch s fuel f.obj)
    | some (.problem deps _) => deps.all fun d => LtState.touch s fuel d
    | some (.solver p _) => s.valid p && LtState.touch s fuel p.obj
    | some (.ref t _) => s.valid t && (t.slot != .whole || LtState.touch s fuel t.obj)
    | none => false

/-- Statements of a program.  Variables are numbers; the first argument of a constructor or getter
is assigned. Not in the code: a history of calls of bindings/python/expose-solver.cpp,
expose-problem.cpp, expose-autodiff.cpp. -/
inductive LtStmt where
  /-- a manifold -/
  | newSpace (v : ℕ)
  /-- a user function or cost -/
  | newFunc (v : ℕ)
  /-- `FiniteDifferenceHelper(space, func, eps)` -/
  | newFd (v space func : ℕ)
  /-- `Problem(space, cost, [ConstraintObject(func, set), ...])`, the cost and functions being `deps` -/
  | newProblem (v space : ℕ) (deps : List ℕ)
  /-- `ProxNLPSolver(problem)` -/
  | newSolver (v prob : ℕ)
  /-- `v = w` -/
  | bind (v w : ℕ)
  /-- `del v`, or the end of a function whose local `v` is -/
  | del (v : ℕ)
  /-- `v = solver.problem` -/
  | solverProblem (v solver : ℕ)
  /-- `v = solver.manifold` -/
  | solverManifold (v solver : ℕ)
  /-- `v = solver.results` -/
  | solverResults (v solver : ℕ)
  /-- `v = problem.manifold` -/
  | problemManifold (v prob : ℕ)
  /-- `v = results.xopt` -/
  | xopt (v results : ℕ)
  /-- `problem.manifold = space` -/
  | setManifold (prob space : ℕ)
  /-- `solver.setup()` -/
  | setup (solver : ℕ)
  /-- any other method call on the object, e.g. `solver.solve(x0)`, `results.value`, `func(x)` -/
  | call (v : ℕ)
  deriving DecidableEq, Repr

/-- Outcome of a statement: done, Python exception, or an access to an object that no longer
exists. Not in the code: a history of calls of bindings/python/expose-solver.cpp,
expose-problem.cpp, expose-autodiff.cpp. -/
inductive PyOut where
  | ok (s : LtState)
  | error
  | dangling
  deriving DecidableEq, Repr

/-- the object a variable holds (not in the code: the memory of a Python program using
bindings/python/expose-solver.cpp and expose-problem.cpp; reference counting of CPython) -/
def LtState.look (s : LtState) (v : ℕ) : Option ℕ := (s.vars.find? fun e => e.1 == v).map fun e => e.2

/-- assignment to a variable (not in the code: the memory of a Python program using
bindings/python/expose-solver.cpp and expose-problem.cpp; reference counting of CPython) -/
def LtState.assign (s : LtState) (v i : ℕ) : LtState := { s with vars := (v, i) :: s.vars.filter fun e => e.1 != v }

/-- a new object assigned to a variable (not in the code: the memory of a Python program using
bindings/python/expose-solver.cpp and expose-problem.cpp; reference counting of CPython) -/
def LtState.create (s : LtState) (v : ℕ) (o : PyObj) : LtState :=
  ({ s with objs := s.objs ++ [o] }).assign v s.objs.length

/-- argument of type `const Manifold &` (arguments of bindings/python/expose-autodiff.cpp:24-37,
expose-problem.cpp) -/
def LtState.spaceArg (s : LtState) (v : ℕ) : Option PyPtr :=
  (s.look v).bind fun i => match s.objs[i]? with
    | some .space => some ⟨i, .whole, 0⟩
    | some (.ref t _) => if t.slot = .manifold then some t else none
    | _ => none

/-- argument of type `const Function &` or `shared_ptr<C2Function>` (arguments of
bindings/python/expose-autodiff.cpp:24-37, expose-problem.cpp) -/
def LtState.funcArg (s : LtState) (v : ℕ) : Option PyPtr :=
  (s.look v).bind fun i => match s.objs[i]? with
    | some .func => some ⟨i, .whole, 0⟩
    | some (.fd _ _) => some ⟨i, .whole, 0⟩
    | _ => none

/-- argument of type `Problem &` (arguments of bindings/python/expose-solver.cpp) -/
def LtState.problemArg (s : LtState) (v : ℕ) : Option PyPtr :=
  (s.look v).bind fun i => match s.objs[i]? with
    | some (.problem _ _) => some ⟨i, .whole, 0⟩
    | some (.ref t _) => if t.slot = .whole then some t else none
    | _ => none

/-- argument of type `ProxNLPSolver &`: the object, its problem pointer, its number of `setup()`
calls (arguments of bindings/python/expose-solver.cpp) -/
def LtState.solverArg (s : LtState) (v : ℕ) : Option (ℕ × PyPtr × ℕ) :=
  (s.look v).bind fun i => match s.objs[i]? with
    | some (.solver p n) => some (i, p, n)
    | _ => none

/-- One statement. Not in the code: a history of calls of bindings/python/expose-solver.cpp,
expose-problem.cpp, expose-autodiff.cpp. -/
def LtState.step (s : LtState) : LtStmt → PyOut
  | .newSpace v => .ok (s.create v .space)
  | .newFunc v => .ok (s.create v .func)
  | .newFd v sp f =>
    -- finite-difference.hpp:92-94, 125-127: the constructor asks both for their dimensions
    match s.spaceArg sp, s.funcArg f with
    | some p, some q => if s.valid p && s.valid q then .ok (s.create v (.fd p q)) else .dangling
    | _, _ => .error
  | .newProblem v sp deps =>
    -- problem-base.hpp:34-40, expose-problem.cpp:15-17: the manifold is copied
    match s.spaceArg sp, deps.mapM fun d => s.funcArg d with
    | some p, some qs => if s.valid p then .ok (s.create v (.problem (qs.map fun q => q.obj) 0)) else .dangling
    | _, _ => .error
  | .newSolver v pr =>
    -- prox-solver.hxx:15-30, expose-solver.cpp:102-108 (no call policy): keeps the address, reads the manifold
    match s.problemArg pr with
    | some p => if s.valid p then .ok (s.create v (.solver p 0)) else .dangling
    | none => .error
  | .bind v w =>
    match s.look w with
    | some i => .ok (s.assign v i)
    | none => .error
  | .del v =>
    match s.look v with
    | some _ => .ok { s with vars := s.vars.filter fun e => e.1 != v }
    | none => .error
  | .solverProblem v sv =>
    -- prox-solver.hpp:143, expose-solver.cpp:109-112
    match s.solverArg sv with
    | some (i, p, _) => .ok (s.create v (.ref p i))
    | none => .error
  | .solverManifold v sv =>
    -- prox-solver.hpp:145, expose-solver.cpp:113-116: reads `problem_->manifold_`
    match s.solverArg sv with
    | some (i, p, _) =>
      if s.valid p then
        match s.version p.obj .manifold with
        | some m => .ok (s.create v (.ref ⟨p.obj, .manifold, m⟩ i))
        | none => .error
      else .dangling
    | none => .error
  | .solverResults v sv =>
    -- expose-solver.cpp:141-142; `None` before `setup()`, here an exception
    match s.solverArg sv with
    | some (i, _, n) => if n = 0 then .error else .ok (s.create v (.ref ⟨i, .results, n⟩ i))
    | none => .error
  | .problemManifold v pr =>
    -- expose-problem.cpp:19, python/polymorphic.hpp:255-273: a reference to the content of `manifold_`
    match s.look pr, s.problemArg pr with
    | some i, some p =>
      if s.valid p then
        match s.version p.obj .manifold with
        | some m => .ok (s.create v (.ref ⟨p.obj, .manifold, m⟩ i))
        | none => .error
      else .dangling
    | _, _ => .error
  | .xopt v r =>
    -- expose-results.cpp:22: `def_readonly`, an array on the memory of the member
    match s.look r with
    | some i =>
      match s.objs[i]? with
      | some (.ref t _) =>
        if t.slot = .results then (if s.valid t then .ok (s.create v (.ref t i)) else .dangling) else .error
      | _ => .error
    | none => .error
  | .setManifold pr sp =>
    -- expose-problem.cpp:19 (`def_readwrite`); polymorphic_cxx14.hpp:350-373 destroys the old content
    match s.problemArg pr, s.spaceArg sp with
    | some p, some q =>
      if s.valid p && s.valid q then
        match s.objs[p.obj]? with
        | some (.problem deps m) => .ok { s with objs := s.objs.set p.obj (.problem deps (m + 1)) }
        | _ => .error
      else .dangling
    | _, _ => .error
  | .setup sv =>
    -- prox-solver.hpp:147-149: destroys the old workspace and results
    match s.solverArg sv with
    | some (i, p, n) => if s.valid p then .ok { s with objs := s.objs.set i (.solver p (n + 1)) } else .dangling
    | none => .error
  | .call v =>
    match s.look v with
    | some i => if s.touch s.objs.length i then .ok s else .dangling
    | none => .error

/-- A program; an exception is caught and the program goes on. Not in the code: a history of calls
of bindings/python/expose-solver.cpp, expose-problem.cpp, expose-autodiff.cpp. -/
def LtState.run (s : LtState) : List LtStmt → PyOut
  | [] => .ok s
  | st :: l =>
    match s.step st with
    | .ok s => LtState.run s l
    | .error => LtState.run s l
    | .dangling => .dangling

/-- start of the program (not in the code: the memory of a Python program using
bindings/python/expose-solver.cpp and expose-problem.cpp; reference counting of CPython) -/
def LtState.empty : LtState := ⟨[], []⟩

end ProxNLP
