import Mathlib.Analysis.SpecialFunctions.Trigonometric.Basic
import Mathlib.Analysis.SpecialFunctions.Log.Basic
import Mathlib.Analysis.Real.Sqrt
import Mathlib.Data.Matrix.Basic

/-!
Model of `CasadiFunction` (bindings/python/proxsuite_nlp/casadi_utils.py), the class by which a user turns a CasADi expression into a
function of the library, and of the dispatch from C++ to methods written in Python
(bindings/python/include/proxsuite-nlp/python/function.hpp, bindings/python/expose-function.cpp).

CasADi itself is an external library: expressions, `substitute`, `jacobian`, broadcasting of `+` and `@` and evaluation are modelled
from its documentation, over the real numbers, without its algebraic simplifications. Operations on expressions other than those of
`Sx` (powers, inverse trigonometric functions, minima, conditionals) are left out.
-/

namespace ProxNLP

/-- A scalar CasADi expression (`casadi.SX`, casadi_utils.py:15) over symbols `S`. -/
inductive Sx (S : Type) where
  | const (a : ℝ)
  | sym (s : S)
  | add (a b : Sx S)
  | sub (a b : Sx S)
  | mul (a b : Sx S)
  | div (a b : Sx S)
  | neg (a : Sx S)
  | sq (a : Sx S)
  | sqrt (a : Sx S)
  | exp (a : Sx S)
  | log (a : Sx S)
  | sin (a : Sx S)
  | cos (a : Sx S)

namespace Sx

variable {S T : Type}

/-- Value of an expression: what a `casadi.Function` returns (casadi_utils.py:34-36). -/
noncomputable def eval (env : S → ℝ) : Sx S → ℝ
  | const a => a
  | sym s => env s
  | add a b => a.eval env + b.eval env
  | sub a b => a.eval env - b.eval env
  | mul a b => a.eval env * b.eval env
  | div a b => a.eval env / b.eval env
  | neg a => -a.eval env
  | sq a => a.eval env * a.eval env
  | sqrt a => Real.sqrt (a.eval env)
  | exp a => Real.exp (a.eval env)
  | log a => Real.log (a.eval env)
  | sin a => Real.sin (a.eval env)
  | cos a => Real.cos (a.eval env)

/-- `casadi.substitute` (casadi_utils.py:26). -/
def subst (f : S → Sx T) : Sx S → Sx T
  | const a => const a
  | sym s => f s
  | add a b => add (a.subst f) (b.subst f)
  | sub a b => sub (a.subst f) (b.subst f)
  | mul a b => mul (a.subst f) (b.subst f)
  | div a b => div (a.subst f) (b.subst f)
  | neg a => neg (a.subst f)
  | sq a => sq (a.subst f)
  | sqrt a => sqrt (a.subst f)
  | exp a => exp (a.subst f)
  | log a => log (a.subst f)
  | sin a => sin (a.subst f)
  | cos a => cos (a.subst f)

/-- One entry of `casadi.jacobian` (casadi_utils.py:27, 30): differentiation rules of CasADi's operations and the chain rule. -/
def diff [DecidableEq S] (x : S) : Sx S → Sx S
  | const _ => const 0
  | sym s => const (if s = x then 1 else 0)
  | add a b => add (a.diff x) (b.diff x)
  | sub a b => sub (a.diff x) (b.diff x)
  | mul a b => add (mul (a.diff x) b) (mul a (b.diff x))
  | div a b => sub (div (a.diff x) b) (mul (div (div a b) b) (b.diff x))
  | neg a => neg (a.diff x)
  | sq a => mul (add a a) (a.diff x)
  | sqrt a => div (a.diff x) (add (sqrt a) (sqrt a))
  | exp a => mul (exp a) (a.diff x)
  | log a => div (a.diff x) a
  | sin a => mul (cos a) (a.diff x)
  | cos a => neg (mul (sin a) (a.diff x))

/-- Symbols of an expression; `casadi.Function` refuses expressions with symbols that are not inputs (casadi_utils.py:34-36). -/
def symbols : Sx S → List S
  | const _ => []
  | sym s => [s]
  | add a b | sub a b | mul a b | div a b => a.symbols ++ b.symbols
  | neg a | sq a | sqrt a | exp a | log a | sin a | cos a => a.symbols

end Sx

/-- Symbols in the expression of the user (casadi_utils.py:15-16): the entries of `cx`, and any others. Simplification: `cx` is a
column of distinct symbols. -/
inductive UserSym (n : ℕ) where
  | input (i : Fin n)
  | other (k : ℕ)
  deriving DecidableEq

/-- The symbol is an entry of `cx`. casadi_utils.py:34: `cx` and `dx` are the only inputs of the function. -/
def UserSym.isInput {n : ℕ} : UserSym n → Bool
  | .input _ => true
  | .other _ => false

/-- Symbols inside the wrapper (casadi_utils.py:22-25): those of the user, and the new ones `dx` and `lam`. -/
inductive WrapSym (n ndx nres : ℕ) where
  | cx (i : Fin n)
  | dx (j : Fin ndx)
  | lam (k : Fin nres)
  | other (k : ℕ)
  deriving DecidableEq

/-- The argument `expression`, a `rows x cols` matrix of expressions (casadi_utils.py:15). -/
structure CasExpr (n : ℕ) where
  rows : ℕ
  cols : ℕ
  entry : Fin rows → Fin cols → Sx (UserSym n)

/-- Exceptions a Python caller can see: a failed `assert` (casadi_utils.py:21), an error of CasADi (24-36), a NumPy shape error
(43, 46) and a call of a method that the Python class does not define (python/function.hpp:42-50). -/
inductive PyErr where
  | assertion
  | casadi
  | shape
  | noMethod
  deriving DecidableEq

/-- `xplus = cx + dx` and the size check of `substitute` (casadi_utils.py:24, 26): equal sizes are added entry by entry, a single
entry `dx` is added to every entry of `cx`; in the remaining cases CasADi throws, in `+` or (single entry `cx`) in `substitute`. -/
def casXplus (n ndx nres : ℕ) : Except PyErr (Fin n → Sx (WrapSym n ndx nres)) :=
  if h : ndx = n then .ok fun i => .add (.sym (.cx i)) (.sym (.dx (Fin.cast h.symm i)))
  else if h : ndx = 1 then .ok fun i => .add (.sym (.cx i)) (.sym (.dx (Fin.cast h.symm 0)))
  else .error .casadi

/-- What is put in place of each symbol by `substitute(expression, cx, xplus)` (casadi_utils.py:26). -/
def casReplace {n ndx nres : ℕ} (xplus : Fin n → Sx (WrapSym n ndx nres)) : UserSym n → Sx (WrapSym n ndx nres)
  | .input i => xplus i
  | .other k => .sym (.other k)

/-- The entries of a matrix expression column after column, which number the rows of `casadi.jacobian` (casadi_utils.py:27). -/
def casColumns {α : Type} {r c : ℕ} (f : Fin r → Fin c → α) : List α :=
  (List.finRange c).flatMap fun j => (List.finRange r).map fun i => f i j

/-- The entries row after row: `np.asarray(...).flatten()` (casadi_utils.py:40). -/
def casRows {α : Type} {r c : ℕ} (f : Fin r → Fin c → α) : List α :=
  (List.finRange r).flatMap fun i => (List.finRange c).map fun j => f i j

/-- Sum of expressions. External: the additions made by the matrix product of CasADi (casadi_utils.py:30). -/
def casSum {S : Type} : List (Sx S) → Sx S
  | [] => .const 0
  | e :: l => .add e (casSum l)

/-- A constructed `CasadiFunction` (casadi_utils.py:34-37): the three CasADi functions by their expressions. `jac` has a row per entry
of the expression, `hess` is the list of expressions differentiated once more, `none` for `SX.zeros` (line 32). -/
structure CasFun (n ndx : ℕ) where
  rows : ℕ
  cols : ℕ
  expr : Fin rows → Fin cols → Sx (WrapSym n ndx rows)
  hess : Option (List (Sx (WrapSym n ndx rows)))

/-- The rows of `Jexpr` (casadi_utils.py:27). -/
def casJacRow {n ndx nres : ℕ} (e : Sx (WrapSym n ndx nres)) (j : Fin ndx) : Sx (WrapSym n ndx nres) := e.diff (.dx j)

/-- `clam.T @ Jexpr` (casadi_utils.py:30), column after column: a product by a number if `clam` has one entry, otherwise a matrix
product, which CasADi refuses when the sizes differ. -/
def casLamJac {n ndx nres : ℕ} (es : List (Sx (WrapSym n ndx nres))) : Except PyErr (List (Sx (WrapSym n ndx nres))) :=
  if h : nres = 1 then
    .ok ((List.finRange ndx).flatMap fun j => es.map fun e => .mul (.sym (.lam (Fin.cast h.symm 0))) (casJacRow e j))
  else if h : es.length = nres then
    .ok ((List.finRange ndx).map fun j => casSum ((List.finRange nres).map fun k =>
      .mul (.sym (.lam k)) (casJacRow (es.get (Fin.cast h.symm k)) j)))
  else .error .casadi

/-- `CasadiFunction.__init__` (casadi_utils.py:11-37) with arguments `nx`, `ndx`, an expression in `n` symbols `cx`, `use_hessian`. -/
def casInit {n : ℕ} (nx ndx : ℕ) (e : CasExpr n) (useHessian : Bool) : Except PyErr (CasFun n ndx) :=
  if nx = n then
    match casXplus n ndx e.rows with
    | .error err => .error err
    | .ok xplus =>
      let expr := fun i j => (e.entry i j).subst (casReplace xplus)
      match (if useHessian then (casLamJac (casColumns expr)).map some else .ok none) with
      | .error err => .error err
      | .ok hess =>
        if (casRows e.entry).all (fun a => a.symbols.all UserSym.isInput) then .ok ⟨e.rows, e.cols, expr, hess⟩
        else .error .casadi
  else .error .assertion

/-- Inputs of the three CasADi functions (casadi_utils.py:34-36). -/
def casEnv {n ndx nres : ℕ} (x : Fin n → ℝ) (dx : Fin ndx → ℝ) (lam : Fin nres → ℝ) : WrapSym n ndx nres → ℝ
  | .cx i => x i
  | .dx j => dx j
  | .lam k => lam k
  | .other _ => 0

namespace CasFun

variable {n ndx : ℕ}

/-- `nr`, set by `super().__init__(nx, ndx, nres)` (casadi_utils.py:19-20). -/
def nr (f : CasFun n ndx) : ℕ := f.rows

/-- `__call__` (casadi_utils.py:39-40), evaluated at the increment `_zero`. -/
noncomputable def call (f : CasFun n ndx) (x : Fin n → ℝ) : List ℝ :=
  (casRows f.expr).map fun e => e.eval (casEnv x (fun _ => 0) fun _ => 0)

/-- `computeJacobian` (casadi_utils.py:42-43): every entry of `J` is assigned; NumPy raises an exception when the sizes differ. (No size
1 is stretched here: if the Jacobian has one row, so has the expression.) -/
noncomputable def computeJacobian (f : CasFun n ndx) (x : Fin n → ℝ) (_J : Matrix (Fin f.rows) (Fin ndx) ℝ) :
    Except PyErr (Matrix (Fin f.rows) (Fin ndx) ℝ) :=
  let es := casColumns f.expr
  if h : es.length = f.rows then
    .ok fun i j => (casJacRow (es.get (Fin.cast h.symm i)) j).eval (casEnv x (fun _ => 0) fun _ => 0)
  else .error .shape

/-- `vectorHessianProduct` (casadi_utils.py:45-46): every entry of `H` is assigned. -/
noncomputable def vectorHessianProduct (f : CasFun n ndx) (x : Fin n → ℝ) (v : Fin f.rows → ℝ) (_H : Matrix (Fin ndx) (Fin ndx) ℝ) :
    Except PyErr (Matrix (Fin ndx) (Fin ndx) ℝ) :=
  match f.hess with
  | none => .ok fun _ _ => 0
  | some es =>
    if h : es.length = ndx then .ok fun i j => ((es.get (Fin.cast h.symm i)).diff (.dx j)).eval (casEnv x (fun _ => 0) v)
    else .error .shape

end CasFun

/-! ### Methods written in Python, called from C++ -/

/-- An object of a Python class derived from `C2Function` (expose-function.cpp:44-53): the methods that the class defines. A method that
fills a matrix receives its old content. -/
structure PyC2 (K : Type) (nx ndx nr : ℕ) where
  call : Option ((Fin nx → K) → Except PyErr (List K))
  jac : Option ((Fin nx → K) → Matrix (Fin nr) (Fin ndx) K → Except PyErr (Matrix (Fin nr) (Fin ndx) K))
  vhp : Option ((Fin nx → K) → (Fin nr → K) → Matrix (Fin ndx) (Fin ndx) K → Except PyErr (Matrix (Fin ndx) (Fin ndx) K))

namespace PyC2

variable {K : Type} [Zero K] {nx ndx nr : ℕ}

/-- `C2FunctionWrap::operator()` (python/function.hpp:42-45): without a method in Python, calling the empty override raises. -/
def eval (f : PyC2 K nx ndx nr) (x : Fin nx → K) : Except PyErr (List K) :=
  match f.call with
  | some m => m x
  | none => .error .noMethod

/-- `C2FunctionWrap::computeJacobian` (python/function.hpp:47-50); `resize` keeps a matrix that has its size already. -/
def computeJacobian (f : PyC2 K nx ndx nr) (x : Fin nx → K) (J : Matrix (Fin nr) (Fin ndx) K) : Except PyErr (Matrix (Fin nr) (Fin ndx) K) :=
  match f.jac with
  | some m => m x J
  | none => .error .noMethod

/-- `C2FunctionWrap::vectorHessianProduct` (python/function.hpp:52-60): without a method in Python, the one of the base class
(function-base.hpp:91-95), which sets the matrix to zero. -/
def vectorHessianProduct (f : PyC2 K nx ndx nr) (x : Fin nx → K) (v : Fin nr → K) (H : Matrix (Fin ndx) (Fin ndx) K) :
    Except PyErr (Matrix (Fin ndx) (Fin ndx) K) :=
  match f.vhp with
  | some m => m x v H
  | none => .ok fun _ _ => 0

/-- `getJacobian` (function-base.hpp:66-70, expose-function.cpp:40-41): a new matrix, whose first content `mem` is arbitrary. -/
def getJacobian (f : PyC2 K nx ndx nr) (mem : Matrix (Fin nr) (Fin ndx) K) (x : Fin nx → K) : Except PyErr (Matrix (Fin nr) (Fin ndx) K) :=
  f.computeJacobian x mem

/-- `getVHP` (python/function.hpp:62-67): a new matrix, whose first content `mem` is arbitrary. -/
def getVHP (f : PyC2 K nx ndx nr) (mem : Matrix (Fin ndx) (Fin ndx) K) (x : Fin nx → K) (v : Fin nr → K) :
    Except PyErr (Matrix (Fin ndx) (Fin ndx) K) :=
  f.vectorHessianProduct x v mem

end PyC2

/-- A `CasadiFunction` as an object of a Python class (casadi_utils.py:10, 39-46). -/
noncomputable def CasFun.toPy {n ndx : ℕ} (f : CasFun n ndx) : PyC2 ℝ n ndx f.nr where
  call := some fun x => .ok (f.call x)
  jac := some f.computeJacobian
  vhp := some f.vectorHessianProduct

/-- The object returned by `CasadiFunction(nx, ndx, expression, cx, use_hessian)` (casadi_utils.py:11-37), with its `nr`. -/
noncomputable def casObject {n : ℕ} (nx ndx : ℕ) (e : CasExpr n) (useHessian : Bool) : Except PyErr (Σ nr, PyC2 ℝ n ndx nr) :=
  (casInit nx ndx e useHessian).map fun f => ⟨f.nr, f.toPy⟩

end ProxNLP
