import Verif.Model.CostSum
import Verif.Model.Manifold

/-!
Model of the operators offered to Python on cost functions (bindings/python/expose-cost.cpp) and on manifolds
(bindings/python/expose-manifold.cpp, bindings/python/expose-cartesian-product.cpp), together with the part of the Python
language they rely on: names bound to objects, `x += y` rebinding `x` to what `__iadd__` returns, and the fallback from
`__mul__` to `__rmul__`.
-/

namespace ProxNLP

variable {K : Type} [Field K]

/-- What a Python program sees: the cost objects alive and the names bound to them. Not in the
code: a Python program using the operators of bindings/python/expose-cost.cpp:71-107. -/
structure PyState (K : Type) where
  heap : CostHeap K
  env : ℕ → Option ℕ

/-- Statements over names (natural numbers). `bindLeaf x k`: `x = ` a cost of the user (the k-th). `imul`, `iadd`: `x *= a`,
`x += y`. `mul` is both `a * y` and `y * a` (`__rmul__` and `__mul__`). Not in the code: a Python
program using the operators of bindings/python/expose-cost.cpp:71-107. -/
inductive PyStmt (K : Type) where
  | bindLeaf (x k : ℕ)
  | assign (x y : ℕ)
  | newSum (x : ℕ)
  | add (x y z : ℕ)
  | mul (x : ℕ) (a : K) (y : ℕ)
  | neg (x y : ℕ)
  | iadd (x y : ℕ)
  | imul (x : ℕ) (a : K)
  | addComponent (x y : ℕ) (w : K)

/-- `x = <object id>` (not in the code: a Python program using the operators of
bindings/python/expose-cost.cpp:71-107) -/
def PyState.bind (s : PyState K) (x id : ℕ) : PyState K := { s with env := Function.update s.env x (some id) }

/-- `cost * a`, `a * cost`: on a `CostSum` the operators of that class (expose-cost.cpp:106-107, a clone with scaled weights),
on another cost those of the base class (expose-cost.cpp:71-74, a sum with one component). -/
def pyMul (h : CostHeap K) (id : ℕ) (a : K) : CostHeap K × ℕ := (mulSum h id a).getD (scaleCost h a id)

/-- `__iadd__` (expose-cost.cpp:101-102): of the two overloads the one taking a `CostPtr` was registered last and is tried first, and
accepts every cost. It adds the cost as one component; the lambda returns its result by value, so Python gets (and binds to the
name) a copy of the sum. -/
def pyIaddSum (h : CostHeap K) (id other : ℕ) : Option (CostHeap K × ℕ) :=
  match iaddCost h id other with
  | none => none
  | some h1 => (sumComps h1 id).map fun cs => (h1 ++ [.sum cs], h1.length)

/-- `__imul__` (expose-cost.cpp:103-104), likewise. -/
def pyImulSum (h : CostHeap K) (id : ℕ) (a : K) : Option (CostHeap K × ℕ) :=
  match imulCost h id a with
  | none => none
  | some h1 => (sumComps h1 id).map fun cs => (h1 ++ [.sum cs], h1.length)

/-- One statement. `none`: an exception (unbound name; `-` or `add_component` on a cost that is not a sum). On a cost that is not a
`CostSum`, which has no in-place operators, Python runs `x = x + y` and `x = x * a` instead. Not
in the code: a Python program using the operators of bindings/python/expose-cost.cpp:71-107. -/
def pyExec (s : PyState K) : PyStmt K → Option (PyState K)
  | .bindLeaf x k => some (PyState.bind ⟨s.heap ++ [.leaf k], s.env⟩ x s.heap.length)
  | .assign x y => (s.env y).map fun j => s.bind x j
  | .newSum x => some (PyState.bind ⟨s.heap ++ [.sum []], s.env⟩ x s.heap.length)
  | .add x y z => (s.env y).bind fun i => (s.env z).map fun j =>
      PyState.bind ⟨(plusCost s.heap i j).1, s.env⟩ x (plusCost s.heap i j).2
  | .mul x a y => (s.env y).map fun j => PyState.bind ⟨(pyMul s.heap j a).1, s.env⟩ x (pyMul s.heap j a).2
  | .neg x y => (s.env y).bind fun j => (negSum s.heap j).map fun r => PyState.bind ⟨r.1, s.env⟩ x r.2
  | .iadd x y => (s.env x).bind fun i => (s.env y).map fun j =>
      let r := (pyIaddSum s.heap i j).getD (plusCost s.heap i j)
      PyState.bind ⟨r.1, s.env⟩ x r.2
  | .imul x a => (s.env x).map fun i =>
      let r := (pyImulSum s.heap i a).getD (scaleCost s.heap a i)
      PyState.bind ⟨r.1, s.env⟩ x r.2
  | .addComponent x y w => (s.env x).bind fun i => (s.env y).bind fun j =>
      (addComponent s.heap i j w).map fun h => ⟨h, s.env⟩

/-- A program: its statements in order. Not in the code: a Python program using the operators of
bindings/python/expose-cost.cpp:71-107. -/
def pyRun (s : PyState K) : List (PyStmt K) → Option (PyState K)
  | [] => some s
  | st :: rest => (pyExec s st).bind fun s' => pyRun s' rest

/-- What `m * n` runs in Python. `CartesianProduct` has its own `__mul__`, for two products only
(expose-cartesian-product.cpp:86-88; it hides the one of the base class), every other manifold the `__mul__` of `ManifoldAbstract`
(expose-manifold.cpp:102-107: the overload for a product on the right is tried first). When the `__mul__` of the left operand does not
apply, Python calls `__rmul__` of the right one, which computes `right * left` (expose-manifold.cpp:108-111). -/
def pyProdMul (nests : Bool) : ProdOperand K → ProdOperand K → List (Manifold K)
  | .prod as, .prod bs => prodMul nests (.prod as) (.prod bs)
  | .prod as, .plain b => prodMul nests (.plain b) (.prod as)
  | .plain a, .prod bs => prodMul nests (.plain a) (.prod bs)
  | .plain a, .plain b => prodMul nests (.plain a) (.plain b)

end ProxNLP
