import Mathlib.Algebra.Module.Basic
import Mathlib.Algebra.BigOperators.Group.List.Basic

/-!
Model of `CostSumTpl` (cost-sum.hpp, cost-sum.hxx): cost objects are shared (`shared_ptr`), so they live in a heap
and are named by their position.  The three evaluations (`call`, `computeGradient`, `computeHessian`) are the same loop
over values in a module `V` (`K`, vectors, matrices).
-/

namespace ProxNLP

/-- A cost object: a user cost (`leaf k`, the k-th user function) or a `CostSumTpl` with its components and weights
(`components_`, `weights_`, cost-sum.hpp:19-20; the two vectors always have equal length). -/
inductive CostObj (K : Type) where
  | leaf (k : ℕ)
  | sum (comps : List (ℕ × K))

/-- The objects alive, by identity. The `shared_ptr` members of cost-sum.hpp:19-20. -/
abbrev CostHeap (K : Type) := List (CostObj K)

variable {K V : Type} [Field K] [AddCommGroup V] [Module K V]

/-- `call` / `computeGradient` / `computeHessian` (cost-sum.hpp:35-55): start from zero and add
`weights_[i] * components_[i]->...` in order. `leafVal k` is what the k-th user cost returns at the point in question.
Fuel bounds the depth of nested sums (`none`: fuel exhausted, or a dangling pointer). -/
def costEval (leafVal : ℕ → V) (h : CostHeap K) : ℕ → ℕ → Option V
  | 0, _ => none
  | fuel + 1, id =>
    match h[id]? with
    | none => none
    | some (.leaf k) => some (leafVal k)
    | some (.sum comps) => comps.foldlM (fun acc c => (costEval leafVal h fuel c.1).map fun v => acc + c.2 • v) 0

/-- components of an object that must be a `CostSumTpl` (`components_`, `weights_`,
cost-sum.hpp:19-20) -/
def sumComps (h : CostHeap K) (id : ℕ) : Option (List (ℕ × K)) :=
  match h[id]? with
  | some (.sum comps) => some comps
  | _ => none

/-- `addComponent(comp, w)` (cost-sum.hpp:59-62). -/
def addComponent (h : CostHeap K) (id comp : ℕ) (w : K) : Option (CostHeap K) :=
  (sumComps h id).map fun cs => h.set id (.sum (cs ++ [(comp, w)]))

/-- `operator+=(shared_ptr<Base>)` (cost-sum.hpp:64-67). -/
def iaddCost (h : CostHeap K) (id other : ℕ) : Option (CostHeap K) := addComponent h id other 1

/-- `operator+=(CostSumTpl const&)` (cost-sum.hpp:69-75). `none`: `*this += *this` inserts a vector range into itself,
which `std::vector::insert` does not allow (undefined). -/
def iaddSum (h : CostHeap K) (id other : ℕ) : Option (CostHeap K) :=
  if id = other then none
  else (sumComps h id).bind fun cs => (sumComps h other).map fun os => h.set id (.sum (cs ++ os))

/-- `operator*=(Scalar)` (cost-sum.hpp:77-82). -/
def imulCost (h : CostHeap K) (id : ℕ) (a : K) : Option (CostHeap K) :=
  (sumComps h id).map fun cs => h.set id (.sum (cs.map fun c => (c.1, a * c.2)))

/-- `operator+(shared_ptr left, shared_ptr right)` (cost-sum.hxx:10-19): a new sum. -/
def plusCost (h : CostHeap K) (l r : ℕ) : CostHeap K × ℕ := (h ++ [.sum [(l, 1), (r, 1)]], h.length)

/-- `operator+(shared_ptr<CostSum> &&left, right)` (cost-sum.hxx:23-28): changes the left sum and returns it. -/
def plusMove (h : CostHeap K) (l r : ℕ) : Option (CostHeap K × ℕ) := (iaddCost h l r).map fun h => (h, l)

/-- `operator*(Scalar, shared_ptr<Base>)` (cost-sum.hxx:31-37): a new sum with one component. -/
def scaleCost (h : CostHeap K) (a : K) (r : ℕ) : CostHeap K × ℕ := (h ++ [.sum [(r, a)]], h.length)

/-- `operator*(CostSumTpl const&, Scalar)` (cost-sum.hpp:100-107): a clone (sharing the components) with scaled weights. -/
def mulSum (h : CostHeap K) (id : ℕ) (a : K) : Option (CostHeap K × ℕ) :=
  (sumComps h id).map fun cs => (h ++ [.sum (cs.map fun c => (c.1, a * c.2))], h.length)

/-- Unary minus (cost-sum.hpp:109-111). -/
def negSum (h : CostHeap K) (id : ℕ) : Option (CostHeap K × ℕ) := mulSum h id (-1)

/-- Expressions a user can write over existing cost objects (`var`). `addMove` is `+` with a temporary sum on the
left. The operators cost-sum.hpp:64-111, cost-sum.hxx:10-40. -/
inductive CostExpr (K : Type) where
  | var (id : ℕ)
  | add (l r : CostExpr K)
  | addMove (l r : CostExpr K)
  | smul (a : K) (e : CostExpr K)
  | mulSum (e : CostExpr K) (a : K)
  | neg (e : CostExpr K)

/-- Evaluation of an expression over the `n0` objects that exist beforehand, operands first: the resulting heap and
object. `none`: an unknown variable, or an operation meant for sums applied to something else (does not compile).
`addMove` wants a temporary on its left, i.e. an object made by the expression itself. The
operators cost-sum.hpp:64-111, cost-sum.hxx:10-40. -/
def CostExpr.build (n0 : ℕ) (h : CostHeap K) : CostExpr K → Option (CostHeap K × ℕ)
  | .var id => if id < n0 then some (h, id) else none
  | .add l r =>
    match l.build n0 h with
    | none => none
    | some (h1, i) =>
      match r.build n0 h1 with
      | none => none
      | some (h2, j) => some (plusCost h2 i j)
  | .addMove l r =>
    match l.build n0 h with
    | none => none
    | some (h1, i) =>
      if i < n0 then none
      else
        match r.build n0 h1 with
        | none => none
        | some (h2, j) => plusMove h2 i j
  | .smul a e =>
    match e.build n0 h with
    | none => none
    | some (h1, i) => some (scaleCost h1 a i)
  | .mulSum e a =>
    match e.build n0 h with
    | none => none
    | some (h1, i) => ProxNLP.mulSum h1 i a
  | .neg e =>
    match e.build n0 h with
    | none => none
    | some (h1, i) => negSum h1 i

end ProxNLP
