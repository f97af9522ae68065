import Mathlib.Algebra.Field.Defs
import Mathlib.Algebra.Order.Field.Basic

/-!
Model of the manifolds: base class (manifold-base.hpp), vector spaces (vector-space.hpp), Cartesian products
(cartesian-product.hpp, .hxx) and tangent bundles (tangent-bundle.hpp, .hxx).

Vectors of run-time size are lists.  Output arguments (`VectorRef out`, `MatrixRef Jout`) are buffers passed in with their
old contents and returned with the new ones. Matrices are functions of two indices of which only the leading part (as
given by the dimensions) is meaningful.  Input and output buffers are assumed not to overlap.
-/

namespace ProxNLP

/-- How a call can go wrong: an exception, or undefined behaviour (a violated Eigen assertion, an out-of-range
access). The assertions of Eigen met by manifold-base.hpp, cartesian-product.hxx,
tangent-bundle.hxx. -/
inductive Fault where
  | throws | undefined
  deriving DecidableEq, Repr

variable {K : Type} [Field K]

/-- `x.segment(c, n)` for reading; out of range is undefined. cartesian-product.hxx:14-194. -/
def segment (x : List K) (c n : ℕ) : Except Fault (List K) :=
  if c + n ≤ x.length then .ok ((x.drop c).take n) else .error .undefined

/-- Assignment to `out.segment(c, r.size())`. cartesian-product.hxx:14-194. -/
def setSegment (out : List K) (c : ℕ) (r : List K) : Except Fault (List K) :=
  if c + r.length ≤ out.length then .ok (out.take c ++ r ++ out.drop (c + r.length)) else .error .undefined

/-- Eigen vector sum, sizes must agree. vector-space.hpp, manifold-base.hxx `interpolate`,
tangent-bundle.hxx:29-39. -/
def vAdd (x y : List K) : List K := List.zipWith (· + ·) x y
/-- Eigen vector difference, sizes must agree. vector-space.hpp, manifold-base.hxx `interpolate`,
tangent-bundle.hxx:29-39. -/
def vSub (x y : List K) : List K := List.zipWith (· - ·) x y
/-- Eigen `u * x`. vector-space.hpp, manifold-base.hxx `interpolate`, tangent-bundle.hxx:29-39. -/
def vScale (u : K) (x : List K) : List K := x.map (u * ·)

/-- A square block `J.block(c, c, n, n)` as an output argument: contents seen by the callee.
cartesian-product.hxx:151, 194, tangent-bundle.hxx:42-90. -/
def subBlock (J : ℕ → ℕ → K) (c : ℕ) : ℕ → ℕ → K := fun i j => J (c + i) (c + j)

/-- the matrix after the callee has written `B` into `J.block(c, c, n, n)`
(cartesian-product.hxx:151, 194, tangent-bundle.hxx:42-90) -/
def setBlock (J : ℕ → ℕ → K) (c n : ℕ) (B : ℕ → ℕ → K) : ℕ → ℕ → K :=
  fun i j => if c ≤ i ∧ i < c + n ∧ c ≤ j ∧ j < c + n then B (i - c) (j - c) else J i j

/-- `J.middleRows(c, n)` (all columns) as an output argument (cartesian-product.hxx:172) -/
def subRows (J : ℕ → ℕ → K) (c : ℕ) : ℕ → ℕ → K := fun i j => J (c + i) j

/-- the matrix after the callee has written `B` into `J.middleRows(c, n)`
(cartesian-product.hxx:172) -/
def setRows (J : ℕ → ℕ → K) (c n : ℕ) (B : ℕ → ℕ → K) : ℕ → ℕ → K :=
  fun i j => if c ≤ i ∧ i < c + n then B (i - c) j else J i j

/-- A manifold object: the virtual functions of `ManifoldAbstractTpl` (manifold-base.hpp:20-127). -/
structure Manifold (K : Type) where
  nx : ℕ
  ndx : ℕ
  neutral : Except Fault (List K)
  isNormalized : List K → Except Fault Bool
  integrate : List K → List K → List K → Except Fault (List K)
  difference : List K → List K → List K → Except Fault (List K)
  Jintegrate : List K → List K → (ℕ → ℕ → K) → ℤ → Except Fault (ℕ → ℕ → K)
  Jdifference : List K → List K → (ℕ → ℕ → K) → ℤ → Except Fault (ℕ → ℕ → K)
  transport : List K → List K → (ℕ → ℕ → K) → ℤ → Except Fault (ℕ → ℕ → K)
  interpolate : List K → List K → K → List K → Except Fault (List K)

/-- A freshly allocated vector (`VectorXs out(n)`): its contents are indeterminate in the code;
zero here. cartesian-product.hxx:8-95, manifold-base.hpp:60-110. -/
def freshVec (n : ℕ) : List K := List.replicate n 0

/-- The default `interpolate_impl` (manifold-base.hpp:121-126): `integrate(x0, u * difference(x0, x1), out)`. -/
def defaultInterpolate (ndx : ℕ) (integrate difference : List K → List K → List K → Except Fault (List K))
    (x0 x1 : List K) (u : K) (out : List K) : Except Fault (List K) := do
  let d ← difference x0 x1 (freshVec ndx)
  integrate x0 (vScale u d) out

/-- identity matrix (vector-space.hpp `setIdentity`, tangent-bundle.hxx:42-90) -/
def idMat : ℕ → ℕ → K := fun i j => if i = j then 1 else 0

/-- `VectorSpaceTpl` (vector-space.hpp:13-76) with the defaults of `neutral` and `isNormalized`
(manifold-base.hpp:29, 34). -/
def vectorSpace (n : ℕ) : Manifold K where
  nx := n
  ndx := n
  neutral := .ok (List.replicate n 0)
  isNormalized _ := .ok true
  integrate x v out :=
    if x.length = v.length ∧ out.length = x.length then .ok (vAdd x v) else .error .undefined
  difference x0 x1 out :=
    if x0.length = x1.length ∧ out.length = x0.length then .ok (vSub x1 x0) else .error .undefined
  Jintegrate _ _ _ _ := .ok idMat
  Jdifference _ _ _ arg :=
    if arg = 0 then .ok (fun i j => -idMat i j) else if arg = 1 then .ok idMat else .error .throws
  transport _ _ J _ := .ok J
  interpolate x0 x1 u out :=
    if x0.length = x1.length ∧ out.length = x0.length then .ok (vAdd (vScale u x1) (vScale (1 - u) x0))
    else .error .undefined

/-! ### Cartesian products -/

/-- `CartesianProductTpl::nx()` (cartesian-product.hpp:61-67). -/
def prodNx (Ms : List (Manifold K)) : ℕ := Ms.foldl (fun r M => r + M.nx) 0
/-- `CartesianProductTpl::ndx()` (cartesian-product.hpp:69-75). -/
def prodNdx (Ms : List (Manifold K)) : ℕ := Ms.foldl (fun r M => r + M.ndx) 0

/-- The loop of `neutral()` (cartesian-product.hxx:8-18). -/
def prodNeutralLoop : List (Manifold K) → ℕ → List K → Except Fault (List K)
  | [], _, out => .ok out
  | M :: Ms, c, out => do
    let e ← M.neutral
    if e.length ≠ M.nx then .error .undefined
    else do
      let out ← setSegment out c e
      prodNeutralLoop Ms (c + M.nx) out

/-- The loops of `split_impl` / `split_vector_impl` (cartesian-product.hxx:46-53, 61-68), given the block sizes. -/
def splitLoop : List ℕ → List K → ℕ → Except Fault (List (List K))
  | [], _, _ => .ok []
  | n :: ns, x, c => do
    let s ← segment x c n
    let rest ← splitLoop ns x (c + n)
    pure (s :: rest)

/-- `split(x)` (cartesian-product.hxx:42-54): the size check throws. -/
def prodSplit (Ms : List (Manifold K)) (x : List K) : Except Fault (List (List K)) :=
  if x.length ≠ prodNx Ms then .error .throws else splitLoop (Ms.map (·.nx)) x 0

/-- `split_vector(v)` (cartesian-product.hxx:56-69). -/
def prodSplitVector (Ms : List (Manifold K)) (v : List K) : Except Fault (List (List K)) :=
  if v.length ≠ prodNdx Ms then .error .throws else splitLoop (Ms.map (·.ndx)) v 0

/-- The loops of `merge` / `merge_vector` (cartesian-product.hxx:76-80, 89-93): `xs[i]` beyond the end and a block of the
wrong size are undefined. -/
def mergeLoop : List ℕ → List (List K) → ℕ → List K → Except Fault (List K)
  | [], _, _, out => .ok out
  | n :: ns, xs, c, out =>
    match xs with
    | [] => .error .undefined
    | x :: xs =>
      if x.length ≠ n then .error .undefined
      else do
        let out ← setSegment out c x
        mergeLoop ns xs (c + n) out

/-- `merge(xs)` (cartesian-product.hxx:71-82). -/
def prodMerge (Ms : List (Manifold K)) (xs : List (List K)) : Except Fault (List K) :=
  mergeLoop (Ms.map (·.nx)) xs 0 (freshVec (prodNx Ms))

/-- `merge_vector(vs)` (cartesian-product.hxx:84-95). -/
def prodMergeVector (Ms : List (Manifold K)) (vs : List (List K)) : Except Fault (List K) :=
  mergeLoop (Ms.map (·.ndx)) vs 0 (freshVec (prodNdx Ms))

/-- The loop of `isNormalized` (cartesian-product.hxx:33-39): `res |= ...` starting from `true`. -/
def prodNormLoop : List (Manifold K) → List (List K) → Bool → Except Fault Bool
  | [], _, res => .ok res
  | M :: Ms, xs, res =>
    match xs with
    | [] => .error .undefined
    | x :: xs => do
      let b ← M.isNormalized x
      prodNormLoop Ms xs (res || b)

/-- The loop of `integrate_impl` (cartesian-product.hxx:101-114). -/
def prodIntegrateLoop : List (Manifold K) → List K → List K → ℕ → ℕ → List K → Except Fault (List K)
  | [], _, _, _, _, out => .ok out
  | M :: Ms, x, v, cq, cv, out => do
    let sx ← segment x cq M.nx
    let sv ← segment v cv M.ndx
    let sout ← segment out cq M.nx
    let r ← M.integrate sx sv sout
    let out ← setSegment out cq r
    prodIntegrateLoop Ms x v (cq + M.nx) (cv + M.ndx) out

/-- The loop of `difference_impl` (cartesian-product.hxx:121-134). -/
def prodDifferenceLoop : List (Manifold K) → List K → List K → ℕ → ℕ → List K → Except Fault (List K)
  | [], _, _, _, _, out => .ok out
  | M :: Ms, x0, x1, cq, cv, out => do
    let s0 ← segment x0 cq M.nx
    let s1 ← segment x1 cq M.nx
    let sout ← segment out cv M.ndx
    let r ← M.difference s0 s1 sout
    let out ← setSegment out cv r
    prodDifferenceLoop Ms x0 x1 (cq + M.nx) (cv + M.ndx) out

/-- The loop of `Jintegrate_impl` (cartesian-product.hxx:144-157). -/
def prodJintegrateLoop (arg : ℤ) : List (Manifold K) → List K → List K → ℕ → ℕ → (ℕ → ℕ → K) → Except Fault (ℕ → ℕ → K)
  | [], _, _, _, _, J => .ok J
  | M :: Ms, x, v, cq, cv, J => do
    let sx ← segment x cq M.nx
    let sv ← segment v cv M.ndx
    let B ← M.Jintegrate sx sv (subBlock J cv) arg
    prodJintegrateLoop arg Ms x v (cq + M.nx) (cv + M.ndx) (setBlock J cv M.ndx B)

/-- The loop of `Jdifference_impl` (cartesian-product.hxx:186-198). -/
def prodJdifferenceLoop (arg : ℤ) : List (Manifold K) → List K → List K → ℕ → ℕ → (ℕ → ℕ → K) → Except Fault (ℕ → ℕ → K)
  | [], _, _, _, _, J => .ok J
  | M :: Ms, x0, x1, cq, cv, J => do
    let s0 ← segment x0 cq M.nx
    let s1 ← segment x1 cq M.nx
    let B ← M.Jdifference s0 s1 (subBlock J cv) arg
    prodJdifferenceLoop arg Ms x0 x1 (cq + M.nx) (cv + M.ndx) (setBlock J cv M.ndx B)

/-- The loop of `JintegrateTransport` (cartesian-product.hxx:165-176). -/
def prodTransportLoop (arg : ℤ) : List (Manifold K) → List K → List K → ℕ → ℕ → (ℕ → ℕ → K) → Except Fault (ℕ → ℕ → K)
  | [], _, _, _, _, J => .ok J
  | M :: Ms, x, v, cq, cv, J => do
    let sx ← segment x cq M.nx
    let sv ← segment v cv M.ndx
    let B ← M.transport sx sv (subRows J cv) arg
    prodTransportLoop arg Ms x v (cq + M.nx) (cv + M.ndx) (setRows J cv M.ndx B)

/-- `integrate_impl` of a product (cartesian-product.hxx:97-115), with its assertion on the output size. -/
def prodIntegrate (Ms : List (Manifold K)) (x v out : List K) : Except Fault (List K) :=
  if out.length ≠ prodNx Ms then .error .undefined else prodIntegrateLoop Ms x v 0 0 out

/-- `difference_impl` of a product (cartesian-product.hxx:117-135). -/
def prodDifference (Ms : List (Manifold K)) (x0 x1 out : List K) : Except Fault (List K) :=
  if out.length ≠ prodNdx Ms then .error .undefined else prodDifferenceLoop Ms x0 x1 0 0 out

/-- `CartesianProductTpl` as a manifold; the Jacobians start with `Jout.setZero()`
(cartesian-product.hxx:143, 185); `interpolate_impl` is not overridden. -/
def cartesianProduct (Ms : List (Manifold K)) : Manifold K where
  nx := prodNx Ms
  ndx := prodNdx Ms
  neutral := prodNeutralLoop Ms 0 (freshVec (prodNx Ms))
  isNormalized x := do
    let xs ← prodSplit Ms x
    prodNormLoop Ms xs true
  integrate := prodIntegrate Ms
  difference := prodDifference Ms
  Jintegrate x v _ arg := prodJintegrateLoop arg Ms x v 0 0 fun _ _ => 0
  Jdifference x0 x1 _ arg := prodJdifferenceLoop arg Ms x0 x1 0 0 fun _ _ => 0
  transport x v J arg := prodTransportLoop arg Ms x v 0 0 J
  interpolate := defaultInterpolate (prodNdx Ms) (prodIntegrate Ms) (prodDifference Ms)

/-- Operand of `*`: a manifold held by a `polymorphic`, or a Cartesian product object.
cartesian-product.hpp:125-152. -/
inductive ProdOperand (K : Type) where
  | plain (M : Manifold K)
  | prod (Ms : List (Manifold K))

/-- the components an operand stands for (cartesian-product.hpp:125-152) -/
def ProdOperand.comps : ProdOperand K → List (Manifold K)
  | .plain M => [M]
  | .prod Ms => Ms

/-- `operator*` (cartesian-product.hpp:125-151); returns the component list of the resulting product.
`CartesianProductTpl<T> out{left}` (149) is a list-initialisation: `nests = true` is the reading in which the
`std::initializer_list<polymorphic<Base>>` constructor is chosen (a product converts implicitly to `polymorphic<Base>`), so
that `left` becomes one single component; `nests = false` the reading in which it is a copy. -/
def prodMul (nests : Bool) : ProdOperand K → ProdOperand K → List (Manifold K)
  | .plain a, .plain b => [a, b]
  | .prod as, .plain b => as ++ [b]
  | .plain a, .prod bs => bs ++ [a]
  | .prod as, .prod bs => (if nests then [cartesianProduct as] else as) ++ bs

/-- `addComponent(c)` (cartesian-product.hpp:28-35) and `addComponent(other)` for a product
(cartesian-product.hpp:37-41). -/
def prodAddComponent (Ms : List (Manifold K)) : ProdOperand K → List (Manifold K)
  | .plain M => Ms ++ [M]
  | .prod other => other.foldl (fun acc c => acc ++ [c]) Ms

/-! ### Tangent bundles -/

/-- `x.head(n)` (tangent-bundle.hpp:63-85, tangent-bundle.hxx:11-38) -/
def headSeg (x : List K) (n : ℕ) : Except Fault (List K) := segment x 0 n
/-- `x.tail(n)` (tangent-bundle.hxx:18-39, 87) -/
def tailSeg (x : List K) (n : ℕ) : Except Fault (List K) :=
  if n ≤ x.length then .ok (x.drop (x.length - n)) else .error .undefined
/-- assignment to `out.tail(n)` (tangent-bundle.hxx:18-39, 87) -/
def setTail (out : List K) (n : ℕ) (r : List K) : Except Fault (List K) :=
  if n ≤ out.length ∧ r.length = n then .ok (out.take (out.length - n) ++ r) else .error .undefined

/-- `TangentBundleTpl<Base>` (tangent-bundle.hpp:11-94, tangent-bundle.hxx:8-92). -/
def tangentBundle (B : Manifold K) : Manifold K where
  nx := B.nx + B.ndx
  ndx := 2 * B.ndx
  neutral := do
    let e ← B.neutral
    if e.length ≠ B.nx then .error .undefined else setSegment (List.replicate (B.nx + B.ndx) 0) 0 e
  isNormalized x := do
    let p ← headSeg x B.nx
    B.isNormalized p
  integrate x dx out := do
    let p ← headSeg x B.nx
    let dp ← headSeg dx B.ndx
    let o ← headSeg out B.nx
    let r ← B.integrate p dp o
    let out ← setSegment out 0 r
    let xt ← tailSeg x B.ndx
    let dxt ← tailSeg dx B.ndx
    setTail out B.ndx (vAdd xt dxt)
  difference x0 x1 out := do
    if out.length ≠ 2 * B.ndx then .error .undefined   -- `out.resize(ndx())` on a `Ref` asserts the size
    let p0 ← headSeg x0 B.nx
    let p1 ← headSeg x1 B.nx
    let o ← headSeg out B.ndx
    let r ← B.difference p0 p1 o
    let out ← setSegment out 0 r
    let t1 ← tailSeg x1 B.ndx
    let t0 ← tailSeg x0 B.ndx
    setTail out B.ndx (vSub t1 t0)
  Jintegrate x dx _ arg := do
    let p ← headSeg x B.nx
    let dp ← headSeg dx B.ndx
    let Jb ← B.Jintegrate p dp (fun _ _ => 0) arg
    pure (setBlock (setBlock (fun _ _ => 0) 0 B.ndx Jb) B.ndx B.ndx idMat)
  Jdifference x0 x1 _ arg := do
    let p0 ← headSeg x0 B.nx
    let p1 ← headSeg x1 B.nx
    let Jb ← B.Jdifference p0 p1 (fun _ _ => 0) arg
    let J := setBlock (fun _ _ => 0) 0 B.ndx Jb
    pure (if arg = 0 then setBlock J B.ndx B.ndx (fun i j => -idMat i j)
      else if arg = 1 then setBlock J B.ndx B.ndx idMat else J)
  transport x v J arg := do
    let p ← headSeg x B.nx
    let dp ← headSeg v B.ndx
    let R ← B.transport p dp J arg
    pure (setRows J 0 B.ndx R)
  interpolate x0 x1 u out := do
    let p0 ← headSeg x0 B.nx
    let p1 ← headSeg x1 B.nx
    let o ← headSeg out B.nx
    let r ← B.interpolate p0 p1 u o
    let out ← setSegment out 0 r
    -- `getBaseTangent(x)` is `x.head(base.ndx())`
    let t0 ← headSeg x0 B.ndx
    let t1 ← headSeg x1 B.ndx
    setTail out B.ndx (vAdd (vScale (1 - u) t0) (vScale u t1))

end ProxNLP
