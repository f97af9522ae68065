import Verif.Model.Manifold

/-!
The mutable pieces of a product point: `split(VectorRef)` and `split_vector(VectorRef)` of `CartesianProductTpl`
(cartesian-product.hpp:89-91, 97-99; cartesian-product.hxx:42-69) return references into the caller's vector.
-/

namespace ProxNLP

variable {K : Type} [Field K]

/-- A `VectorRef`: a run of consecutive entries of the memory. Simplified: inner stride 1, as the type requires. cartesian-product.hpp:89-99. -/
structure View where
  off : ℕ
  len : ℕ
  deriving DecidableEq, Repr

/-- The loops of `split_impl` and `split_vector_impl` on a reference (cartesian-product.hxx:46-53, 61-68): `x.segment(c, n)` of a view that
starts at `w.off`; a segment beyond the end of the view is undefined. -/
def splitViewsLoop (w : View) : List ℕ → ℕ → Except Fault (List View)
  | [], _ => .ok []
  | n :: ns, c =>
    if c + n ≤ w.len then do
      let rest ← splitViewsLoop w ns (c + n)
      pure (⟨w.off + c, n⟩ :: rest)
    else .error .undefined

/-- `split(VectorRef x)` (cartesian-product.hpp:89-91, cartesian-product.hxx:42-54). -/
def prodSplitViews (Ms : List (Manifold K)) (w : View) : Except Fault (List View) :=
  if w.len ≠ prodNx Ms then .error .throws else splitViewsLoop w (Ms.map (·.nx)) 0

/-- `split_vector(VectorRef v)` (cartesian-product.hpp:97-99, cartesian-product.hxx:56-69). -/
def prodSplitVectorViews (Ms : List (Manifold K)) (w : View) : Except Fault (List View) :=
  if w.len ≠ prodNdx Ms then .error .throws else splitViewsLoop w (Ms.map (·.ndx)) 0

/-- Reading entry `j` through a reference; out of range is undefined. The entries of the `VectorRef`s of cartesian-product.hpp:89-99. -/
def viewGet (mem : List K) (w : View) (j : ℕ) : Except Fault K :=
  if j < w.len then
    match mem[w.off + j]? with
    | some v => .ok v
    | none => .error .undefined
  else .error .undefined

/-- Writing entry `j` through a reference. The entries of the `VectorRef`s of cartesian-product.hpp:89-99. -/
def viewSet (mem : List K) (w : View) (j : ℕ) (v : K) : Except Fault (List K) :=
  if j < w.len then
    if w.off + j < mem.length then .ok (mem.set (w.off + j) v) else .error .undefined
  else .error .undefined

/-- What a program does with the pieces `split` returned and with the vector itself: reads and writes of entries, and `merge` of the
pieces, which are copied into its argument. cartesian-product.hpp:89-107. -/
inductive PieceOp (K : Type) where
  | write (i j : ℕ) (v : K)
  | writeWhole (j : ℕ) (v : K)
  | read (i j : ℕ)
  | readWhole (j : ℕ)
  | merge

/-- The entries a reference shows: the copy made for the `std::vector<VectorXs>` argument of `merge` (cartesian-product.hxx:71-73). -/
def viewsContents (mem : List K) : List View → Except Fault (List (List K))
  | [] => .ok []
  | w :: ws => do
    let b ← segment mem w.off w.len
    let bs ← viewsContents mem ws
    pure (b :: bs)

/-- One statement on the memory: the new memory and what was read. `sizes` are the sizes of the components, `w` is the vector and `ws` the
pieces. cartesian-product.hpp:89-107, cartesian-product.hxx:71-95. -/
def pieceStep (sizes : List ℕ) (w : View) (ws : List View) (mem : List K) : PieceOp K → Except Fault (List K × List K)
  | .write i j v =>
    match ws[i]? with
    | some p => do
      let mem' ← viewSet mem p j v
      pure (mem', [])
    | none => .error .undefined
  | .writeWhole j v => do
    let mem' ← viewSet mem w j v
    pure (mem', [])
  | .read i j =>
    match ws[i]? with
    | some p => do
      let a ← viewGet mem p j
      pure (mem, [a])
    | none => .error .undefined
  | .readWhole j => do
    let a ← viewGet mem w j
    pure (mem, [a])
  | .merge => do
    let bs ← viewsContents mem ws
    let out ← mergeLoop sizes bs 0 (freshVec sizes.sum)
    pure (mem, out)

/-- A program on the pieces: the final memory and everything read, in order. cartesian-product.hpp:89-107. -/
def pieceRun (sizes : List ℕ) (w : View) (ws : List View) : List K → List (PieceOp K) → Except Fault (List K × List (List K))
  | mem, [] => .ok (mem, [])
  | mem, op :: ops => do
    let r ← pieceStep sizes w ws mem op
    let q ← pieceRun sizes w ws r.1 ops
    pure (q.1, r.2 :: q.2)

end ProxNLP
