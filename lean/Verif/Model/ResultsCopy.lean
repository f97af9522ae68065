import Verif.Model.Blocks

/-!
Model of `ResultsTpl` objects as they are copied, moved, assigned and destroyed (results.hpp).  The class declares no
copy or move operations, so the compiler's memberwise ones apply:
* `x_opt`, `data_lams_opt` are Eigen vectors that own a buffer: copying allocates and copies the entries, moving hands
  the buffer over, assigning copies the entries;
* `lams_opt` is a `std::vector` of `Eigen::Ref`, created in the constructor as views of `data_lams_opt`
  (results.hpp:48-53, problem-base.hpp:132-153): copying a `Ref` copies the pointer, assigning to a `Ref` writes the
  entries through the pointer.
The scalar members and `active_set`, `constraint_violations` behave like `x_opt` and are left out.  Buffers are entries
of a heap; `none` in the heap is a freed buffer and `none` as a result is an access to one (undefined behaviour).
-/

namespace ProxNLP

/-- one `Ref`: buffer, first entry, number of entries (results.hpp:32) -/
structure ResView where
  buf : ℕ
  start : ℕ
  len : ℕ
  deriving DecidableEq

/-- a `ResultsTpl` object: buffers of `data_lams_opt` and `x_opt`, and the views `lams_opt` (results.hpp:30-32) -/
structure ResObj where
  data : ℕ
  x : ℕ
  views : List ResView
  deriving DecidableEq

/-- memory: buffers and objects (`none`: freed, destroyed) (results.hpp:26-46) -/
structure ResMem (K : Type) where
  heap : List (Option (List K))
  objs : List (Option ResObj)

/-- What a program does with results objects; objects are numbered in order of creation. Not in
the code: a history of uses of results.hpp:48-59 and of its implicit copy, move and assignment. -/
inductive ResOp (K : Type) where
  /-- `Results(problem)` for constraint dimensions `sizes`, with `x0 = neutral()` -/
  | construct (sizes : List ℕ) (x0 : List K)
  /-- `Results b(a)` -/
  | copy (i : ℕ)
  /-- `Results b(std::move(a))` -/
  | move (i : ℕ)
  /-- `a = b` -/
  | assign (i j : ℕ)
  /-- a solve that ends with these multipliers and this point in `a` -/
  | write (i : ℕ) (lams x : List K)
  /-- end of lifetime of `a` (also `setup()` for the results held by a solver) -/
  | destroy (i : ℕ)

variable {K : Type}

/-- the live object number `i` (the members of results.hpp:30-32 under its implicit copy and
assignment) -/
def ResMem.obj (s : ResMem K) (i : ℕ) : Option ResObj := (s.objs[i]?).join

/-- contents of a live buffer (the members of results.hpp:30-32 under its implicit copy and
assignment) -/
def ResMem.buffer (s : ResMem K) (b : ℕ) : Option (List K) := (s.heap[b]?).join

/-- reading a `Ref` (the members of results.hpp:30-32 under its implicit copy and assignment) -/
def ResMem.readView (s : ResMem K) (v : ResView) : Option (List K) :=
  (s.buffer v.buf).bind fun l => if v.start + v.len ≤ l.length then some ((l.drop v.start).take v.len) else none

/-- writing a `Ref`: sizes must agree (Eigen assertion) (the members of results.hpp:30-32 under
its implicit copy and assignment) -/
def ResMem.writeView (s : ResMem K) (v : ResView) (vals : List K) : Option (ResMem K) :=
  (s.buffer v.buf).bind fun l =>
    if v.start + v.len ≤ l.length ∧ vals.length = v.len then
      some { s with heap := s.heap.set v.buf (some (l.take v.start ++ vals ++ l.drop (v.start + v.len))) }
    else none

/-- views of the segments of buffer `b` (`createConstraintWiseView`, problem-base.hpp:132-142) -/
def segmentViews (b : ℕ) (sizes : List ℕ) : List ResView :=
  (List.range sizes.length).map fun i => ⟨b, startIdx sizes i, sizes.getD i 0⟩

/-- element-wise assignment of two vectors of `Ref` of the same length (the members of
results.hpp:30-32 under its implicit copy and assignment) -/
def assignViews (s : ResMem K) : List ResView → List ResView → Option (ResMem K)
  | d :: ds, r :: rs => do
    let vals ← s.readView r
    let s ← s.writeView d vals
    assignViews s ds rs
  | [], [] => some s
  | _, _ => none

/-- assignment of owning vectors of the same size (the members of results.hpp:30-32 under its
implicit copy and assignment) -/
def assignBuffer (s : ResMem K) (d r : ℕ) : Option (ResMem K) := do
  let old ← s.buffer d
  let new ← s.buffer r
  if old.length = new.length then some { s with heap := s.heap.set d (some new) } else none

/-- One operation.  Memberwise assignment goes in declaration order: `x_opt`, `data_lams_opt`, `lams_opt`
(results.hpp:30-32).  Simplification: assignment between objects of different shapes (different problems) is not
modelled (`none`). -/
def ResMem.step [Zero K] (s : ResMem K) : ResOp K → Option (ResMem K)
  | .construct sizes x0 =>
    let b := s.heap.length
    some { heap := s.heap ++ [some (List.replicate sizes.sum 0), some x0]
           objs := s.objs ++ [some ⟨b, b + 1, segmentViews b sizes⟩] }
  | .copy i => do
    let o ← s.obj i
    let l ← s.buffer o.data
    let x ← s.buffer o.x
    let b := s.heap.length
    some { heap := s.heap ++ [some l, some x], objs := s.objs ++ [some ⟨b, b + 1, o.views⟩] }
  | .move i => do
    let o ← s.obj i
    let b := s.heap.length
    some { heap := s.heap ++ [some [], some []]
           objs := s.objs.set i (some ⟨b, b + 1, []⟩) ++ [some o] }
  | .assign i j => do
    let d ← s.obj i
    let r ← s.obj j
    let s ← assignBuffer s d.x r.x
    let s ← assignBuffer s d.data r.data
    assignViews s d.views r.views
  | .write i lams x => do
    let o ← s.obj i
    let l ← s.buffer o.data
    let x' ← s.buffer o.x
    if l.length = lams.length ∧ x'.length = x.length then
      some { s with heap := (s.heap.set o.data (some lams)).set o.x (some x) }
    else none
  | .destroy i => do
    let o ← s.obj i
    some { heap := (s.heap.set o.data none).set o.x none, objs := s.objs.set i none }

/-- a program (not in the code: a history of uses of results.hpp:48-59 and of its implicit copy,
move and assignment) -/
def ResMem.run [Zero K] (ops : List (ResOp K)) : Option (ResMem K) :=
  ops.foldlM (fun s op => s.step op) { heap := [], objs := [] }

/-- `data_lams_opt` of object `i` (results.hpp:30-32) -/
def ResMem.lams (s : ResMem K) (i : ℕ) : Option (List K) := (s.obj i).bind fun o => s.buffer o.data
/-- `x_opt` of object `i` (results.hpp:30-32) -/
def ResMem.point (s : ResMem K) (i : ℕ) : Option (List K) := (s.obj i).bind fun o => s.buffer o.x
/-- the blocks `lams_opt` of object `i` (results.hpp:30-32) -/
def ResMem.blocks (s : ResMem K) (i : ℕ) : Option (List (List K)) :=
  (s.obj i).bind fun o => o.views.mapM s.readView

end ProxNLP
