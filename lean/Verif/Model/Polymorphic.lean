import Mathlib.Logic.Function.Basic
import Mathlib.Data.List.Nodup

/-! Model of `xyz::polymorphic<T, A>` (third-party/polymorphic_cxx14.hpp): owning pointers to control blocks on a heap.

Simplifications. A control block and the value it embeds are one heap block (they are created and destroyed together).
Addresses are handed out in increasing order and never reused. `Val` is a value together with its dynamic type. Copying a value
yields an equal value; moving from a value `v` yields `v` and leaves `moved v` behind. A value constructor may throw (flag on
the operation); a throwing move leaves its source as it was. Allocation itself does not throw. -/

namespace ProxNLP

variable {Val Al : Type}

/-- `std::allocator_traits<A>` as far as used (`copy`, `move`, `swap`: the `propagate_on_container_*` constants; `select`:
`select_on_container_copy_construction`), and the two facts about values the code depends on (`moved`, and `base v`: what
`T` is built from the arguments that would build `v`). third-party/polymorphic_cxx14.hpp:159-165. -/
structure PolyTraits (Val Al : Type) where
  copy : Bool
  move : Bool
  swap : Bool
  select : Al → Al
  moved : Val → Val
  base : Val → Val

/-- heap: live blocks with the allocator they came from, number of blocks ever made, blocks
destroyed (latest first) (third-party/polymorphic_cxx14.hpp:93-157) -/
structure PolyHeap (Val Al : Type) where
  blocks : ℕ → Option (Val × Al)
  born : ℕ
  freed : List ℕ

/-- a `polymorphic` object: `cb_` and the allocator (third-party/polymorphic_cxx14.hpp:159-165,
456-463) -/
structure PolyObj (Al : Type) where
  cb : Option ℕ
  al : Al

/-- heap and the objects in lifetime (third-party/polymorphic_cxx14.hpp:159-165, 456-463) -/
structure PolyState (Val Al : Type) where
  heap : PolyHeap Val Al
  objs : ℕ → Option (PolyObj Al)

/-- outcome of an operation; `ub` is undefined behaviour, `terminate` an exception leaving a
`noexcept` function (third-party/polymorphic_cxx14.hpp:308-449) -/
inductive PolyOut (S : Type) where
  | ok (s : S)
  | threw (s : S)
  | terminate
  | ub

/-- `allocate` and `construct` (lines 167-182, clone 126-136, move 138-148) (lines of
third-party/polymorphic_cxx14.hpp) -/
def PolyHeap.make (h : PolyHeap Val Al) (v : Val) (al : Al) : ℕ × PolyHeap Val Al :=
  (h.born, { h with blocks := fun a => if a = h.born then some (v, al) else h.blocks a, born := h.born + 1 })

/-- `destroy` (lines 150-154): undefined on a block that is not alive or comes from another
allocator (lines of third-party/polymorphic_cxx14.hpp) -/
def PolyHeap.free [DecidableEq Al] (h : PolyHeap Val Al) (a : ℕ) (al : Al) : Option (PolyHeap Val Al) :=
  match h.blocks a with
  | none => none
  | some (_, al') => if al' = al then some { h with blocks := fun b => if b = a then none else h.blocks b, freed := a :: h.freed } else none

/-- the failing path of the same functions: memory is obtained and given back (lines 132-135,
144-147, 178-181) (lines of third-party/polymorphic_cxx14.hpp) -/
def PolyHeap.makeThrow (h : PolyHeap Val Al) : PolyHeap Val Al :=
  { h with born := h.born + 1, freed := h.born :: h.freed }

/-- store the value of a live block (third-party/polymorphic_cxx14.hpp:408-426) -/
def PolyHeap.write (h : PolyHeap Val Al) (a : ℕ) (v : Val) : PolyHeap Val Al :=
  { h with blocks := fun b => if b = a then (h.blocks b).map fun p => (v, p.2) else h.blocks b }

/-- store an object (third-party/polymorphic_cxx14.hpp:350-406) -/
def PolyState.put (s : PolyState Val Al) (i : ℕ) (o : Option (PolyObj Al)) : PolyState Val Al :=
  { s with objs := fun j => if j = i then o else s.objs j }

/-- `reset()` (lines 457-462) on object `i` holding `o` (lines of
third-party/polymorphic_cxx14.hpp) -/
def PolyState.reset [DecidableEq Al] (s : PolyState Val Al) (i : ℕ) (o : PolyObj Al) : Option (PolyState Val Al) :=
  match o.cb with
  | none => some (s.put i (some o))
  | some a => (s.heap.free a o.al).map fun h => ({ s with heap := h }).put i (some { o with cb := none })

/-- operations on objects named by numbers (not in the code: a history of calls of
third-party/polymorphic_cxx14.hpp:200-449) -/
inductive PolyOp (Val Al : Type) where
  /-- constructors from a value (lines 190-218, 251-306); `throws`: the value constructor does -/
  | make (i : ℕ) (al : Al) (v : Val) (throws : Bool)
  /-- constructor from an initializer list (lines 220-232) of a value `v` of type `U` -/
  | makeList (i : ℕ) (al : Al) (v : Val) (throws : Bool)
  /-- copy constructor with allocator (lines 308-315) -/
  | copyExt (i : ℕ) (al : Al) (j : ℕ) (throws : Bool)
  /-- copy constructor (lines 317-321) -/
  | copyCtor (i j : ℕ) (throws : Bool)
  /-- move constructor with allocator (lines 323-342) -/
  | moveExt (i : ℕ) (al : Al) (j : ℕ) (throws : Bool)
  /-- move constructor (lines 344-346) -/
  | moveCtor (i j : ℕ)
  /-- `operator=(const polymorphic&)` (lines 350-373) -/
  | copyAssign (i j : ℕ) (throws : Bool)
  /-- `operator=(polymorphic&&)` (lines 375-406) -/
  | moveAssign (i j : ℕ) (throws : Bool)
  /-- `swap` (lines 434-449) -/
  | swap (i j : ℕ)
  /-- write through `operator*`, `operator->` (lines 408-426) -/
  | write (i : ℕ) (v : Val)
  /-- destructor (line 348) -/
  | destroy (i : ℕ)

section
variable [DecidableEq Al] (T : PolyTraits Val Al)

/-- create object `i` with allocator `al` owning a new block with value `v`
(third-party/polymorphic_cxx14.hpp:167-300) -/
def PolyState.construct (s : PolyState Val Al) (i : ℕ) (al : Al) (v : Val) (throws : Bool) : PolyOut (PolyState Val Al) :=
  if throws then .threw { s with heap := s.heap.makeThrow }
  else .ok (({ s with heap := (s.heap.make v al).2 }).put i (some ⟨some (s.heap.make v al).1, al⟩))

/-- copy construction of `i` from the object `src` with allocator `al` (lines 308-315) (lines of
third-party/polymorphic_cxx14.hpp) -/
def PolyState.copyFrom (s : PolyState Val Al) (i : ℕ) (al : Al) (src : PolyObj Al) (throws : Bool) : PolyOut (PolyState Val Al) :=
  match src.cb with
  | none => .ok (s.put i (some ⟨none, al⟩))
  | some a =>
    match s.heap.blocks a with
    | none => .ub
    | some (v, _) => s.construct i al v throws

/-- take the control block of `j` (lines 328-329, 332-333) (lines of
third-party/polymorphic_cxx14.hpp) -/
def PolyState.steal (s : PolyState Val Al) (i : ℕ) (al : Al) (j : ℕ) (src : PolyObj Al) : PolyState Val Al :=
  (s.put i (some ⟨src.cb, al⟩)).put j (some { src with cb := none })

/-- move construction of `i` from object `j` with allocator `al` (lines 323-342) (lines of
third-party/polymorphic_cxx14.hpp) -/
def PolyState.moveFrom (s : PolyState Val Al) (i : ℕ) (al : Al) (j : ℕ) (src : PolyObj Al) (throws : Bool) : PolyOut (PolyState Val Al) :=
  if T.copy then .ok (s.steal i al j src)
  else if al = src.al then .ok (s.steal i al j src)
  else
    match src.cb with
    | none => .ok (s.put i (some ⟨none, al⟩))
    | some a =>
      match s.heap.blocks a with
      | none => .ub
      | some (v, _) => if throws then .threw { s with heap := s.heap.makeThrow }
        else ({ s with heap := s.heap.write a (T.moved v) }).construct i al v false

/-- copy assignment of the object `src` to object `i` holding `dst`, the addresses being different
(lines 353-372) (lines of third-party/polymorphic_cxx14.hpp) -/
def PolyState.copyInto (s : PolyState Val Al) (i : ℕ) (dst src : PolyObj Al) (throws : Bool) : PolyOut (PolyState Val Al) :=
  let al := if T.copy then src.al else dst.al
  match src.cb with
  | none =>
    match s.reset i dst with
    | none => .ub
    | some s => .ok (s.put i (some ⟨none, al⟩))
  | some a =>
    match s.heap.blocks a with
    | none => .ub
    | some (v, _) =>
      if throws then .threw { s with heap := s.heap.makeThrow }
      else
        match ({ s with heap := (s.heap.make v al).2 }).reset i dst with
        | none => .ub
        | some s' => .ok (s'.put i (some ⟨some (s.heap.make v al).1, al⟩))

/-- move assignment from object `j` holding `src` to object `i` holding `dst`, the addresses being different (lines 380-405);
the function is `noexcept` if `propagate_on_container_move_assignment` (or if allocators are always equal, and then the branch
that can throw is not reached) (lines of third-party/polymorphic_cxx14.hpp) -/
def PolyState.moveInto (s : PolyState Val Al) (i : ℕ) (dst : PolyObj Al) (j : ℕ) (src : PolyObj Al) (throws : Bool) :
    PolyOut (PolyState Val Al) :=
  let al := if T.move then src.al else dst.al
  match src.cb with
  | none =>
    match s.reset i dst with
    | none => .ub
    | some s => .ok (s.put i (some ⟨none, al⟩))
  | some a =>
    if dst.al = src.al then
      match (s.put i (some { dst with cb := src.cb })).reset j { src with cb := dst.cb } with
      | none => .ub
      | some s => .ok (s.put i (some ⟨src.cb, al⟩))
    else
      match s.heap.blocks a with
      | none => .ub
      | some (v, _) =>
        if throws then (if T.move then .terminate else .threw { s with heap := s.heap.makeThrow })
        else
          match ({ s with heap := ((s.heap.write a (T.moved v)).make v al).2 }).reset i dst with
          | none => .ub
          | some s' => .ok (s'.put i (some ⟨some ((s.heap.write a (T.moved v)).make v al).1, al⟩))

/-- One operation. Operations on objects out of lifetime, or constructing over a live object, are
undefined. Not in the code: a history of calls of third-party/polymorphic_cxx14.hpp:200-449. -/
def PolyState.step (s : PolyState Val Al) : PolyOp Val Al → PolyOut (PolyState Val Al)
  | .make i al v t => match s.objs i with
    | some _ => .ub
    | none => s.construct i al v t
  | .makeList i al v t => match s.objs i with
    | some _ => .ub
    | none => s.construct i al (T.base v) t
  | .copyExt i al j t => match s.objs i, s.objs j with
    | none, some o => s.copyFrom i al o t
    | _, _ => .ub
  | .copyCtor i j t => match s.objs i, s.objs j with
    | none, some o => s.copyFrom i (T.select o.al) o t
    | _, _ => .ub
  | .moveExt i al j t => match s.objs i, s.objs j with
    | none, some o => s.moveFrom T i al j o t
    | _, _ => .ub
  | .moveCtor i j => match s.objs i, s.objs j with
    | none, some o => s.moveFrom T i o.al j o false
    | _, _ => .ub
  | .copyAssign i j t => match s.objs i, s.objs j with
    | some d, some o => if i = j then .ok s else s.copyInto T i d o t
    | _, _ => .ub
  | .moveAssign i j t => match s.objs i, s.objs j with
    | some d, some o => if i = j then .ok s else s.moveInto T i d j o t
    | _, _ => .ub
  | .swap i j => match s.objs i, s.objs j with
    | some d, some o =>
      if T.swap then .ok ((s.put i (some o)).put j (some d))
      else if d.al = o.al then .ok ((s.put i (some { d with cb := o.cb })).put j (some { o with cb := d.cb }))
      else .ub
    | _, _ => .ub
  | .write i v => match s.objs i with
    | some ⟨some a, _⟩ => match s.heap.blocks a with
      | some _ => .ok { s with heap := s.heap.write a v }
      | none => .ub
    | _ => .ub
  | .destroy i => match s.objs i with
    | some o => match s.reset i o with
      | some s => .ok (s.put i none)
      | none => .ub
    | none => .ub

/-- A history. After an exception the program goes on. Not in the code: a history of calls of
third-party/polymorphic_cxx14.hpp:200-449. -/
def PolyState.run (s : PolyState Val Al) : List (PolyOp Val Al) → PolyOut (PolyState Val Al)
  | [] => .ok s
  | op :: ops =>
    match s.step T op with
    | .ok s => PolyState.run s ops
    | .threw s => PolyState.run s ops
    | .terminate => .terminate
    | .ub => .ub

end

/-- no objects, empty heap (third-party/polymorphic_cxx14.hpp:159-165, 456-463) -/
def PolyState.empty : PolyState Val Al := ⟨⟨fun _ => none, 0, []⟩, fun _ => none⟩

end ProxNLP
