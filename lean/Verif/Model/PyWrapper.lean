import Mathlib.Data.List.Basic

/-!
Model of Python classes stored by value in C++ (bindings/python/include/proxsuite-nlp/python/polymorphic.hpp): `PolymorphicWrapper`,
`OwningNonOwningHolder` and the conversions of `xyz::polymorphic` from and to Python.

An object of a Python class derived from a C++ class has two halves: the Python instance, with the attributes `V`, and the C++ object,
with the members `W`. Halves are numbered in the order of creation, separately. A Python variable refers to an instance; a slot is a C++
variable of type `xyz::polymorphic<Base>`, which owns one C++ object (polymorphic_cxx14.hpp:350-373).

Simplifications: all classes have one virtual method, which returns the attributes of `self` and the members it reads through
`super()`. Boost.Python and `copy.deepcopy` are modelled from their documentation: `deepcopy` of an instance calls the class with what
`__getinitargs__` returns and then copies the attributes. The C++ half which this call makes, and which is replaced at once
(polymorphic.hpp:233), is not numbered. Objects made in C++, without a Python half, are left out.
-/

namespace ProxNLP

/-- A Python instance. `held` and `owns` are `m_held`, the variant of an own C++ object and a pointer to one; `copyable`: the class can be
called with what its `__getinitargs__` returns (no arguments if there is none). polymorphic.hpp:107-149, 97-100 -/
structure PyHalf (V : Type) where
  attrs : V
  held : ℕ
  owns : Bool
  copyable : Bool
  alive : Bool
  deriving DecidableEq, Repr

/-- A C++ object derived from `PolymorphicWrapper`: its members, the raw pointer `m_self` of `boost::python::wrapper` and the reference
`copied_owner`. polymorphic.hpp:176-180, 239-240 -/
structure CppHalf (W : Type) where
  data : W
  self : ℕ
  copied : Option ℕ
  alive : Bool
  deriving DecidableEq, Repr

/-- The halves, the Python variables (`none`: deleted) and the slots (`none`: destroyed). Model of the memory, no lines of its own:
polymorphic.hpp:107-241 -/
structure WrapHeap (V W : Type) where
  pys : List (PyHalf V) := []
  cpps : List (CppHalf W) := []
  vars : List (Option ℕ) := []
  slots : List (Option ℕ) := []
  deriving DecidableEq, Repr

/-- Statements of a program that uses wrapped objects from Python and from C++. polymorphic.hpp:36-69 (example of use),
tests/python/polymorphic_test.cpp:62-112 -/
inductive WrapStmt (V W : Type) where
  | create (v : V) (w : W) (copyable : Bool) -- x = Derived()
  | share (i : ℕ)                            -- y = x
  | drop (i : ℕ)                             -- del x
  | setAttr (i : ℕ) (v : V)                  -- x.attr = v
  | setData (i : ℕ) (w : W)                  -- a C++ setter called from Python
  | read (i : ℕ)                             -- x.method()
  | store (i : ℕ)                            -- b = poly_store(x)
  | put (s i : ℕ)                            -- b.x = x
  | copy (s : ℕ)                             -- polymorphic(const polymorphic &)
  | assign (s t : ℕ)                         -- polymorphic::operator=
  | destroy (s : ℕ)                          -- the end of a slot
  | get (s : ℕ)                              -- y = b.x
  | call (s : ℕ)                             -- a virtual call from C++
  | relocate (s : ℕ)                         -- the move constructor of the wrapped object, then the end of the old one
  deriving DecidableEq, Repr

/-- What a statement shows: nothing, the result of the method, or an exception. polymorphic.hpp:226-232 and exceptions raised by
`deepcopy`, line 212 -/
inductive WrapOut (V W : Type) where
  | quiet
  | result (v : V) (w : W)
  | raised
  deriving DecidableEq, Repr

section
variable {V W : Type}

/-- The number of references to an instance: variables, and `copied_owner` of C++ objects that exist. polymorphic.hpp:239-240 -/
def WrapHeap.refs (h : WrapHeap V W) (p : ℕ) : ℕ := h.vars.count (some p) + h.cpps.countP fun c => c.alive && c.copied == some p

/-- The end of a C++ object, without what it refers to. polymorphic.hpp:176-180 (destructor) -/
def CppHalf.end (c : CppHalf W) : CppHalf W := { c with alive := false }

/-- The end of an instance. polymorphic.hpp:107-149 (destructor of the holder) -/
def PyHalf.end (p : PyHalf V) : PyHalf V := { p with alive := false }

/-- After a reference to the instance `p` has gone: without references it ends, and with it the C++ object in its holder, unless the
holder has only a pointer. The `copied_owner` of an object in a holder is empty: it was made by the constructor, not copied.
polymorphic.hpp:122-126, 148 -/
def WrapHeap.release (h : WrapHeap V W) (p : ℕ) : WrapHeap V W :=
  if h.refs p = 0 then
    match h.pys[p]? with
    | some q => { h with pys := h.pys.modify p PyHalf.end, cpps := if q.owns then h.cpps.modify q.held CppHalf.end else h.cpps }
    | none => h
  else h

/-- The end of the C++ object `c` of a slot: `copied_owner` gives its reference back. polymorphic.hpp:239-240 -/
def WrapHeap.endCpp (h : WrapHeap V W) (c : ℕ) : WrapHeap V W :=
  match h.cpps[c]? with
  | some q =>
    let h' := { h with cpps := h.cpps.modify c CppHalf.end }
    match q.copied with
    | some p => h'.release p
    | none => h'
  | none => h

/-- The copy constructor of a wrapped object, `PolymorphicWrapper(const PolymorphicWrapper &)` with `deepcopy_owner`: the new C++ object
has the members of the old one, its Python half is a deep copy of the old Python half, and the two refer to one another. `none`: memory of
an ended object is read; `some none`: `deepcopy` raises and nothing is left of the copy. polymorphic.hpp:181-184, 197-237 -/
def WrapHeap.clone (h : WrapHeap V W) (c : ℕ) : Option (Option (WrapHeap V W)) :=
  match h.cpps[c]? with
  | some q =>
    if q.alive then
      match h.pys[q.self]? with
      | some p =>
        if p.alive then
          if p.copyable then
            some (some { h with
              cpps := h.cpps ++ [{ data := q.data, self := h.pys.length, copied := some h.pys.length, alive := true }]
              pys := h.pys ++ [{ attrs := p.attrs, held := h.cpps.length, owns := false, copyable := p.copyable, alive := true }] })
          else some none
        else none
      | none => none
    else none
  | none => none

/-- The C++ half of an instance, as Boost.Python finds it in the holder. `none`: it has ended. polymorphic.hpp:118, 129-137 -/
def WrapHeap.half (h : WrapHeap V W) (p : ℕ) : Option (PyHalf V × CppHalf W) :=
  match h.pys[p]? with
  | some q =>
    if q.alive then
      match h.cpps[q.held]? with
      | some c => if c.alive then some (q, c) else none
      | none => none
    else none
  | none => none

/-- One statement. `none`: the memory of an ended object is used (undefined behaviour). An unknown or deleted variable or slot is an
exception. polymorphic.hpp:71-103, 107-149, 173-241, 250-275; polymorphic_cxx14.hpp:350-373 -/
def WrapHeap.step (h : WrapHeap V W) : WrapStmt V W → Option (WrapHeap V W × WrapOut V W)
  | .create v w copyable =>
    -- polymorphic.hpp:122-126: the holder has an own object, whose `m_self` is the new instance
    some ({ h with
      pys := h.pys ++ [{ attrs := v, held := h.cpps.length, owns := true, copyable := copyable, alive := true }]
      cpps := h.cpps ++ [{ data := w, self := h.pys.length, copied := none, alive := true }]
      vars := h.vars ++ [some h.pys.length] }, .quiet)
  | .share i =>
    match h.vars[i]?.join with
    | some p => some ({ h with vars := h.vars ++ [some p] }, .quiet)
    | none => some (h, .raised)
  | .drop i =>
    match h.vars[i]?.join with
    | some p => some (({ h with vars := h.vars.set i none } : WrapHeap V W).release p, .quiet)
    | none => some (h, .raised)
  | .setAttr i v =>
    match h.vars[i]?.join with
    | some p => some ({ h with pys := h.pys.modify p fun q => { q with attrs := v } }, .quiet)
    | none => some (h, .raised)
  | .setData i w =>
    match h.vars[i]?.join with
    | some p => (h.half p).bind fun (q, _) => some ({ h with cpps := h.cpps.modify q.held fun c => { c with data := w } }, .quiet)
    | none => some (h, .raised)
  | .read i =>
    match h.vars[i]?.join with
    | some p => (h.half p).bind fun (q, c) => some (h, .result q.attrs c.data)
    | none => some (h, .raised)
  | .store i =>
    -- polymorphic.hpp:78-89: the conversion to `polymorphic` copies the C++ half
    match h.vars[i]?.join with
    | some p => (h.half p).bind fun (q, _) => (h.clone q.held).bind fun
        | some h' => some ({ h' with slots := h'.slots ++ [some h.cpps.length] }, .quiet)
        | none => some (h, .raised)
    | none => some (h, .raised)
  | .put s i =>
    -- the conversion, then polymorphic_cxx14.hpp:375-406: the new object is taken over, the old one ends
    match h.vars[i]?.join, h.slots[s]?.join with
    | some p, some c => (h.half p).bind fun (q, _) => (h.clone q.held).bind fun
        | some h' => some (({ h' with slots := h'.slots.set s (some h.cpps.length) } : WrapHeap V W).endCpp c, .quiet)
        | none => some (h, .raised)
    | _, _ => some (h, .raised)
  | .copy s =>
    match h.slots[s]?.join with
    | some c => (h.clone c).bind fun
        | some h' => some ({ h' with slots := h'.slots ++ [some h.cpps.length] }, .quiet)
        | none => some (h, .raised)
    | none => some (h, .raised)
  | .assign s t =>
    -- polymorphic_cxx14.hpp:351, 364-367
    match h.slots[s]?.join, h.slots[t]?.join with
    | some c, some d =>
      if s = t then some (h, .quiet)
      else (h.clone d).bind fun
        | some h' => some (({ h' with slots := h'.slots.set s (some h.cpps.length) } : WrapHeap V W).endCpp c, .quiet)
        | none => some (h, .raised)
    | _, _ => some (h, .raised)
  | .destroy s =>
    match h.slots[s]?.join with
    | some c => some (({ h with slots := h.slots.set s none } : WrapHeap V W).endCpp c, .quiet)
    | none => some (h, .raised)
  | .get s =>
    -- polymorphic.hpp:262-268: a wrapped object is shown as its own Python half
    match h.slots[s]?.join with
    | some c => (h.cpps[c]?).bind fun q => if q.alive && (h.pys[q.self]?.any fun p => p.alive)
        then some ({ h with vars := h.vars ++ [some q.self] }, .quiet) else none
    | none => some (h, .raised)
  | .call s =>
    -- `get_override` finds the method of the instance `m_self`, which reads its C++ half
    match h.slots[s]?.join with
    | some c => (h.cpps[c]?).bind fun q => if q.alive then (h.half q.self).bind fun (p, b) => some (h, .result p.attrs b.data) else none
    | none => some (h, .raised)
  | .relocate s =>
    -- polymorphic.hpp:184: `m_self` and `copied_owner` are taken over, the holder of the instance is not told
    match h.slots[s]?.join with
    | some c => (h.cpps[c]?).bind fun q =>
        some (({ h with cpps := h.cpps ++ [q], slots := h.slots.set s (some h.cpps.length) } : WrapHeap V W).endCpp c, .quiet)
    | none => some (h, .raised)

/-- A program: the final memory and what was shown. `none`: undefined behaviour. polymorphic.hpp:36-69 (example of use) -/
def WrapHeap.run (h : WrapHeap V W) : List (WrapStmt V W) → Option (WrapHeap V W × List (WrapOut V W))
  | [] => some (h, [])
  | s :: rest => (h.step s).bind fun (h', o) => (h'.run rest).bind fun (h'', os) => some (h'', o :: os)

end

end ProxNLP
