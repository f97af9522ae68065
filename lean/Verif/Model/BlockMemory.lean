import Verif.Model.BlockKind
import Verif.Model.BlockLdlt
import Verif.Model.Polymorphic
import Mathlib.Data.Nat.Factorial.Basic

/-! Model of the memory behind `BlockLDLT` objects: the arrays that `SymbolicBlockMatrix` points to.

Simplifications. The two arrays of one `SymbolicBlockMatrix` (`m_data`, `segment_lens`) are one heap block: they are allocated,
copied and deleted together everywhere in `BlockLDLT`. The block also records the number of segments, which never changes.
The caller's own structure passed to the constructor is a value. Addresses are never reused. -/

namespace ProxNLP

/-- A `SymbolicBlockMatrix` member (block-kind.hpp:48-56): the pointers and the flag `performed_llt`. -/
structure SymRef where
  ptr : ℕ
  performed : Bool

/-- The members of a `BlockLDLT` object that concern the analysis (block-ldlt.hpp:212-221). -/
structure BlockRef where
  struct : SymRef
  structTr : SymRef
  indices : List ℕ
  perm : List ℕ

/-- heap of arrays and the objects in lifetime (block-ldlt.hpp:212-221 and block-kind.hpp:48-56
(memory of a program holding such objects)) -/
structure BlockMem where
  heap : PolyHeap Sym Unit
  objs : ℕ → Option BlockRef

/-- block-ldlt.hpp:212-221 and block-kind.hpp:48-56 (memory of a program holding such objects) -/
def BlockMem.empty : BlockMem := ⟨⟨fun _ => none, 0, []⟩, fun _ => none⟩

/-- reading a `SymbolicBlockMatrix`: `none` is a read of memory that is not alive
(block-kind.hpp:48-56) -/
def BlockMem.sym (m : BlockMem) (r : SymRef) : Option Sym := (m.heap.blocks r.ptr).map fun p => { p.1 with performed := r.performed }

/-- reading an object (block-ldlt.hpp:212-221) -/
def BlockMem.view (m : BlockMem) (o : BlockRef) : Option BlockAnalysis :=
  match m.sym o.struct, m.sym o.structTr with
  | some s, some t => some { struct := s, structTr := t, indices := o.indices, perm := o.perm }
  | _, _ => none

/-- the constructors block-ldlt.hpp:228-246 -/
def BlockMem.put (m : BlockMem) (i : ℕ) (o : Option BlockRef) : BlockMem := { m with objs := fun j => if j = i then o else m.objs j }

/-- `SymbolicBlockMatrix::copy()`, `transpose()` (block-kind.cpp:53-57, block-kind.hpp:124-133): new arrays with content `s` -/
def BlockMem.alloc (m : BlockMem) (s : Sym) : SymRef × BlockMem := (⟨m.heap.born, s.performed⟩, { m with heap := (m.heap.make s ()).2 })

/-- the constructor (block-ldlt.hpp:228-235): a copy of the structure, then its transpose -/
def BlockMem.construct (m : BlockMem) (i : ℕ) (a : BlockAnalysis) : BlockMem :=
  let r := m.alloc a.struct
  let t := r.2.alloc a.structTr
  t.2.put i (some { struct := r.1, structTr := t.1, indices := a.indices, perm := a.perm })

/-- what the copy constructor (block-ldlt.hpp:237-246) builds: structure copied, transpose formed anew, permutations copied -/
def BlockAnalysis.copy (a : BlockAnalysis) : BlockAnalysis :=
  { a with struct := symCopy a.struct a.struct id, structTr := (symCopy a.struct a.struct id).transpose }

/-- An analysis method on object `i`: the local `in` (`temps` copies of the structure, never deleted), the structure overwritten
in place, and, unless the flag says that the analysis was done, new arrays for the transpose, the pointers to the old ones
being overwritten (block-ldlt.hxx:13-40). `f` gives the new content. -/
def BlockMem.update (m : BlockMem) (i temps : ℕ) (f : BlockAnalysis → Option BlockAnalysis) : Option BlockMem :=
  match m.objs i with
  | none => none
  | some o =>
    match m.view o with
    | none => none
    | some a =>
      match f a with
      | none => none
      | some a' =>
        let m := (List.range temps).foldl (fun m _ => (m.alloc a.struct).2) m
        let m : BlockMem := { m with heap := m.heap.write o.struct.ptr a'.struct }
        let o' := { o with struct := { o.struct with performed := a'.struct.performed }, indices := a'.indices, perm := a'.perm }
        if a.struct.performed then some (m.put i (some o'))
        else some ((m.alloc a'.structTr).2.put i (some { o' with structTr := (m.alloc a'.structTr).1 }))

/-- operations on `BlockLDLT` objects named by numbers (block-ldlt.hpp:228-263,
block-ldlt.hxx:13-41) -/
inductive BlockMemOp where
  /-- constructor (block-ldlt.hpp:228-235) -/
  | new (i size : ℕ) (s : Sym)
  /-- copy constructor `i(j)` (block-ldlt.hpp:237-246) -/
  | copy (i j : ℕ)
  /-- `i = j` by the implicitly declared, memberwise assignment operator -/
  | assign (i j : ℕ)
  | analyze (i : ℕ)
  | setPerm (i : ℕ) (q : Option (List ℕ))
  | find (i : ℕ)
  /-- destructor (block-ldlt.hpp:256-263) -/
  | destroy (i : ℕ)

/-- `none`: undefined behaviour (memory not alive is read, written or deleted), or use of an
object not in lifetime (block-ldlt.hpp:228-263, block-ldlt.hxx:13-41) -/
def BlockMem.step (m : BlockMem) : BlockMemOp → Option BlockMem
  | .new i size s => match m.objs i with
    | none => some (m.construct i (BlockAnalysis.init size s))
    | some _ => none
  | .copy i j => match m.objs i, m.objs j with
    | none, some o => match m.sym o.struct with
      | none => none
      | some s => some (m.construct i { struct := symCopy s s id, structTr := (symCopy s s id).transpose, indices := o.indices, perm := o.perm })
    | _, _ => none
  | .assign i j => match m.objs i, m.objs j with
    | some _, some o => some (m.put i (some o))
    | _, _ => none
  | .analyze i => m.update i 0 fun a => some (analyzePattern a).2
  | .setPerm i q => m.update i 1 fun a => setBlockPermutation a q
  | .find i => m.update i 1 fun a => findSparsifyingPermutation a.struct.n.factorial a
  | .destroy i => match m.objs i with
    | none => none
    | some o => match m.heap.free o.struct.ptr () with
      | none => none
      | some h => match h.free o.structTr.ptr () with
        | none => none
        | some h => some (({ m with heap := h }).put i none)

/-- Not in the code: a history of calls of block-ldlt.hpp:228-263 and block-ldlt.hxx:13-41 -/
def BlockMem.run (m : BlockMem) : List BlockMemOp → Option BlockMem
  | [] => some m
  | op :: ops => match m.step op with
    | none => none
    | some m => m.run ops

/-- the copy constructor on the whole object (block-ldlt.hpp:237-246): `m_sign` is not copied, the new object keeps that of
`Base()` -/
def BlockObj.copy {K : Type} (o : BlockObj K) : BlockObj K := { o with an := o.an.copy, sign := .zeroSign }

end ProxNLP
