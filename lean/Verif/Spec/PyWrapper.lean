import Verif.Model.PyWrapper

/-!
What a user of wrapped Python objects relies on, without halves, holders and reference counts (C120).

There are only *values* (attributes and members together). A Python variable refers to a value; a slot has a value of its own, and storing
or copying gives the slot a copy. `inner` marks the values that were made for a slot. A variable obtained from a slot refers to the value
of this slot. Only the statements of the model are used from there.
-/

namespace ProxNLP.Spec

/-- attributes and members of one object; `inner`: it is the value of a slot -/
structure Value (V W : Type) where
  attrs : V
  data : W
  copyable : Bool
  inner : Bool
  deriving DecidableEq, Repr

/-- all values made so far, what the variables refer to, and the values of the slots -/
structure Values (V W : Type) where
  vals : List (Value V W) := []
  vars : List (Option ℕ) := []
  slots : List (Option ℕ) := []
  deriving DecidableEq, Repr

section
variable {V W : Type}

/-- The value exists: it belongs to Python, or to a slot that still has it. -/
def Values.exists? (s : Values V W) (k : ℕ) : Option (Value V W) :=
  (s.vals[k]?).bind fun v => if v.inner = false ∨ some k ∈ s.slots then some v else none

/-- a new value, a copy of `v` for a slot -/
def Values.dup (s : Values V W) (v : Value V W) : Values V W := { s with vals := s.vals ++ [{ v with inner := true }] }

/-- What a statement does to the values. `none`: the value no longer exists. -/
def Values.step (s : Values V W) : WrapStmt V W → Option (Values V W × WrapOut V W)
  | .create v w copyable => some ({ s with vals := s.vals ++ [⟨v, w, copyable, false⟩], vars := s.vars ++ [some s.vals.length] }, .quiet)
  | .share i =>
    match s.vars[i]?.join with
    | some k => some ({ s with vars := s.vars ++ [some k] }, .quiet)
    | none => some (s, .raised)
  | .drop i =>
    match s.vars[i]?.join with
    | some _ => some ({ s with vars := s.vars.set i none }, .quiet)
    | none => some (s, .raised)
  | .setAttr i v =>
    match s.vars[i]?.join with
    | some k => some ({ s with vals := s.vals.modify k fun x => { x with attrs := v } }, .quiet)
    | none => some (s, .raised)
  | .setData i w =>
    match s.vars[i]?.join with
    | some k => (s.exists? k).bind fun _ => some ({ s with vals := s.vals.modify k fun x => { x with data := w } }, .quiet)
    | none => some (s, .raised)
  | .read i =>
    match s.vars[i]?.join with
    | some k => (s.exists? k).bind fun x => some (s, .result x.attrs x.data)
    | none => some (s, .raised)
  | .store i =>
    match s.vars[i]?.join with
    | some k => (s.exists? k).bind fun x =>
        if x.copyable then some ({ s.dup x with slots := s.slots ++ [some s.vals.length] }, .quiet) else some (s, .raised)
    | none => some (s, .raised)
  | .put t i =>
    match s.vars[i]?.join, s.slots[t]?.join with
    | some k, some _ => (s.exists? k).bind fun x =>
        if x.copyable then some ({ s.dup x with slots := s.slots.set t (some s.vals.length) }, .quiet) else some (s, .raised)
    | _, _ => some (s, .raised)
  | .copy t =>
    match s.slots[t]?.join with
    | some k => (s.exists? k).bind fun x =>
        if x.copyable then some ({ s.dup x with slots := s.slots ++ [some s.vals.length] }, .quiet) else some (s, .raised)
    | none => some (s, .raised)
  | .assign t u =>
    match s.slots[t]?.join, s.slots[u]?.join with
    | some _, some k =>
      if t = u then some (s, .quiet)
      else (s.exists? k).bind fun x =>
        if x.copyable then some ({ s.dup x with slots := s.slots.set t (some s.vals.length) }, .quiet) else some (s, .raised)
    | _, _ => some (s, .raised)
  | .destroy t =>
    match s.slots[t]?.join with
    | some _ => some ({ s with slots := s.slots.set t none }, .quiet)
    | none => some (s, .raised)
  | .get t =>
    match s.slots[t]?.join with
    | some k => some ({ s with vars := s.vars ++ [some k] }, .quiet)
    | none => some (s, .raised)
  | .call t =>
    match s.slots[t]?.join with
    | some k => (s.exists? k).bind fun x => some (s, .result x.attrs x.data)
    | none => some (s, .raised)
  | .relocate t =>
    match s.slots[t]?.join with
    | some _ => some (s, .quiet)
    | none => some (s, .raised)

/-- a program on values -/
def Values.run (s : Values V W) : List (WrapStmt V W) → Option (Values V W × List (WrapOut V W))
  | [] => some (s, [])
  | t :: rest => (s.step t).bind fun (s', o) => (s'.run rest).bind fun (s'', os) => some (s'', o :: os)

/-- the program never moves a wrapped object itself (moving a `polymorphic` does not) -/
def NoRelocate (prog : List (WrapStmt V W)) : Prop := ∀ s, WrapStmt.relocate s ∉ prog

/-- the statement gives the slot `t` another value, ends it, or hands out a reference to its value -/
def Touches (t : ℕ) : WrapStmt V W → Prop
  | .put s _ => s = t
  | .assign s _ => s = t
  | .destroy s => s = t
  | .get s => s = t
  | _ => False

end

end ProxNLP.Spec
