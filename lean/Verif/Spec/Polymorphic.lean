import Verif.Model.Polymorphic

/-! Specification of value semantics: objects hold values directly, there is no heap. -/

namespace ProxNLP.Spec

open ProxNLP

variable {Val Al : Type}

/-- what an object in lifetime shows: its allocator and its value (`none`: valueless) -/
abbrev Cell (Val Al : Type) := Al × Option Val

/-- the objects -/
abbrev Cells (Val Al : Type) := ℕ → Option (Cell Val Al)

def Cells.put (c : Cells Val Al) (i : ℕ) (x : Option (Cell Val Al)) : Cells Val Al := fun j => if j = i then x else c j

/-- Value semantics of the operations. `none` is a use the caller must not make (object not in lifetime, use of a valueless
object's value, swap with unequal allocators that do not propagate). The flag tells whether the operation threw; then nothing
changes. -/
def valueStep [DecidableEq Al] (T : PolyTraits Val Al) (c : Cells Val Al) : PolyOp Val Al → Option (Bool × Cells Val Al)
  | .make i al v t | .makeList i al v t => match c i with
    | none => some (if t then (true, c) else (false, Cells.put c i (some (al, some v))))
    | some _ => none
  | .copyExt i al j t => match c i, c j with
    | none, some (_, v) => some (if t = true ∧ v.isSome = true then (true, c) else (false, Cells.put c i (some (al, v))))
    | _, _ => none
  | .copyCtor i j t => match c i, c j with
    | none, some (al, v) => some (if t = true ∧ v.isSome = true then (true, c) else (false, Cells.put c i (some (T.select al, v))))
    | _, _ => none
  | .moveExt i al j t => match c i, c j with
    | none, some (al', v) =>
      if al = al' then some (false, Cells.put (Cells.put c i (some (al, v))) j (some (al', none)))
      else some (if t = true ∧ v.isSome = true then (true, c)
        else (false, Cells.put (Cells.put c i (some (al, v))) j (some (al', v.map T.moved))))
    | _, _ => none
  | .moveCtor i j => match c i, c j with
    | none, some (al, v) => some (false, Cells.put (Cells.put c i (some (al, v))) j (some (al, none)))
    | _, _ => none
  | .copyAssign i j t => match c i, c j with
    | some (al, _), some (al', v) =>
      if i = j then some (false, c)
      else some (if t = true ∧ v.isSome = true then (true, c) else (false, Cells.put c i (some (if T.copy then al' else al, v))))
    | _, _ => none
  | .moveAssign i j t => match c i, c j with
    | some (al, _), some (al', v) =>
      if i = j then some (false, c)
      else if al = al' then some (false, Cells.put (Cells.put c i (some (if T.move then al' else al, v))) j (some (al', none)))
      else some (if t = true ∧ v.isSome = true then (true, c)
        else (false, Cells.put (Cells.put c i (some (if T.move then al' else al, v))) j (some (al', v.map T.moved))))
    | _, _ => none
  | .swap i j => match c i, c j with
    | some (al, v), some (al', v') =>
      if T.swap then some (false, Cells.put (Cells.put c i (some (al', v'))) j (some (al, v)))
      else if al = al' then some (false, Cells.put (Cells.put c i (some (al, v'))) j (some (al', v)))
      else none
    | _, _ => none
  | .write i v => match c i with
    | some (al, some _) => some (false, Cells.put c i (some (al, some v)))
    | _ => none
  | .destroy i => match c i with
    | some _ => some (false, Cells.put c i none)
    | none => none

/-- a legal history, with value semantics -/
def valueRun [DecidableEq Al] (T : PolyTraits Val Al) (c : Cells Val Al) : List (PolyOp Val Al) → Option (Cells Val Al)
  | [] => some c
  | op :: ops => match valueStep T c op with
    | some (_, c) => valueRun T c ops
    | none => none

/-- what the objects of a state show -/
def cells (s : PolyState Val Al) : Cells Val Al := fun i =>
  (s.objs i).map fun o => (o.al, o.cb.bind fun a => (s.heap.blocks a).map (·.1))

end ProxNLP.Spec
