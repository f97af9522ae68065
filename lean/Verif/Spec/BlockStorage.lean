import Verif.Model.BlockStorage
import Verif.Spec.BlockKind

/-! What the arrays of a block structure hold, stated through the element accesses only. -/

namespace ProxNLP.Spec

/-- The object holds a structure: every entry and every segment length is inside its array, initialised, and has the value. The rows of
the array are at least as long as those of the object. -/
structure Holds (s : SymStore) (a : Sym) : Prop where
  count : s.n = a.n
  flag : s.performed = a.performed
  stride : s.n ≤ s.os
  lens : ∀ i < s.n, s.lensArr[s.lo + i]? = some (some (a.lens i))
  kinds : ∀ i < s.n, ∀ j < s.n, s.data[s.off + (i + j * s.os)]? = some (some (a.kinds i j))

/-- The arrays have room for the entries and the lengths. -/
structure Room (s : SymStore) : Prop where
  stride : s.n ≤ s.os
  lens : ∀ i < s.n, s.lo + i < s.lensArr.length
  kinds : ∀ i < s.n, ∀ j < s.n, s.off + (i + j * s.os) < s.data.length

/-- `t` is the object `s` after a call: the same place and size, and nothing in the arrays outside of it is changed. -/
structure Inside (s t : SymStore) : Prop where
  place : t.off = s.off ∧ t.lo = s.lo ∧ t.n = s.n ∧ t.os = s.os
  sizes : t.data.length = s.data.length ∧ t.lensArr.length = s.lensArr.length
  data : ∀ a, (∀ i < s.n, ∀ j < s.n, a ≠ s.off + (i + j * s.os)) → t.data[a]? = s.data[a]?
  lens : ∀ a, (∀ i < s.n, a ≠ s.lo + i) → t.lensArr[a]? = s.lensArr[a]?

/-- The part of a structure seen by `submatrix(i, m)`. -/
def part (a : Sym) (i m : ℕ) : Sym := { n := m, lens := fun r => a.lens (i + r), kinds := fun r c => a.kinds (i + r) (i + c), performed := a.performed }

/-- The structure `a` with the part seen by `submatrix(i, b.n)` replaced by `b`. -/
def replacePart (a : Sym) (i : ℕ) (b : Sym) : Sym :=
  { a with
    lens := fun r => if i ≤ r ∧ r < i + b.n then b.lens (r - i) else a.lens r
    kinds := fun r c => if (i ≤ r ∧ r < i + b.n) ∧ (i ≤ c ∧ c < i + b.n) then b.kinds (r - i) (c - i) else a.kinds r c }

/-- A picture of `N` lines of `N` fields, filled where `pic` holds. -/
def drawing (N : ℕ) (pic : ℕ → ℕ → Bool) : String :=
  String.join ((List.range N).map fun i => String.join ((List.range N).map fun j => if pic i j then "██" else "░░") ++ "\n")

end ProxNLP.Spec
