import Mathlib.Algebra.BigOperators.Group.Finset.Basic
import Mathlib.Data.Nat.Factorial.Basic

/-!
Model of the symbolic block matrices: `/repo/include/proxsuite-nlp/linalg/block-kind.hpp` and `/repo/src/block-kind.cpp`, the
default KKT block structure of `/repo/include/proxsuite-nlp/ldlt-allocator.hpp`, and the pattern-analysis part of
`/repo/include/proxsuite-nlp/linalg/block-ldlt.{hpp,hxx}`.

Simplifications: the arrays `m_data` and `segment_lens` are functions of the block indices (the storage layout `outer_stride`
is not represented here; `Model/BlockStorage.lean` has the arrays, and C121 relates the two); `isize` is `ℕ` (no overflow). Ownership of the arrays is
modelled separately (C63).
-/

set_option linter.unusedSectionVars false
namespace ProxNLP

/-- `for (i = lo; i < lo + n; ++i) s = f(i, s)` (the loops of src/block-kind.cpp:78-230) -/
def forRange {σ : Type} (lo : ℕ) : ℕ → (ℕ → σ → σ) → σ → σ
  | 0, _, s => s
  | n + 1, f, s => f (lo + n) (forRange lo n f s)

/-- `enum BlockKind` (block-kind.hpp:21-32) -/
inductive BlockKind where
  | zero | diag | triL | triU | dense
  deriving DecidableEq, Repr

namespace BlockKind

/-- the integer value of the enumerator (block-kind.hpp:21-32) -/
def toNat : BlockKind → ℕ
  | zero => 0
  | diag => 1
  | triL => 2
  | triU => 3
  | dense => 4

/-- `trans` (block-kind.cpp:14-27) -/
def trans : BlockKind → BlockKind
  | triL => triU
  | triU => triL
  | a => a

/-- `add` (block-kind.cpp:30-35); `std::max(a, b)` is `(a < b) ? b : a` on the enumerator values. -/
def add (a b : BlockKind) : BlockKind :=
  if a = dense ∨ b = dense ∨ a.toNat + b.toNat = triL.toNat + triU.toNat then dense
  else if a.toNat < b.toNat then b else a

/-- `mul` (block-kind.cpp:38-43) -/
def mul (a b : BlockKind) : BlockKind := if a = zero ∨ b = zero then zero else add a b

end BlockKind

open BlockKind

/-- `struct SymbolicBlockMatrix` (block-kind.hpp:48-56) -/
structure Sym where
  n : ℕ
  lens : ℕ → ℕ
  kinds : ℕ → ℕ → BlockKind
  performed : Bool

/-- write to an entry `self(i, j) = k` (block-kind.hpp:103-107, the writes of
src/block-kind.cpp:148-230) -/
def setKind (K : ℕ → ℕ → BlockKind) (i j : ℕ) (k : BlockKind) : ℕ → ℕ → BlockKind :=
  fun a b => if a = i ∧ b = j then k else K a b

/-- the kind of `L(i, 0)` below a dense pivot, from that of `A(i, 0)` (block-kind.cpp:172-185) -/
def lltBelowDense : BlockKind → BlockKind
  | zero => triU
  | diag => triU
  | triL => dense
  | triU => triU
  | dense => dense

/-- the part of `llt_in_place` before the update of `l11` (block-kind.cpp:160-192): row 0 is zeroed right of the pivot,
column 0 gets the kinds of the factor; `none` is the early `return false` -/
def lltColumn (n : ℕ) (K : ℕ → ℕ → BlockKind) : Option (ℕ → ℕ → BlockKind) :=
  let K := forRange 1 (n - 1) (fun j K => setKind K 0 j zero) K
  match K 0 0 with
  | triL => none
  | triU => none
  | zero => none
  | dense => some (forRange 1 (n - 1) (fun i K => setKind K i 0 (lltBelowDense (K i 0))) (setKind K 0 0 triL))
  | diag => some K

/-- the update of `l11` (block-kind.cpp:194-207) -/
def lltUpdate (n : ℕ) (K : ℕ → ℕ → BlockKind) : ℕ → ℕ → BlockKind :=
  forRange 1 (n - 1) (fun i K =>
    forRange (i + 1) (n - (i + 1)) (fun j K =>
      let K := setKind K i j (add (K i j) (mul (K i 0) (trans (K j 0))))
      setKind K j i (trans (K i j)))
      (setKind K i i (add (K i i) (mul (K i 0) (trans (K i 0)))))) K

/-- `llt_in_place` (block-kind.cpp:148-212) on the kinds of a view with `n` segments: the returned flag and the kinds
afterwards. The recursive call works on the view `submatrix(1, n - 1)` of the same data. -/
def llt : ℕ → (ℕ → ℕ → BlockKind) → Bool × (ℕ → ℕ → BlockKind)
  | 0, K => (true, K)
  | n + 1, K =>
    match lltColumn (n + 1) K with
    | none => (false, forRange 1 n (fun j K => setKind K 0 j zero) K)
    | some K =>
      let K := lltUpdate (n + 1) K
      let r := llt n fun i j => K (i + 1) (j + 1)
      (r.1, fun i j => if 1 ≤ i ∧ 1 ≤ j ∧ i < n + 1 ∧ j < n + 1 then r.2 (i - 1) (j - 1) else K i j)

/-- `performed_llt` after `llt_in_place` (block-kind.cpp:150-153, 161-166, 210-211): untouched by the early `return false` at
the first pivot, else the returned flag. -/
def lltInPlace (s : Sym) : Bool × Sym :=
  let r := llt s.n s.kinds
  (r.1, { s with kinds := r.2, performed := if s.n ≠ 0 ∧ (lltColumn s.n s.kinds).isNone then s.performed else r.1 })

/-- `symbolic_deep_copy(in, out, perm)` (block-kind.cpp:59-76); `perm = nullptr` is the identity; entries of `out` beyond its
size are kept. -/
def symCopy (inp out : Sym) (perm : ℕ → ℕ) : Sym :=
  { n := out.n
    lens := fun i => if i < out.n then inp.lens (perm i) else out.lens i
    kinds := fun i j => if i < out.n ∧ j < out.n then inp.kinds (perm i) (perm j) else out.kinds i j
    performed := inp.performed }

/-- entry of `count_nnz` (block-kind.cpp:126-143) -/
def nnzOf (k : BlockKind) (li lj : ℕ) : ℕ :=
  match k with
  | zero => 0
  | diag => li
  | triL => li * (li + 1) / 2
  | triU => li * (li + 1) / 2
  | dense => li * lj

/-- `count_nnz` (block-kind.cpp:119-146) -/
def countNnz (s : Sym) : ℕ :=
  forRange 0 s.n (fun i acc => forRange 0 s.n (fun j acc => acc + nnzOf (s.kinds i j) (s.lens i) (s.lens j)) acc) 0

/-- `check_if_symmetric` (block-kind.cpp:106-117) -/
def checkIfSymmetric (s : Sym) : Bool :=
  forRange 0 s.n (fun i acc => forRange 0 i (fun j acc => acc && decide (s.kinds i j = s.kinds j i)) acc) true

/-- `transpose` (block-kind.hpp:124-133) -/
def Sym.transpose (s : Sym) : Sym := { s with kinds := fun i j => if i < s.n ∧ j < s.n then trans (s.kinds j i) else s.kinds i j }

/-- `std::next_permutation` on a range (C++ standard library): the next arrangement in lexicographic order and `true`, or the
sorted range and `false` if there is none. Written recursively: if the tail has no next arrangement it is returned sorted,
and the first element is exchanged with the first larger element of the sorted tail. Called in
src/block-kind.cpp:102. -/
def nextPerm : List ℕ → Bool × List ℕ
  | [] => (false, [])
  | a :: l =>
    match nextPerm l with
    | (true, l') => (true, a :: l')
    | (false, l') =>
      match l'.dropWhile (· ≤ a) with
      | [] => (false, l' ++ [a])
      | x :: post => (true, x :: (l'.takeWhile (· ≤ a) ++ a :: post))

/-- access to the index array (the argument `iwork` of src/block-kind.cpp:78-104) -/
def permFn (p : List ℕ) : ℕ → ℕ := fun i => p.getD i 0

/-- Result of the search. Locals of src/block-kind.cpp:78-104. -/
structure BruteState where
  self : Sym
  best : List ℕ
  bestNnz : ℕ
  first : Bool

/-- One pass of the `do` body (block-kind.cpp:87-101): `none` is `return NumericalIssue`, with the object and `best_perm` at
that point. -/
def bruteBody (inp : Sym) (iwork : List ℕ) (st : BruteState) : Bool × BruteState :=
  let self := { symCopy inp st.self (permFn iwork) with performed := false }
  let r := lltInPlace self
  if r.1 then
    let nnz := countNnz r.2
    if st.first ∨ nnz < st.bestNnz then (true, { self := r.2, best := iwork, bestNnz := nnz, first := false })
    else (true, { st with self := r.2, first := false })
  else (false, { st with self := r.2 })

/-- The `do ... while (next_permutation)` loop (block-kind.cpp:86-103), with fuel; `none`: fuel exhausted; the Boolean is
`Success`. -/
def bruteLoop (inp : Sym) : ℕ → List ℕ → BruteState → Option (Bool × BruteState)
  | 0, _, _ => none
  | fuel + 1, iwork, st =>
    match bruteBody inp iwork st with
    | (false, st) => some (false, st)
    | (true, st) =>
      match nextPerm iwork with
      | (true, iwork) => bruteLoop inp fuel iwork st
      | (false, _) => some (true, st)

/-- `brute_force_best_permutation` (block-kind.cpp:78-104) called on `self`, with the initial content of `best_perm`. -/
def bruteForce (fuel : ℕ) (self inp : Sym) (best : List ℕ) : Option (Bool × BruteState) :=
  bruteLoop inp fuel (List.range inp.n) { self, best, bestNnz := 0, first := true }

/-! ### Pattern analysis in `BlockLDLT` -/

/-- The analysis part of a `BlockLDLT` object (block-ldlt.hpp:212-221): structure, its transpose, scalar permutation indices,
block permutation. -/
structure BlockAnalysis where
  struct : Sym
  structTr : Sym
  indices : List ℕ
  perm : List ℕ

/-- the constructor (block-ldlt.hpp:228-235) -/
def BlockAnalysis.init (size : ℕ) (s : Sym) : BlockAnalysis :=
  { struct := symCopy s s id, structTr := (symCopy s s id).transpose, indices := List.range size, perm := List.range s.n }

/-- `analyzePattern` (block-ldlt.hxx:35-41) -/
def analyzePattern (a : BlockAnalysis) : Bool × BlockAnalysis :=
  if a.struct.performed then (true, a)
  else
    let r := lltInPlace a.struct
    (r.1, { a with struct := r.2, structTr := r.2.transpose })

/-- `computeStartIndices` (block-ldlt.hpp:249-254): `start[i]`, by the running sum; for an empty structure the C++ loop bound
underflows (undefined), see `updateIndices`. -/
def blockStart (s : Sym) (i : ℕ) : ℕ := forRange 0 i (fun k acc => acc + s.lens k) 0

/-- `updateBlockPermutationMatrix(init)` (block-ldlt.hxx:43-58): `none` is undefined behaviour (no block). -/
def updateIndices (perm : List ℕ) (init : Sym) : Option (List ℕ) :=
  if init.n = 0 then none
  else some ((perm.map fun j => List.range' (blockStart init j) (init.lens j)).flatten)

/-- the writes of `updateBlockPermutationMatrix` into the indices of the permutation matrix (block-ldlt.hxx:46, 54), which keep the size
given to the constructor: `none` is undefined behaviour (a write beyond their end). -/
def putIndices (old new : List ℕ) : Option (List ℕ) :=
  if new.length ≤ old.length then some (new ++ old.drop new.length) else none

/-- `setBlockPermutation(new_perm)` (block-ldlt.hxx:13-23). -/
def setBlockPermutation (a : BlockAnalysis) (newPerm : Option (List ℕ)) : Option BlockAnalysis := do
  let inp := symCopy a.struct a.struct id
  let perm := newPerm.getD a.perm
  let a := { a with perm, struct := symCopy inp { a.struct with performed := false } (permFn perm) }
  let a := (analyzePattern a).2
  let indices ← (updateIndices a.perm inp).bind (putIndices a.indices)
  pure { a with indices }

/-- `findSparsifyingPermutation()` (block-ldlt.hxx:25-33). -/
def findSparsifyingPermutation (fuel : ℕ) (a : BlockAnalysis) : Option BlockAnalysis := do
  let inp := symCopy a.struct a.struct id
  let (_, st) ← bruteForce fuel a.struct inp a.perm
  let a := { a with perm := st.best, struct := symCopy inp st.self (permFn st.best) }
  let a := (analyzePattern a).2
  let indices ← (updateIndices a.perm inp).bind (putIndices a.indices)
  pure { a with indices }

/-! ### Default structure -/

/-- `create_default_block_structure(dims_primal, dims_dual)` (ldlt-allocator.hpp:46-93); entries never written start from
`garbage`. -/
def defaultStructure (garbage : ℕ → ℕ → BlockKind) (primal dual : List ℕ) : Sym :=
  let np := primal.length
  let nb := primal.length + dual.length
  let K := forRange 0 np (fun i K => forRange 0 np (fun j K => setKind K i j dense) K) garbage
  let K := forRange 0 np (fun i K => forRange np (nb - np) (fun j K => setKind (setKind K i j dense) j i dense) K) K
  let K := forRange np (nb - np) (fun i K =>
    forRange np (nb - np) (fun j K => if i ≠ j then setKind K i j zero else K) (setKind K i i diag)) K
  { n := nb, lens := fun i => if i < np then primal.getD i 0 else dual.getD (i - np) 0, kinds := K, performed := false }

/-- `get_total_dim_helper` (ldlt-allocator.hpp:95-99) -/
def totalDim (primal dual : List ℕ) : ℕ := primal.foldl (· + ·) 0 + dual.foldl (· + ·) 0

/-- The `BLOCKSPARSE` case of `allocate_ldlt_from_sizes` (ldlt-allocator.hpp:113-119). -/
def allocateBlockSparse (fuel : ℕ) (garbage : ℕ → ℕ → BlockKind) (primal dual : List ℕ) : Option BlockAnalysis :=
  findSparsifyingPermutation fuel (BlockAnalysis.init (totalDim primal dual) (defaultStructure garbage primal dual))

end ProxNLP
