import Verif.Model.BlockKind

/-!
The arrays behind `SymbolicBlockMatrix` (include/proxsuite-nlp/linalg/block-kind.hpp, src/block-kind.cpp): `m_data` and `segment_lens` as
memory, with the index arithmetic, and `submatrix` as a view of the same memory. In `Model/BlockKind.lean` the same functions are modelled
on functions of two indices.

Entries are `none` before they are first written (`new BlockKind[...]` does not initialise). Every function returns `none` if it reads such
an entry or accesses memory beyond the end of an array. Arrays of different objects are different. `isize` is `ℕ`.
-/

namespace ProxNLP

open BlockKind

/-- A `SymbolicBlockMatrix`: the arrays, and where the object begins in them (`m_data`, `segment_lens` are pointers; for a view they point
into the arrays of another object). block-kind.hpp:48-56 -/
structure SymStore where
  data : List (Option BlockKind)
  lensArr : List (Option ℕ)
  off : ℕ
  lo : ℕ
  n : ℕ
  os : ℕ
  performed : Bool
  deriving DecidableEq, Repr

/-- `for (i = lo; i < lo + n; ++i) body`, with undefined behaviour. Loops of src/block-kind.cpp:59-212 -/
def forRangeM {σ : Type} (lo : ℕ) : ℕ → (ℕ → σ → Option σ) → σ → Option σ
  | 0, _, s => some s
  | n + 1, f, s => (forRangeM lo n f s).bind (f (lo + n))

namespace SymStore

/-- `ptr(i, j)`. block-kind.hpp:92-97 -/
def addr (s : SymStore) (i j : ℕ) : ℕ := s.off + (i + j * s.os)

/-- `self(i, j)`, read. block-kind.hpp:103-107 -/
def get (s : SymStore) (i j : ℕ) : Option BlockKind := s.data[s.addr i j]?.join

/-- `self(i, j) = k`. block-kind.hpp:103-107 -/
def set (s : SymStore) (i j : ℕ) (k : BlockKind) : Option SymStore :=
  if s.addr i j < s.data.length then some { s with data := s.data.set (s.addr i j) (some k) } else none

/-- `segment_lens[i]`, read. block-kind.hpp:50 -/
def len (s : SymStore) (i : ℕ) : Option ℕ := s.lensArr[s.lo + i]?.join

/-- `segment_lens[i] = v`. block-kind.hpp:50 -/
def setLen (s : SymStore) (i v : ℕ) : Option SymStore :=
  if s.lo + i < s.lensArr.length then some { s with lensArr := s.lensArr.set (s.lo + i) (some v) } else none

/-- The allocating constructor `SymbolicBlockMatrix(nc, os)`. block-kind.hpp:58-69 -/
def alloc (nc os : ℕ) : SymStore :=
  { data := List.replicate (nc * os) none, lensArr := List.replicate nc none, off := 0, lo := 0, n := nc, os := os, performed := false }

/-- The constructor from segment lengths: everything dense. block-kind.hpp:77-85 -/
def ofLens (lens : List ℕ) : SymStore :=
  { data := List.replicate (lens.length * lens.length) (some dense), lensArr := lens.map some, off := 0, lo := 0, n := lens.length,
    os := lens.length, performed := false }

/-- `submatrix(i, n)`: a view. block-kind.cpp:47-51 -/
def submatrix (s : SymStore) (i n : ℕ) : SymStore := { s with off := s.addr i i, lo := s.lo + i, n := n }

/-- `(perm != nullptr) ? perm[i] : i`. block-kind.cpp:64, 68-72 -/
def permAt : Option (ℕ → Option ℕ) → ℕ → Option ℕ
  | some f, i => f i
  | none, i => some i

/-- `symbolic_deep_copy(in, out, perm)`; `perm = none` is the null pointer. block-kind.cpp:59-76 -/
def deepCopy (inp out : SymStore) (perm : Option (ℕ → Option ℕ)) : Option SymStore :=
  let p := permAt perm
  (forRangeM 0 out.n (fun i s => (p i).bind fun pi => (inp.len pi).bind fun l => s.setLen i l) out).bind fun s1 =>
    (forRangeM 0 out.n (fun i s => forRangeM 0 out.n (fun j s => (p i).bind fun pi => (p j).bind fun pj =>
        (inp.get pi pj).bind fun k => s.set i j k) s) s1).bind fun s2 => some { s2 with performed := inp.performed }

/-- `copy()`. block-kind.cpp:53-57 -/
def copy (s : SymStore) : Option SymStore := deepCopy s (alloc s.n s.os) none

/-- `transpose()`. block-kind.hpp:124-133 -/
def transpose (s : SymStore) : Option SymStore :=
  s.copy.bind fun out => forRangeM 0 s.n (fun i o => forRangeM 0 s.n (fun j o => (s.get j i).bind fun k => o.set i j (trans k)) o) out

/-- `check_if_symmetric()`. The code returns at the first difference; here all pairs are read. block-kind.cpp:106-117 -/
def checkIfSymmetric (s : SymStore) : Option Bool :=
  forRangeM 0 s.n (fun i acc => forRangeM 0 i (fun j acc => (s.get i j).bind fun a => (s.get j i).bind fun b => some (acc && decide (a = b))) acc)
    true

/-- `count_nnz()`. block-kind.cpp:119-146 -/
def countNnz (s : SymStore) : Option ℕ :=
  forRangeM 0 s.n (fun i acc => forRangeM 0 s.n (fun j acc => (s.get i j).bind fun k => (s.len i).bind fun li => (s.len j).bind fun lj =>
    some (acc + nnzOf k li lj)) acc) 0

/-- Zeros right of the first pivot, `llt_in_place`. block-kind.cpp:159-162 -/
def lltRow (s : SymStore) : Option SymStore := forRangeM 1 (s.n - 1) (fun j s => s.set 0 j zero) s

/-- The first column of the factor below a dense pivot, `llt_in_place`. block-kind.cpp:169-187 -/
def lltDense (s : SymStore) : Option SymStore :=
  (s.set 0 0 triL).bind fun s => forRangeM 1 (s.n - 1) (fun i s => (s.get i 0).bind fun k => s.set i 0 (lltBelowDense k)) s

/-- The update of `l11`, `llt_in_place`. block-kind.cpp:194-207 -/
def lltUpdate (s : SymStore) : Option SymStore :=
  forRangeM 1 (s.n - 1) (fun i s => (s.get i i).bind fun a => (s.get i 0).bind fun b => (s.set i i (add a (mul b (trans b)))).bind fun s =>
    forRangeM (i + 1) (s.n - (i + 1)) (fun j s => (s.get i j).bind fun a => (s.get i 0).bind fun b => (s.get j 0).bind fun c =>
      (s.set i j (add a (mul b (trans c)))).bind fun s => (s.get i j).bind fun d => s.set j i (trans d)) s) s

/-- `llt_in_place()` on the view; the recursive call works on `submatrix(1, n - 1)`, whose own flag is not used further. The number of
segments is also the recursion depth. block-kind.cpp:148-212 -/
def llt (m : ℕ) (s : SymStore) : Option (Bool × SymStore) :=
  match m with
  | 0 => some (true, { s with performed := true })
  | m + 1 => s.lltRow.bind fun s => (s.get 0 0).bind fun p =>
    match p with
    | triL => some (false, s)
    | triU => some (false, s)
    | zero => some (false, s)
    | dense => s.lltDense.bind fun s => s.lltUpdate.bind fun s => (llt m (s.submatrix 1 m)).bind fun r =>
        some (r.1, { s with data := r.2.data, performed := r.1 })
    | diag => s.lltUpdate.bind fun s => (llt m (s.submatrix 1 m)).bind fun r => some (r.1, { s with data := r.2.data, performed := r.1 })

/-- `llt_in_place()`. block-kind.cpp:148-212 -/
def lltInPlace (s : SymStore) : Option (Bool × SymStore) := llt s.n s

end SymStore

/-- Locals of the search. block-kind.cpp:78-104 -/
structure StoreSearch where
  self : SymStore
  best : List ℕ
  bestNnz : ℕ
  first : Bool

/-- One pass of the `do` body. block-kind.cpp:87-101 -/
def storeBody (inp : SymStore) (iwork : List ℕ) (st : StoreSearch) : Option (Bool × StoreSearch) :=
  (SymStore.deepCopy inp st.self (some fun i => iwork[i]?)).bind fun self =>
    (SymStore.lltInPlace { self with performed := false }).bind fun r =>
      if r.1 then r.2.countNnz.bind fun nnz =>
        if st.first ∨ nnz < st.bestNnz then some (true, { self := r.2, best := iwork, bestNnz := nnz, first := false })
        else some (true, { st with self := r.2, first := false })
      else some (false, { st with self := r.2 })

/-- The loop over the permutations. The inner `none` means that the fuel is used up. block-kind.cpp:86-103 -/
def storeLoop (inp : SymStore) : ℕ → List ℕ → StoreSearch → Option (Option (Bool × StoreSearch))
  | 0, _, _ => some none
  | fuel + 1, iwork, st => (storeBody inp iwork st).bind fun r =>
    match r with
    | (false, st) => some (some (false, st))
    | (true, st) =>
      match nextPerm iwork with
      | (true, iwork) => storeLoop inp fuel iwork st
      | (false, _) => some (some (true, st))

/-- `brute_force_best_permutation`. block-kind.cpp:78-104 -/
def storeSearch (fuel : ℕ) (self inp : SymStore) (best : List ℕ) : Option (Option (Bool × StoreSearch)) :=
  storeLoop inp fuel (List.range inp.n) { self, best, bestNnz := 0, first := true }

/-- `create_default_block_structure(dims_primal, dims_dual)`. ldlt-allocator.hpp:46-93 -/
def defaultStore (primal dual : List ℕ) : Option SymStore :=
  let np := primal.length
  let nb := primal.length + dual.length
  (forRangeM 0 np (fun i s => primal[i]?.bind fun l => s.setLen i l) (SymStore.alloc nb nb)).bind fun s =>
  (forRangeM 0 dual.length (fun i s => dual[i]?.bind fun l => s.setLen (i + np) l) s).bind fun s =>
  (forRangeM 0 np (fun i s => forRangeM 0 np (fun j s => s.set i j dense) s) s).bind fun s =>
  (forRangeM 0 np (fun i s => forRangeM np (nb - np) (fun j s => (s.set i j dense).bind fun s => s.set j i dense) s) s).bind fun s =>
  forRangeM np (nb - np) (fun i s => (s.set i i diag).bind fun s =>
    forRangeM np (nb - np) (fun j s => if i ≠ j then s.set i j zero else some s) s) s

/-- The structure members of a `BlockLDLT` object. block-ldlt.hpp:212-221 -/
structure StoreAnalysis where
  struct : SymStore
  structTr : SymStore
  perm : List ℕ

/-- The structure members in the `BLOCKSPARSE` case of `allocate_ldlt_from_sizes`: the default structure, the constructor, and
`findSparsifyingPermutation` with `analyzePattern`. The inner `none` means that the fuel is used up. `m_struct_tr` of the constructor is
overwritten unless the copied structure is already marked as analysed. ldlt-allocator.hpp:113-119, block-ldlt.hpp:228-235,
block-ldlt.hxx:25-41 -/
def storeAllocate (fuel : ℕ) (primal dual : List ℕ) : Option (Option StoreAnalysis) :=
  (defaultStore primal dual).bind fun s0 => s0.copy.bind fun m => m.transpose.bind fun tr => m.copy.bind fun inp =>
    (storeSearch fuel m inp (List.range m.n)).bind fun r =>
      match r with
      | none => some none
      | some (_, st) => (SymStore.deepCopy inp st.self (some fun i => st.best[i]?)).bind fun m =>
        if m.performed then some (some { struct := m, structTr := tr, perm := st.best })
        else m.lltInPlace.bind fun q => q.2.transpose.bind fun tr => some (some { struct := q.2, structTr := tr, perm := st.best })

/-! ### Printing -/

/-- `Eigen::Matrix<bool, -1, -1> buf(n, n)`; `none` is an access out of its range. block-kind.cpp:222-225 -/
structure BoolBuf where
  n : ℕ
  at' : ℕ → ℕ → Bool

/-- `buf(r, c) = true`. block-kind.cpp:243, 251 -/
def BoolBuf.mark (b : BoolBuf) (r c : ℕ) : Option BoolBuf :=
  if r < b.n ∧ c < b.n then some { b with at' := fun r' c' => if r' = r ∧ c' = c then true else b.at' r' c' } else none

/-- One block of the picture, its upper left corner at `(hr, hc)`. `buf.block(...)` must lie in the matrix, and its diagonal has as many
entries as the smaller side. block-kind.cpp:231-262 -/
def printBlock (k : BlockKind) (hr hc li lj : ℕ) (b : BoolBuf) : Option BoolBuf :=
  match k with
  | zero => some b
  | diag => if hr + li ≤ b.n ∧ hc + lj ≤ b.n then forRangeM 0 (min li lj) (fun t b => b.mark (hr + t) (hc + t)) b else none
  | triL => forRangeM 0 li (fun ii b => forRangeM 0 (ii + 1) (fun jj b => b.mark (hr + ii) (hc + jj)) b) b
  | triU => forRangeM 0 li (fun ii b => forRangeM ii (lj - ii) (fun jj b => b.mark (hr + ii) (hc + jj)) b) b
  | dense => if hr + li ≤ b.n ∧ hc + lj ≤ b.n then
      forRangeM 0 li (fun ii b => forRangeM 0 lj (fun jj b => b.mark (hr + ii) (hc + jj)) b) b else none

/-- The buffer of `print_sparsity_pattern`; the states of the loops carry `handled_rows` and `handled_cols`. block-kind.cpp:216-266 -/
def printBuffer (s : SymStore) : Option BoolBuf :=
  (forRangeM 0 s.n (fun i acc => (s.len i).bind fun l => some (acc + l)) 0).bind fun nrows =>
    (forRangeM 0 s.n (fun i (st : BoolBuf × ℕ) => (s.len i).bind fun li =>
      (forRangeM 0 s.n (fun j (st' : BoolBuf × ℕ) => (s.get i j).bind fun k => (s.len j).bind fun lj =>
        (printBlock k st.2 st'.2 li lj st'.1).bind fun b => some (b, st'.2 + lj)) (st.1, 0)).bind fun r => some (r.1, st.2 + li))
      (⟨nrows, fun _ _ => false⟩, 0)).bind fun r => some r.1

/-- The lines printed by `print_sparsity_pattern`. block-kind.cpp:268-277 -/
def printSparsityPattern (s : SymStore) : Option String :=
  (printBuffer s).bind fun b =>
    some (String.join ((List.range b.n).map fun i => String.join ((List.range b.n).map fun j => if b.at' i j then "██" else "░░") ++ "\n"))

end ProxNLP
