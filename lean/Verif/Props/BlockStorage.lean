import Verif.Lemmas.BlockStorageSearch
import Verif.Lemmas.BlockPrint
import Verif.Props.Permutation

/-! Property theorems for C121 and C122: the arrays behind block structures, and the printed picture of a pattern. -/

namespace ProxNLP

open BlockKind Spec

namespace Demo

/-- Three blocks of sizes 2, 1, 2: a dense one, bordered by dense blocks, and diagonal blocks. -/
def storedSym : Sym :=
  { n := 3, lens := fun i => if i = 1 then 1 else 2, kinds := fun i j => if i = 0 ∨ j = 0 then dense else if i = j then diag else zero,
    performed := false }

/-- The same structure in an array with rows of length 5, from address 6 on. -/
def stored : SymStore :=
  { data := List.replicate 6 none ++ [some dense, some dense, some dense, none, some triL, some dense, some diag, some zero, none, none,
      some dense, some zero, some diag, none], lensArr := [none, some 2, some 1, some 2], off := 6, lo := 1, n := 3, os := 5, performed := false }

theorem stored_holds : Holds stored storedSym := by
  refine ⟨rfl, rfl, by decide, ?_, ?_⟩
  · show ∀ i < 3, _
    decide
  · show ∀ i < 3, ∀ j < 3, _
    decide

end Demo

/-! ### C121 -/

/-- **C121, factorising**: on arrays that hold a structure the symbolic factorisation reads no uninitialised entry and accesses nothing
outside the arrays. It returns the answer of the analysis of the structure, the arrays hold its result, and nothing outside the entries of
the object is changed. -/
theorem C121_factorise {s : SymStore} {a : Sym} (h : Holds s a) :
    ∃ s', s.lltInPlace = some ((lltInPlace a).1, s') ∧ Holds s' (lltInPlace a).2 ∧ Inside s s' := lltInPlace_store h

example : (Demo.stored.lltInPlace).map (fun r => (r.1, r.2.get 0 0, r.2.get 2 1, r.2.data[10]?)) = some (true, some triL, some dense, some (some triL)) := by
  decide

/-- **C121, copying**: a deep copy with a permutation into arrays with room reads and writes inside of the arrays only, and the copy holds the
permuted structure. -/
theorem C121_copy_permuted {inp out : SymStore} {a : Sym} (h : Holds inp a) (hr : Room out) (hn : out.n = inp.n) {p : List ℕ}
    (hp : p.Perm (List.range inp.n)) :
    ∃ s', SymStore.deepCopy inp out (some fun i => p[i]?) = some s' ∧ Inside out s' ∧
      Holds s' { n := a.n, lens := fun i => a.lens (p.getD i 0), kinds := fun i j => a.kinds (p.getD i 0) (p.getD j 0), performed := a.performed } := by
  obtain ⟨s', e, h', hin⟩ := deepCopy_store h hr (some fun i => p[i]?) (permFn p)
    (fun i hi => (permFn_get hp (hn ▸ hi)).1) (fun i hi => (permFn_get hp (hn ▸ hi)).2) a (by rw [hn, h.count])
  refine ⟨s', e, hin, h'.congr rfl rfl (fun i hi => ?_) (fun i hi j hj => ?_)⟩
  · exact if_pos hi
  · exact if_pos ⟨hi, hj⟩

example : (SymStore.deepCopy Demo.stored (SymStore.alloc 3 4) (some fun i => [2, 0, 1][i]?)).map
    (fun s => ((s.get 0 0, s.get 1 1, s.get 2 0), (s.len 2, s.data[3]?))) =
    some ((some diag, some dense, some zero), (some 1, some none)) := by decide +kernel

/-- **C121, deep copy**: a copy holds the same structure, in arrays of its own. -/
theorem C121_copy {s : SymStore} {a : Sym} (h : Holds s a) :
    ∃ s', s.copy = some s' ∧ Holds s' a ∧ s'.off = 0 ∧ s'.os = s.os := by
  obtain ⟨s', e, h', _, hos, hoff⟩ := copy_store h
  exact ⟨s', e, h', hoff, hos⟩

/-- **C121, transposing**: the result holds the transposed structure. -/
theorem C121_transpose {s : SymStore} {a : Sym} (h : Holds s a) :
    ∃ s', s.transpose = some s' ∧
      Holds s' { n := a.n, lens := a.lens, kinds := fun i j => trans (a.kinds j i), performed := a.performed } := by
  obtain ⟨s', e, h'⟩ := transpose_store h
  exact ⟨s', e, h'.congr rfl rfl (fun _ _ => rfl) fun i hi j hj => if_pos ⟨hi, hj⟩⟩

/-- **C121, reading**: the nonzero count and the symmetry check read inside of the arrays only and answer as for the structure held. -/
theorem C121_read {s : SymStore} {a : Sym} (h : Holds s a) :
    s.countNnz = some (countNnz a) ∧ s.checkIfSymmetric = some (checkIfSymmetric a) :=
  ⟨countNnz_store h, checkIfSymmetric_store h⟩

example : Demo.stored.countNnz = some 19 ∧ Demo.stored.checkIfSymmetric = some true := by decide

/-- **C121, views**: a view inside of an object holds that part of its structure, and what a call does inside of the view appears in that
part of the object and nowhere else. -/
theorem C121_view {s : SymStore} {a : Sym} (h : Holds s a) {i m : ℕ} (him : i + m ≤ s.n) :
    Holds (s.submatrix i m) (part a i m) ∧
    ∀ (t : SymStore) (b : Sym), Inside (s.submatrix i m) t → Holds t b →
      Holds { s with data := t.data, lensArr := t.lensArr } (replacePart a i b) ∧
      Inside s { s with data := t.data, lensArr := t.lensArr } := by
  have hst := h.stride
  refine ⟨⟨rfl, h.flag, ?_, ?_, ?_⟩, ?_⟩
  · show m ≤ s.os
    omega
  · intro r hr
    have hr' : r < m := hr
    show s.lensArr[s.lo + i + r]? = _
    rw [Nat.add_assoc]
    exact h.lens (i + r) (by omega)
  · intro r hr c hc
    have hr' : r < m := hr
    have hc' : c < m := hc
    rw [sub_addr]
    exact h.kinds (i + r) (by omega) (i + c) (by omega)
  · intro t b hin ht
    obtain ⟨p1, p2, p3, p4⟩ := hin.place
    have p3' : t.n = m := p3
    have p2' : t.lo = s.lo + i := p2
    have hbn : b.n = m := by rw [← ht.count, p3']
    refine ⟨⟨h.count, h.flag, h.stride, ?_, ?_⟩, ⟨⟨rfl, rfl, rfl, rfl⟩, hin.sizes, ?_, ?_⟩⟩
    · intro r hr
      have hr' : r < s.n := hr
      show t.lensArr[s.lo + r]? = some (some (if i ≤ r ∧ r < i + b.n then b.lens (r - i) else a.lens r))
      by_cases hc : i ≤ r ∧ r < i + b.n
      · rw [if_pos hc, ← ht.lens (r - i) (by omega), p2', show s.lo + i + (r - i) = s.lo + r by omega]
      · rw [if_neg hc, hin.lens (s.lo + r) (fun x hx e => ?_)]
        · exact h.lens r hr'
        · have hx' : x < m := hx
          have e' : s.lo + r = s.lo + i + x := e
          omega
    · intro r hr c hcn
      have hr' : r < s.n := hr
      have hc' : c < s.n := hcn
      show t.data[s.off + (r + c * s.os)]? =
        some (some (if (i ≤ r ∧ r < i + b.n) ∧ (i ≤ c ∧ c < i + b.n) then b.kinds (r - i) (c - i) else a.kinds r c))
      by_cases hc : (i ≤ r ∧ r < i + b.n) ∧ (i ≤ c ∧ c < i + b.n)
      · rw [if_pos hc, ← ht.kinds (r - i) (by omega) (c - i) (by omega), p1, p4, sub_addr, Nat.add_sub_cancel' hc.1.1,
          Nat.add_sub_cancel' hc.2.1]
      · rw [if_neg hc, hin.data _ (fun x hx y hy e => ?_)]
        · exact h.kinds r hr' c hc'
        · have hx' : x < m := hx
          have hy' : y < m := hy
          rw [sub_addr] at e
          have := addr_inj (os := s.os) (i := r) (j := c) (i' := i + x) (j' := i + y) (by omega) (by omega) (by omega)
          exact hc (by omega)
    · intro x hx
      refine hin.data x fun r hr c hc e => ?_
      have hr' : r < m := hr
      have hc' : c < m := hc
      rw [sub_addr] at e
      exact hx (i + r) (by omega) (i + c) (by omega) e
    · intro x hx
      refine hin.lens x fun r hr e => ?_
      have hr' : r < m := hr
      have e' : x = s.lo + i + r := e
      exact hx (i + r) (by omega) (by omega)

/-- Factorising the view of the last two blocks leaves the first row and column alone. -/
example : ((Demo.stored.submatrix 1 2).lltInPlace).map (fun r => (r.1, ({ Demo.stored with data := r.2.data } : SymStore).get 0 1,
    ({ Demo.stored with data := r.2.data } : SymStore).get 1 1)) = some (true, some dense, some diag) := by decide

/-- **C121, construction**: a structure made from segment lengths holds dense blocks of these sizes. -/
theorem C121_constructed (lens : List ℕ) :
    Holds (SymStore.ofLens lens) { n := lens.length, lens := fun i => lens.getD i 0, kinds := fun _ _ => dense, performed := false } := by
  refine ⟨rfl, rfl, Nat.le_refl _, fun i hi => ?_, fun i hi j hj => ?_⟩
  · have hi' : i < lens.length := hi
    show (lens.map some)[0 + i]? = some (some (lens.getD i 0))
    rw [Nat.zero_add, List.getElem?_map, List.getElem?_eq_getElem hi', List.getD_eq_getElem _ _ hi']
    rfl
  · have hi' : i < lens.length := hi
    have hj' : j < lens.length := hj
    show (List.replicate (lens.length * lens.length) (some dense))[0 + (i + j * lens.length)]? = _
    rw [List.getElem?_replicate, if_pos]
    calc 0 + (i + j * lens.length) < lens.length + j * lens.length := by omega
      _ = (j + 1) * lens.length := by ring
      _ ≤ lens.length * lens.length := Nat.mul_le_mul_right _ hj'

/-- **C121, default structure**: every entry of the freshly allocated arrays is written, inside of them, and the structure held is the
default one. -/
theorem C121_default (primal dual : List ℕ) :
    ∃ s, defaultStore primal dual = some s ∧ ∀ g, Holds s (defaultStructure g primal dual) := defaultStore_holds primal dual

example : (defaultStore [2] [1, 3]).map (fun s => (s.get 0 0, s.get 1 2, s.get 2 2, s.len 2)) =
    some (some dense, some zero, some diag, some 3) := by decide

/-- **C121, search**: the search of a block order accesses the arrays inside their bounds in every pass, and finds the order and the pattern
that the search on structures finds. -/
theorem C121_search {self inp : SymStore} {a b : Sym} (h : Holds inp a) (hs : Holds self b) (hn : self.n = inp.n) (best : List ℕ) {fuel : ℕ}
    {ok : Bool} {bt : BruteState} (hb : bruteForce fuel b a best = some (ok, bt)) :
    ∃ st, storeSearch fuel self inp best = some (some (ok, st)) ∧ st.best = bt.best ∧ Holds st.self bt.self ∧ Inside self st.self := by
  have hs0 : SearchSim inp.n { self := self, best := best, bestNnz := 0, first := true }
      { self := b, best := best, bestNnz := 0, first := true } :=
    ⟨hs.room, ⟨hn, by rw [← hs.count, hn]⟩, rfl, rfl, rfl⟩
  obtain ⟨st, e, s', h', i', _⟩ := (storeLoop_sim h fuel (List.range inp.n) (List.Perm.refl _) _ _ hs0).2 ok bt (by
    rw [h.count]
    exact hb)
  exact ⟨st, e, s'.best, h', i'⟩

/-- **C121, allocation**: allocating the block-sparse solver for any nonempty lists of block sizes makes no access outside an array and reads
no uninitialised entry. It ends with the block order of fewest nonzeros and arrays that hold a successfully analysed pattern and its
transpose. -/
theorem C121_allocation (primal dual : List ℕ) (hne : primal ≠ [] ∨ dual ≠ []) (fuel : ℕ)
    (hfuel : (primal.length + dual.length).factorial ≤ fuel) :
    ∃ sa a, storeAllocate fuel primal dual = some (some sa) ∧
      IsFirstBest (defaultStructure (fun _ _ => zero) primal dual) (fun _ => True) sa.perm ∧
      allocateBlockSparse fuel (fun _ _ => zero) primal dual = some a ∧ Holds sa.struct a.struct ∧ Holds sa.structTr a.struct.transpose ∧
      sa.struct.performed = true := by
  obtain ⟨a, h1, h2, _, _, h5, h6⟩ := C77_allocation (K := ℚ) (fun _ _ => zero) primal dual hne fuel hfuel
  obtain ⟨sa, e, hp, hS, hT⟩ := storeAllocate_sim fuel _ primal dual a h1
  refine ⟨sa, a, e, by rw [hp]; exact h2, h1, hS, by rw [← h6]; exact hT, by rw [hS.flag]; exact h5⟩

example : (storeAllocate 6 [2] [2, 1]).map (fun r => r.map fun sa => (sa.perm, sa.struct.get 1 1, sa.structTr.get 1 1)) =
    some (some ([1, 0, 2], some triL, some triU)) := by decide +kernel

/-- Rows shorter than the object (`outer_stride < segments_count`) are not noticed: two entries share one place, and the last entries are
outside the array. -/
theorem C121_stride_false :
    (((SymStore.alloc 2 1).set 0 1 dense).bind fun s => s.get 1 0) = some dense ∧
    (SymStore.alloc 2 1).set 1 1 dense = none := by decide

/-- Entries of a structure allocated by its sizes are not initialised: counting its nonzeros is undefined. -/
theorem C121_uninitialised_false : (SymStore.alloc 2 2).countNnz = none ∧ (SymStore.alloc 2 2).copy = none := by decide

/-- The indices of a permutation are not checked: an index out of range reads outside of the arrays. -/
theorem C121_index_false :
    SymStore.deepCopy (SymStore.ofLens [1, 2]) (SymStore.ofLens [1, 2]) (some fun i => [0, 2][i]?) = none := by decide

/-! ### C122 -/

/-- **C122**: the printed picture has one line per row of the matrix, and the field of row `r` of block row `i` and column `c` of block
column `j` is filled exactly when the pattern allows a nonzero there; nothing outside of the buffer is written. Partial: blocks declared
lower triangular must have no more rows than columns, see `C122_tall_false`. -/
theorem C122_picture_partial {s : SymStore} {a : Sym} (h : Holds s a) (htri : ∀ i < a.n, ∀ j < a.n, a.kinds i j = triL → a.lens i ≤ a.lens j) :
    ∃ pic : ℕ → ℕ → Bool, printSparsityPattern s = some (drawing (∑ k ∈ Finset.range a.n, a.lens k) pic) ∧
      ∀ i < a.n, ∀ j < a.n, ∀ r < a.lens i, ∀ c < a.lens j,
        pic (segOffset a.lens i + r) (segOffset a.lens j + c) = true ↔ Allows (a.kinds i j) r c := by
  obtain ⟨b, e, hn, hat⟩ := printBuffer_fills h htri
  refine ⟨b.at', ?_, fun i hi j hj r hr c hc => ?_⟩
  · rw [printSparsityPattern, e]
    show some (drawing b.n b.at') = _
    rw [hn]
    rfl
  · rw [hat]
    constructor
    · rintro ⟨i', hi', j', hj', r', hr', c', hc', ha, eR, eC⟩
      obtain ⟨rfl, rfl⟩ := segOffset_unique hr hr' eR
      obtain ⟨rfl, rfl⟩ := segOffset_unique hc hc' eC
      exact ha
    · intro ha
      exact ⟨i, hi, j, hj, r, hr, c, hc, ha, rfl, rfl⟩

/-- the hypotheses are met, and the picture -/
example : (∀ i < Demo.storedSym.n, ∀ j < Demo.storedSym.n, Demo.storedSym.kinds i j = triL → Demo.storedSym.lens i ≤ Demo.storedSym.lens j) ∧
    printSparsityPattern Demo.stored = some "██████████\n██████████\n██████░░░░\n████░░██░░\n████░░░░██\n" := by
  refine ⟨?_, by decide +kernel⟩
  show ∀ i < 3, ∀ j < 3, _
  decide

namespace Demo

/-- Blocks of sizes 2 and 1, the block in row `i` and column `j` lower triangular, all others zero. -/
def tall (lens : List ℕ) (i j : ℕ) : SymStore :=
  { data := (List.range 4).map fun x => some (if x = i + j * 2 then triL else zero), lensArr := lens.map some, off := 0, lo := 0, n := 2, os := 2,
    performed := false }

end Demo

/-- **C122 is false for lower triangular blocks with more rows than columns**: such a block in the last columns is written beyond the
buffer, and in earlier columns it fills a field of its neighbour, which the pattern declares zero. -/
theorem C122_tall_false :
    printSparsityPattern (Demo.tall [2, 1] 0 1) = none ∧
    printSparsityPattern (Demo.tall [1, 2] 1 0) = some "░░░░░░\n██░░░░\n████░░\n" ∧
    (Demo.tall [1, 2] 1 0).get 1 1 = some zero := by decide +kernel

end ProxNLP
