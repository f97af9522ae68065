import Verif.Spec.Permutation
import Verif.Lemmas.NextPerm
import Verif.Props.BlockKind
import Mathlib.Data.List.GetD

/-! Property theorems for C52, C53, C54, C77: search of the block permutation, its lift to rows, histories of analysis calls,
allocation of the block solver. -/

namespace ProxNLP

set_option linter.unusedSectionVars false

open Spec BlockKind

variable {K : Type} [Field K]

theorem llt_congr (n : ℕ) (A B : ℕ → ℕ → BlockKind) (h : ∀ i < n, ∀ j < n, A i j = B i j) :
    (llt n A).1 = (llt n B).1 ∧ ∀ i < n, ∀ j < n, (llt n A).2 i j = (llt n B).2 i j := by
  induction n generalizing A B with
  | zero => exact ⟨rfl, fun i hi => by omega⟩
  | succ n ih =>
    have h00 := h 0 (by omega) 0 (by omega)
    have hcol : ∀ i < n + 1, ∀ j < n + 1, colSpec (n + 1) A i j = colSpec (n + 1) B i j := by
      intro i hi j hj
      have h1 := h i hi j hj
      have h2 := h i hi 0 (by omega)
      simp only [colSpec]
      grind
    have hupd : ∀ i < n, ∀ j < n, lltUpdateSpec (n + 1) (colSpec (n + 1) A) (i + 1) (j + 1) =
        lltUpdateSpec (n + 1) (colSpec (n + 1) B) (i + 1) (j + 1) := by
      intro i hi j hj
      simp only [lltUpdateSpec]
      rw [hcol (i + 1) (by omega) (j + 1) (by omega), hcol (j + 1) (by omega) (i + 1) (by omega),
        hcol (i + 1) (by omega) 0 (by omega), hcol (j + 1) (by omega) 0 (by omega)]
    have := ih _ _ hupd
    rw [llt_succ, llt_succ, h00]
    by_cases hp : B 0 0 = dense ∨ B 0 0 = diag
    · rw [if_pos hp, if_pos hp]
      refine ⟨this.1, fun i hi j hj => ?_⟩
      by_cases hc : 1 ≤ i ∧ 1 ≤ j ∧ i < n + 1 ∧ j < n + 1
      · simp only [hc, and_self, if_true]
        exact this.2 (i - 1) (by omega) (j - 1) (by omega)
      · simp only [hc, if_false]
        exact hcol i hi j hj
    · rw [if_neg hp, if_neg hp]
      refine ⟨rfl, fun i hi j hj => ?_⟩
      simp only [h i hi j hj]

theorem bruteBody_spec (inp : Sym) (q : List ℕ) (st : BruteState) (hn : st.self.n = inp.n) :
    (bruteBody inp q st).2.self.n = inp.n ∧
    (fillCount inp q = none → (bruteBody inp q st).1 = false ∧ (bruteBody inp q st).2.best = st.best) ∧
    (∀ c, fillCount inp q = some c → (bruteBody inp q st).1 = true ∧ (bruteBody inp q st).2.first = false ∧
      (bruteBody inp q st).2.best = (if st.first = true ∨ c < st.bestNnz then q else st.best) ∧
      (bruteBody inp q st).2.bestNnz = (if st.first = true ∨ c < st.bestNnz then c else st.bestNnz)) := by
  set s1 : Sym := { symCopy inp st.self (permFn q) with performed := false } with hs1
  have hs1n : s1.n = inp.n := hn
  have hk : ∀ i < inp.n, ∀ j < inp.n, s1.kinds i j = inp.kinds (q.getD i 0) (q.getD j 0) := by
    intro i hi j hj
    simp only [hs1, symCopy, permFn, hn]
    rw [if_pos ⟨hi, hj⟩]
  have hl : ∀ i < inp.n, s1.lens i = inp.lens (q.getD i 0) := by
    intro i hi
    simp only [hs1, symCopy, permFn, hn]
    rw [if_pos hi]
  obtain ⟨h1, h2⟩ := llt_congr inp.n s1.kinds _ hk
  have hflag : (lltInPlace s1).1 = (llt inp.n fun i j => inp.kinds (q.getD i 0) (q.getD j 0)).1 := by
    rw [← h1, ← hs1n]; rfl
  have hcount : countNnz (lltInPlace s1).2 = ∑ i ∈ Finset.range inp.n, ∑ j ∈ Finset.range inp.n,
      nnzOf ((llt inp.n fun i j => inp.kinds (q.getD i 0) (q.getD j 0)).2 i j) (inp.lens (q.getD i 0)) (inp.lens (q.getD j 0)) := by
    rw [countNnz_eq]
    have e1 : (lltInPlace s1).2.n = inp.n := hs1n
    have e2 : (lltInPlace s1).2.lens = s1.lens := rfl
    have e3 : (lltInPlace s1).2.kinds = (llt inp.n s1.kinds).2 := by rw [← hs1n]; rfl
    rw [e1, e2, e3]
    refine Finset.sum_congr rfl fun i hi => Finset.sum_congr rfl fun j hj => ?_
    rw [Finset.mem_range] at hi hj
    rw [h2 i hi j hj, hl i hi, hl j hj]
  have hbody : bruteBody inp q st = (if (lltInPlace s1).1 then
      (if st.first ∨ countNnz (lltInPlace s1).2 < st.bestNnz then
        (true, { self := (lltInPlace s1).2, best := q, bestNnz := countNnz (lltInPlace s1).2, first := false })
      else (true, { st with self := (lltInPlace s1).2, first := false }))
      else (false, { st with self := (lltInPlace s1).2 })) := rfl
  have hsn : (lltInPlace s1).2.n = inp.n := hs1n
  rw [hbody, hcount, hflag]
  unfold fillCount
  generalize (∑ i ∈ Finset.range inp.n, ∑ j ∈ Finset.range inp.n,
      nnzOf ((llt inp.n fun i j => inp.kinds (q.getD i 0) (q.getD j 0)).2 i j) (inp.lens (q.getD i 0)) (inp.lens (q.getD j 0))) = c
  generalize (llt inp.n fun i j => inp.kinds (q.getD i 0) (q.getD j 0)).1 = b
  generalize (lltInPlace s1).2 = s2 at hsn
  cases b
  · simp [hsn]
  · by_cases hc : st.first = true ∨ c < st.bestNnz
    · rw [if_pos rfl, if_pos rfl, if_pos hc]
      refine ⟨hsn, by simp, fun c' h => ?_⟩
      have := Option.some.inj h
      subst this
      rw [if_pos hc, if_pos hc]
      exact ⟨rfl, rfl, rfl, rfl⟩
    · rw [if_pos rfl, if_pos rfl, if_neg hc]
      refine ⟨hsn, by simp, fun c' h => ?_⟩
      have := Option.some.inj h
      subst this
      rw [if_neg hc, if_neg hc]
      exact ⟨rfl, rfl, rfl, rfl⟩

theorem bruteLoop_spec (inp : Sym) (fuel : ℕ) (iwork : List ℕ) (st : BruteState) (hn : st.self.n = inp.n)
    (hp : iwork.Perm (List.range inp.n)) (hfuel : remaining inp.n iwork ≤ fuel)
    (hdone : ∀ q : List ℕ, q.Perm (List.range inp.n) → q < iwork → fillCount inp q ≠ none)
    (hfirst : st.first = true ↔ iwork = List.range inp.n) (best0 : List ℕ) (hb0 : st.first = true → st.best = best0)
    (hbest : st.first = false → fillCount inp st.best = some st.bestNnz ∧ IsFirstBest inp (· < iwork) st.best) :
    ∃ ok st', bruteLoop inp fuel iwork st = some (ok, st') ∧ st'.self.n = inp.n ∧
      (ok = true → (∀ q : List ℕ, q.Perm (List.range inp.n) → fillCount inp q ≠ none) ∧
        IsFirstBest inp (fun _ => True) st'.best) ∧
      (ok = false → ∃ q0 : List ℕ, q0.Perm (List.range inp.n) ∧ fillCount inp q0 = none ∧
        (∀ q : List ℕ, q.Perm (List.range inp.n) → q < q0 → fillCount inp q ≠ none) ∧
        ((q0 = List.range inp.n ∧ st'.best = best0) ∨ (List.range inp.n < q0 ∧ IsFirstBest inp (· < q0) st'.best))) := by
  have hleast : ∀ q : List ℕ, q.Perm (List.range inp.n) → List.range inp.n ≤ q := fun q hq =>
    sorted_least _ q (List.pairwise_lt_range.imp fun h => h.le) hq
  induction fuel generalizing iwork st with
  | zero =>
    exfalso
    have : 0 < remaining inp.n iwork := Finset.card_pos.2 ⟨iwork, by
      simp only [Finset.mem_filter, List.mem_toFinset, List.mem_permutations]; exact ⟨hp, le_refl _⟩⟩
    omega
  | succ fuel ih =>
    obtain ⟨b1, b2, b3⟩ := bruteBody_spec inp iwork st hn
    rw [bruteLoop]
    generalize hbb : bruteBody inp iwork st = r at *
    obtain ⟨flag, st1⟩ := r
    simp only at b1 b2 b3
    cases hf : fillCount inp iwork with
    | none =>
      obtain ⟨e1, e2⟩ := b2 hf
      subst e1
      refine ⟨false, st1, rfl, b1, by simp, fun _ => ⟨iwork, hp, hf, hdone, ?_⟩⟩
      rw [e2]
      cases hfi : st.first with
      | true => exact Or.inl ⟨hfirst.1 hfi, hb0 hfi⟩
      | false =>
        refine Or.inr ⟨lt_of_le_of_ne (hleast _ hp) fun h => ?_, (hbest hfi).2⟩
        rw [hfirst.2 h.symm] at hfi
        cases hfi
    | some c =>
      obtain ⟨e1, e2, e3, e4⟩ := b3 c hf
      subst e1
      have hB : fillCount inp st1.best = some st1.bestNnz ∧ IsFirstBest inp (· ≤ iwork) st1.best := by
        by_cases hc : st.first = true ∨ c < st.bestNnz
        · rw [if_pos hc] at e3 e4
          rw [e3, e4]
          refine ⟨hf, hp, le_refl _, c, hf, fun q hq hle => ?_⟩
          rcases hle.lt_or_eq with h | h
          · rcases hc with hc | hc
            · rw [hfirst.1 hc] at h
              exact absurd h (not_lt.2 (hleast q hq))
            · have hff : st.first = false := by
                by_contra h1
                rw [hfirst.1 (by simpa using h1)] at h
                exact absurd h (not_lt.2 (hleast q hq))
              obtain ⟨g1, g2, g3, c1, g4, g5⟩ := hbest hff
              rw [g1] at g4
              obtain ⟨c', g6, g7, g8⟩ := g5 q hq h
              have := Option.some.inj g4
              exact ⟨c', g6, by omega, fun _ => by omega⟩
          · subst h
            exact ⟨c, hf, le_refl _, fun h => absurd h (lt_irrefl _)⟩
        · rw [if_neg hc] at e3 e4
          rw [e3, e4]
          rw [not_or] at hc
          obtain ⟨g1, g2, g3, c1, g4, g5⟩ := hbest (by simpa using hc.1)
          refine ⟨g1, g2, le_of_lt g3, c1, g4, fun q hq hle => ?_⟩
          rcases hle.lt_or_eq with h | h
          · exact g5 q hq h
          · subst h
            rw [g1] at g4
            have := Option.some.inj g4
            exact ⟨c, hf, by omega, fun h => absurd h (not_lt.2 g3.le)⟩
      have hle : ∀ q : List ℕ, q.Perm (List.range inp.n) → q ≤ iwork → fillCount inp q ≠ none := by
        intro q hq h
        rcases h.lt_or_eq with h | h
        · exact hdone q hq h
        · rw [h, hf]; simp
      have hperm := nextPerm_perm iwork
      simp only
      cases hnp : nextPerm iwork with
      | mk flag iw =>
        rw [hnp] at hperm
        cases flag with
        | false =>
          obtain ⟨_, hmax⟩ := nextPerm_false _ _ hnp
          refine ⟨true, st1, rfl, b1, fun _ => ?_, by simp⟩
          refine ⟨fun q hq => hle q hq (hmax q (hq.trans hp.symm)), hB.2.1, trivial, ?_⟩
          obtain ⟨c1, g4, g5⟩ := hB.2.2.2
          exact ⟨c1, g4, fun q hq _ => g5 q hq (hmax q (hq.trans hp.symm))⟩
        | true =>
          obtain ⟨hlt, hnext⟩ := nextPerm_true _ _ hnp
          have hp' := hperm.trans hp
          have hiff : ∀ q : List ℕ, q.Perm (List.range inp.n) → (q < iw ↔ q ≤ iwork) := by
            intro q hq
            constructor
            · intro h
              by_contra h2
              exact absurd h (not_lt.2 (hnext q (hq.trans hp.symm) (not_le.1 h2)))
            · intro h; exact lt_of_le_of_lt h hlt
          refine ih iw st1 b1 hp' ?_ ?_ ?_ ?_ ?_
          · have := remaining_lt inp.n iwork iw hp hlt
            omega
          · intro q hq h
            exact hle q hq ((hiff q hq).1 h)
          · constructor
            · intro h; rw [e2] at h; cases h
            · intro h
              have := hleast iwork hp
              rw [← h] at this
              exact absurd hlt (not_lt.2 this)
          · intro h; rw [e2] at h; cases h
          · intro _
            obtain ⟨g1, g2, g3, c1, g4, g5⟩ := hB
            exact ⟨g1, g2, (hiff _ g2).2 g3, c1, g4, fun q hq h => g5 q hq ((hiff q hq).1 h)⟩

/-- **C52**: the search terminates within `n!` passes; it reports success exactly when the symbolic factorisation succeeds on
every rearrangement of the blocks, and then the returned list is a permutation of the blocks, has the least nonzero count among
all permutations, and is the first such in lexicographic order. On failure, the result is the first best of the permutations
preceding the first failing one, or the content on entry if the very first one failed. -/
theorem C52_first_best (self inp : Sym) (best : List ℕ) (fuel : ℕ) (hn : self.n = inp.n) (hfuel : inp.n.factorial ≤ fuel) :
    ∃ ok st, bruteForce fuel self inp best = some (ok, st) ∧ st.self.n = inp.n ∧
      (ok = true ↔ ∀ q : List ℕ, q.Perm (List.range inp.n) → fillCount inp q ≠ none) ∧
      (ok = true → IsFirstBest inp (fun _ => True) st.best) ∧
      (ok = false → ∃ q0 : List ℕ, q0.Perm (List.range inp.n) ∧ fillCount inp q0 = none ∧
        (∀ q : List ℕ, q.Perm (List.range inp.n) → q < q0 → fillCount inp q ≠ none) ∧
        ((q0 = List.range inp.n ∧ st.best = best) ∨ (List.range inp.n < q0 ∧ IsFirstBest inp (· < q0) st.best))) := by
  obtain ⟨ok, st, h1, h2, h3, h4⟩ := bruteLoop_spec inp fuel (List.range inp.n)
    { self, best, bestNnz := 0, first := true } hn (List.Perm.refl _) ((remaining_le _ _).trans hfuel)
    (fun q hq h => absurd h (not_lt.2 (sorted_least _ q (List.pairwise_lt_range.imp fun h => h.le) hq)))
    (by simp) best (fun _ => rfl) (by simp)
  refine ⟨ok, st, h1, h2, ⟨fun h => (h3 h).1, fun h => ?_⟩, fun h => (h3 h).2, h4⟩
  cases ok with
  | true => rfl
  | false =>
    obtain ⟨q0, hq, hf, _⟩ := h4 rfl
    exact absurd hf (h q0 hq)

/-- **C52**: the search always succeeds when the diagonal blocks are declared diagonal or dense. -/
theorem C52_succeeds (inp : Sym) (h : ∀ i < inp.n, inp.kinds i i = diag ∨ inp.kinds i i = dense) (q : List ℕ)
    (hq : q.Perm (List.range inp.n)) : fillCount inp q ≠ none := by
  unfold fillCount
  rw [if_pos]
  · simp
  · apply C51_succeeds
    intro i hi
    apply h
    have hlen : q.length = inp.n := by rw [hq.length_eq, List.length_range]
    rw [List.getD_eq_getElem _ _ (by omega)]
    exact List.mem_range.1 (hq.subset (List.getElem_mem _))

namespace Demo

/-- one primal block and one dual block of size 2 -/
def struct22 : Sym := defaultStructure (fun _ _ => zero) [2] [2]

end Demo

/-- the hypotheses are met, the search chooses a non-trivial permutation -/
example : Demo.struct22.n = 2 ∧ (∀ i < 2, Demo.struct22.kinds i i = diag ∨ Demo.struct22.kinds i i = dense) ∧
    (bruteForce 2 Demo.struct22 Demo.struct22 []).map (fun r => (r.1, r.2.best, r.2.bestNnz)) = some (true, [1, 0], 9) ∧
    fillCount Demo.struct22 [0, 1] = some 10 := by
  refine ⟨rfl, ?_, ?_, ?_⟩ <;> decide

/-- a failing search: the zero block cannot come first -/
example : (bruteForce 2 ⟨2, fun _ => 1, fun i j => if i = 1 ∧ j = 1 then zero else dense, false⟩
    ⟨2, fun _ => 1, fun i j => if i = 1 ∧ j = 1 then zero else dense, false⟩ []).map (fun r => (r.1, r.2.best)) =
    some (false, [0, 1]) := by decide

/-! ### C53 -/

theorem blockStart_eq (s : Sym) (i : ℕ) : blockStart s i = segOffset s.lens i := by
  simp only [blockStart, segOffset]
  rw [forRange_add]
  simp

theorem flatten_range' (lens : ℕ → ℕ) (n : ℕ) :
    ((List.range n).map fun j => List.range' (segOffset lens j) (lens j)).flatten = List.range (segOffset lens n) := by
  induction n with
  | zero => rfl
  | succ n ih =>
    rw [List.range_succ, List.map_append, List.flatten_append, ih]
    simp only [List.map_cons, List.map_nil, List.flatten_cons, List.flatten_nil, List.append_nil]
    rw [List.range_eq_range', List.range_eq_range']
    have := List.range'_append (s := 0) (m := segOffset lens n) (n := lens n) (step := 1)
    rw [show 0 + 1 * segOffset lens n = segOffset lens n from by omega] at this
    rw [this]
    congr 1
    simp only [segOffset, Finset.sum_range_succ]

theorem flatten_getD (f : ℕ → ℕ) (lens : ℕ → ℕ) (q : List ℕ) (i r : ℕ) (hi : i < q.length) (hr : r < lens (q.getD i 0)) :
    ((q.map fun j => List.range' (f j) (lens j)).flatten).getD (segOffset (fun k => lens (q.getD k 0)) i + r) 0 =
      f (q.getD i 0) + r := by
  induction q generalizing i with
  | nil => simp at hi
  | cons a q ih =>
    simp only [List.map_cons, List.flatten_cons]
    cases i with
    | zero =>
      simp only [segOffset_zero, Nat.zero_add, List.getD_cons_zero] at hr ⊢
      rw [List.getD_append _ _ _ _ (by rw [List.length_range']; exact hr), List.getD_eq_getElem _ _ (by rw [List.length_range']; exact hr)]
      simp
    | succ i =>
      simp only [List.getD_cons_succ] at hr ⊢
      rw [segOffset_succ']
      simp only [List.getD_cons_zero, List.getD_cons_succ]
      rw [List.getD_append_right _ _ _ _ (by rw [List.length_range']; omega), List.length_range']
      rw [show lens a + segOffset (fun k => lens (q.getD k 0)) i + r - lens a = segOffset (fun k => lens (q.getD k 0)) i + r from by omega]
      exact ih i (by simpa using hi) hr

/-- **C53**: for every permutation of the blocks the row permutation is a bijection of the rows, and it maps position `r` of
the `i`-th permuted block to row `r` of the original block. -/
theorem C53_rows (s : Sym) (q : List ℕ) (hq : q.Perm (List.range s.n)) (hn : s.n ≠ 0) :
    ∃ idx, updateIndices q s = some idx ∧ idx.Perm (List.range (segOffset s.lens s.n)) ∧
      ∀ i < s.n, ∀ r < s.lens (q.getD i 0),
        idx.getD (segOffset (fun k => s.lens (q.getD k 0)) i + r) 0 = segOffset s.lens (q.getD i 0) + r := by
  refine ⟨_, by rw [updateIndices, if_neg hn], ?_, ?_⟩
  · simp only [blockStart_eq]
    rw [← flatten_range']
    exact (hq.map _).flatten
  · intro i hi r hr
    simp only [blockStart_eq]
    exact flatten_getD (segOffset s.lens) s.lens q i r (by rw [hq.length_eq, List.length_range]; exact hi) hr

theorem segOffset_perm (s : Sym) (q : List ℕ) (hq : q.Perm (List.range s.n)) :
    segOffset (fun k => s.lens (q.getD k 0)) s.n = segOffset s.lens s.n := by
  have h1 : segOffset (fun k => s.lens (q.getD k 0)) s.n = (q.map s.lens).sum := by
    have hlen : (q.map s.lens).length = s.n := by rw [List.length_map, hq.length_eq, List.length_range]
    rw [← sum_getD, hlen, segOffset]
    refine Finset.sum_congr rfl fun k hk => ?_
    rw [Finset.mem_range] at hk
    have hlq : q.length = s.n := by rw [hq.length_eq, List.length_range]
    rw [List.getD_eq_getElem q _ (by omega), List.getD_eq_getElem (q.map s.lens) _ (by omega), List.getElem_map]
  have h2 : segOffset s.lens s.n = ((List.range s.n).map s.lens).sum := by
    rw [segOffset]
    generalize s.n = n
    induction n with
    | zero => rfl
    | succ n ih => rw [Finset.sum_range_succ, ih, List.range_succ, List.map_append, List.sum_append]; simp
  rw [h1, h2]
  exact (hq.map s.lens).sum_eq

theorem getD_perm_lt {q : List ℕ} {n i : ℕ} (hq : q.Perm (List.range n)) (hi : i < n) : q.getD i 0 < n := by
  have hlen : q.length = n := by rw [hq.length_eq, List.length_range]
  rw [List.getD_eq_getElem _ _ (by omega)]
  exact List.mem_range.1 (hq.subset (List.getElem_mem _))

/-- **C53**: the symmetrically permuted matrix has the permuted pattern (with the permuted block sizes). -/
theorem C53_pattern (s : Sym) (q idx : List ℕ) (hq : q.Perm (List.range s.n)) (hidx : updateIndices q s = some idx)
    (A : ℕ → ℕ → K) (hA : HasPattern s.n s.lens s.kinds A) :
    HasPattern s.n (fun i => s.lens (q.getD i 0)) (fun i j => s.kinds (q.getD i 0) (q.getD j 0))
      (fun i j => A (idx.getD i 0) (idx.getD j 0)) := by
  have hn : s.n ≠ 0 := by intro h; rw [updateIndices, if_pos h] at hidx; cases hidx
  obtain ⟨idx', h1, _, h3⟩ := C53_rows s q hq hn
  rw [hidx] at h1
  obtain rfl := Option.some.inj h1
  intro i hi j hj r hr c hc hna
  simp only at hr hc hna ⊢
  rw [h3 i hi r hr, h3 j hj c hc]
  exact hA _ (getD_perm_lt hq hi) _ (getD_perm_lt hq hj) r hr c hc hna

theorem sum_perm_idx {N : ℕ} {idx : List ℕ} (h : idx.Perm (List.range N)) (f : ℕ → K) :
    ∑ k ∈ Finset.range N, f (idx.getD k 0) = ∑ k ∈ Finset.range N, f k := by
  have hlen : idx.length = N := by rw [h.length_eq, List.length_range]
  have hnd : idx.Nodup := h.nodup_iff.2 List.nodup_range
  refine Finset.sum_bij (fun k _ => idx.getD k 0) ?_ ?_ ?_ ?_
  · intro k hk; exact Finset.mem_range.2 (getD_perm_lt h (Finset.mem_range.1 hk))
  · intro a ha b hb hab
    rw [Finset.mem_range] at ha hb
    rw [List.getD_eq_getElem _ _ (by omega), List.getD_eq_getElem _ _ (by omega)] at hab
    exact (List.Nodup.getElem_inj_iff hnd).1 hab
  · intro b hb
    have : b ∈ idx := h.symm.subset (List.mem_range.2 (Finset.mem_range.1 hb))
    obtain ⟨k, hk, rfl⟩ := List.getElem_of_mem this
    exact ⟨k, Finset.mem_range.2 (by omega), List.getD_eq_getElem _ _ _⟩
  · intro k _; rfl

theorem idxOf_getD {N : ℕ} {idx : List ℕ} (h : idx.Perm (List.range N)) {k : ℕ} (hk : k < N) : idx.idxOf (idx.getD k 0) = k := by
  have hlen : idx.length = N := by rw [h.length_eq, List.length_range]
  have hnd : idx.Nodup := h.nodup_iff.2 List.nodup_range
  rw [List.getD_eq_getElem _ _ (by omega)]
  exact hnd.idxOf_getElem k (by omega)

theorem matCoeff_symm (M : ℕ → ℕ → K) (i j : ℕ) : matCoeff M i j = matCoeff M j i := by
  simp only [matCoeff]
  rcases lt_trichotomy i j with h | h | h
  · rw [if_neg (by omega), if_pos (by omega)]
  · subst h; rfl
  · rw [if_pos (by omega), if_neg (by omega)]

theorem matCoeff_permuteInput (idx : List ℕ) (mat old : ℕ → ℕ → K) (i j : ℕ) :
    matCoeff (permuteInput idx mat old) i j = matCoeff mat (idx.getD i 0) (idx.getD j 0) := by
  simp only [matCoeff, permuteInput, idxFn]
  by_cases h : j ≤ i
  · rw [if_pos h, if_pos h]; rfl
  · rw [if_neg h, if_pos (by omega : i ≤ j)]
    exact matCoeff_symm mat _ _

/-- **C53**: solving in permuted coordinates solves the original system. The matrix is given by its lower half `mat`, `compute`
fills the lower half of the work matrix; if `y` solves the permuted system with right-hand side `P^T b` then `P y` solves the
original one. -/
theorem C53_solve (N : ℕ) (idx : List ℕ) (h : idx.Perm (List.range N)) (mat old : ℕ → ℕ → K) (b y : ℕ → K)
    (hy : ∀ i < N, ∑ j ∈ Finset.range N, matCoeff (permuteInput idx mat old) i j * y j = permTrMul idx b i) :
    ∀ i < N, ∑ j ∈ Finset.range N, matCoeff mat i j * permMul idx y j = b i := by
  intro i hi
  have hmem : i ∈ idx := h.symm.subset (List.mem_range.2 hi)
  obtain ⟨k, hk, rfl⟩ := List.getElem_of_mem hmem
  have hlen : idx.length = N := by rw [h.length_eq, List.length_range]
  have := hy k (by omega)
  rw [← sum_perm_idx h]
  simp only [permTrMul, idxFn] at this
  rw [List.getD_eq_getElem _ _ hk] at this
  rw [← this]
  refine Finset.sum_congr rfl fun j hj => ?_
  rw [matCoeff_permuteInput, List.getD_eq_getElem _ _ hk]
  congr 1
  simp only [permMul]
  rw [idxOf_getD h (Finset.mem_range.1 hj)]

/-- a nontrivial instance: blocks of sizes 2 and 1, exchanged -/
example : updateIndices [1, 0] ⟨2, fun i => 2 - i, fun _ _ => dense, false⟩ = some [2, 0, 1] ∧
    [1, 0].Perm (List.range 2) ∧ (2 : ℕ) ≠ 0 := by decide

example : ∀ i < 3, ∑ j ∈ Finset.range 3, matCoeff (permuteInput [2, 0, 1] (fun i j => ((i + 1) * (j + 2) : ℚ)) (fun _ _ => 0)) i j *
    (fun j => if j = 0 then 1 else 0 : ℕ → ℚ) j =
    permTrMul [2, 0, 1] (fun k => if k = 0 then 6 else if k = 1 then 9 else 12) i := by decide +kernel

/-! ### C54, C77 -/

theorem hasPattern_congr (n : ℕ) (l l' : ℕ → ℕ) (k k' : ℕ → ℕ → BlockKind) (A : ℕ → ℕ → K) (hl : ∀ i < n, l i = l' i)
    (hk : ∀ i < n, ∀ j < n, k i j = k' i j) (h : HasPattern n l k A) : HasPattern n l' k' A := by
  have ho : ∀ i < n, segOffset l i = segOffset l' i := fun i hi =>
    Finset.sum_congr rfl fun m hm => hl m (by rw [Finset.mem_range] at hm; omega)
  intro i hi j hj r hr c hc hna
  simp only
  rw [← ho i hi, ← ho j hj]
  exact h i hi j hj r (by rw [hl i hi]; exact hr) c (by rw [hl j hj]; exact hc) (by rw [hk i hi j hj]; exact hna)

/-- the analysis state reached from a structure `s` by rearranging the blocks with `q` -/
def AnalysedWith (s : Sym) (q : List ℕ) (a : BlockAnalysis) : Prop :=
  a.perm = q ∧ updateIndices q s = some a.indices ∧ a.struct.n = s.n ∧ a.struct.performed = true ∧
    (∀ i < s.n, a.struct.lens i = s.lens (q.getD i 0)) ∧
    (∀ i < s.n, ∀ j < s.n, a.struct.kinds i j = (llt s.n fun i j => s.kinds (q.getD i 0) (q.getD j 0)).2 i j) ∧
    a.structTr = a.struct.transpose

theorem AnalysedWith.valid {s : Sym} {q : List ℕ} {a : BlockAnalysis} (hq : q.Perm (List.range s.n))
    (hf : fillCount s q ≠ none) (h : AnalysedWith s q a) : ValidAnalysis K s a.struct a.indices := by
  obtain ⟨_, h2, h3, _, h5, h6, _⟩ := h
  intro A L d hA hL
  have hp := C53_pattern s q a.indices hq h2 A hA
  have hs : (llt s.n fun i j => s.kinds (q.getD i 0) (q.getD j 0)).1 = true := by
    by_contra hc
    unfold fillCount at hf
    rw [if_neg hc] at hf
    exact hf rfl
  rw [← segOffset_perm s q hq] at hL
  have := C51_fill_in s.n _ _ _ L d hs hp hL
  rw [h3]
  exact hasPattern_congr s.n _ _ _ _ L (fun i hi => (h5 i hi).symm) (fun i hi j hj => (h6 i hi j hj).symm) this

theorem analysed_core (s : Sym) (q : List ℕ) (a0 : BlockAnalysis) (t : Sym) (hn : s.n ≠ 0)
    (ht : a0.struct = symCopy s t (permFn q)) (hperm : a0.perm = q) (htn : t.n = s.n) (hpf : s.performed = false)
    (hf : fillCount s q ≠ none) :
    ∃ idx, updateIndices (analyzePattern a0).2.perm s = some idx ∧
      AnalysedWith s q { (analyzePattern a0).2 with indices := idx } := by
  have hs : (llt s.n fun i j => s.kinds (q.getD i 0) (q.getD j 0)).1 = true := by
    by_contra hc
    unfold fillCount at hf
    rw [if_neg hc] at hf
    exact hf rfl
  have hperf : a0.struct.performed = false := by rw [ht]; exact hpf
  have han : a0.struct.n = s.n := by rw [ht]; exact htn
  have hlen : ∀ i < s.n, a0.struct.lens i = s.lens (q.getD i 0) := by
    intro i hi
    rw [ht]
    simp only [symCopy, permFn, htn]
    rw [if_pos hi]
  have hk : ∀ i < s.n, ∀ j < s.n, a0.struct.kinds i j = s.kinds (q.getD i 0) (q.getD j 0) := by
    intro i hi j hj
    rw [ht]
    simp only [symCopy, permFn, htn]
    rw [if_pos ⟨hi, hj⟩]
  obtain ⟨c1, c2⟩ := llt_congr s.n _ _ hk
  have hflag : (llt a0.struct.n a0.struct.kinds).1 = true := by rw [han, c1]; exact hs
  have hap : analyzePattern a0 = ((lltInPlace a0.struct).1,
      { a0 with struct := (lltInPlace a0.struct).2, structTr := (lltInPlace a0.struct).2.transpose }) := by
    unfold analyzePattern
    rw [if_neg (by rw [hperf]; simp)]
  rw [hap]
  simp only [hperm]
  refine ⟨_, by rw [updateIndices, if_neg hn], ?_⟩
  refine ⟨rfl, by simp only; rw [updateIndices, if_neg hn], han, ?_, hlen, ?_, rfl⟩
  · simp only [lltInPlace]
    rw [hflag]
    split
    · rename_i hcol
      exfalso
      obtain ⟨m, hm⟩ : ∃ m, a0.struct.n = m + 1 := ⟨a0.struct.n - 1, by rw [han]; omega⟩
      rw [hm] at hflag hcol
      rw [llt] at hflag
      cases hc : lltColumn (m + 1) a0.struct.kinds with
      | none => rw [hc] at hflag; simp at hflag
      | some x => rw [hc] at hcol; simp at hcol
    · rfl
  · intro i hi j hj
    simp only [lltInPlace]
    rw [han]
    exact c2 i hi j hj

theorem symCopy_id_congr (s : Sym) : symCopy s s id = s := by
  cases s
  simp [symCopy]

theorem analyzePattern_indices (a : BlockAnalysis) : (analyzePattern a).2.indices = a.indices := by
  unfold analyzePattern; split <;> rfl

theorem putIndices_eq (s : Sym) (q idx : List ℕ) (size : ℕ) (hn : s.n ≠ 0) (hq : q.Perm (List.range s.n))
    (hu : updateIndices q s = some idx) (hsize : size = segOffset s.lens s.n) : putIndices (List.range size) idx = some idx := by
  obtain ⟨idx', g1, g2, _⟩ := C53_rows s q hq hn
  obtain rfl := Option.some.inj (g1.symm.trans hu)
  have hl : idx'.length = size := by rw [g2.length_eq, List.length_range, hsize]
  unfold putIndices
  rw [if_pos (by rw [List.length_range, hl]), hl, List.drop_of_length_le (by rw [List.length_range]), List.append_nil]

/-- **C54** (partial: the first analysis of a freshly constructed object). `findSparsifyingPermutation` on a new object whose
structure has diagonal or dense diagonal blocks, constructed with the size of that structure, ends with a valid analysis, with the optimal permutation. Missing: it is false
for later calls, see `C54_second_analysis_false`. -/
theorem C54_first_analysis_partial (s : Sym) (size fuel : ℕ) (hsize : size = segOffset s.lens s.n) (hn : s.n ≠ 0)
    (hpf : s.performed = false)
    (hd : ∀ i < s.n, s.kinds i i = diag ∨ s.kinds i i = dense) (hfuel : s.n.factorial ≤ fuel) :
    ∃ a, findSparsifyingPermutation fuel (BlockAnalysis.init size s) = some a ∧ IsFirstBest s (fun _ => True) a.perm ∧
      ValidAnalysis K s a.struct a.indices ∧ a.indices.Perm (List.range (segOffset s.lens s.n)) ∧
      a.struct.performed = true ∧ a.structTr = a.struct.transpose := by
  have h0 : (BlockAnalysis.init size s).struct = s := symCopy_id_congr s
  obtain ⟨ok, st, h1, h2, h3, h4, _⟩ := C52_first_best s s (BlockAnalysis.init size s).perm fuel rfl hfuel
  have hall := C52_succeeds s hd
  have hok := h3.2 hall
  have hbest := h4 hok
  obtain ⟨idx, e1, e2⟩ := analysed_core s st.best
    { BlockAnalysis.init size s with perm := st.best, struct := symCopy s st.self (permFn st.best) } st.self hn rfl rfl h2 hpf
    (hall _ hbest.1)
  refine ⟨_, ?_, ?_, e2.valid hbest.1 (hall _ hbest.1), ?_, e2.2.2.2.1, e2.2.2.2.2.2.2⟩
  · unfold findSparsifyingPermutation
    have e3 : putIndices (BlockAnalysis.init size s).indices idx = some idx :=
      putIndices_eq s st.best idx size hn hbest.1 (by rw [← e2.1]; exact e1) hsize
    simp only [h0, symCopy_id_congr, h1, Option.bind_eq_bind, Option.bind_some, e1, analyzePattern_indices, e3, Option.pure_def]
  · rw [e2.1]; exact hbest
  · obtain ⟨idx', g1, g2, _⟩ := C53_rows s st.best hbest.1 hn
    have := e2.2.1
    rw [g1] at this
    rw [← Option.some.inj this]
    exact g2

/-- **C54** (partial: the first call). `setBlockPermutation` on a new object, with any permutation on which the symbolic
factorisation succeeds, ends with a valid analysis. -/
theorem C54_first_permutation_partial (s : Sym) (size : ℕ) (hsize : size = segOffset s.lens s.n) (q : List ℕ) (hn : s.n ≠ 0)
    (hpf : s.performed = false)
    (hq : q.Perm (List.range s.n)) (hf : fillCount s q ≠ none) :
    ∃ a, setBlockPermutation (BlockAnalysis.init size s) (some q) = some a ∧ a.perm = q ∧
      ValidAnalysis K s a.struct a.indices ∧ a.indices.Perm (List.range (segOffset s.lens s.n)) ∧
      a.struct.performed = true ∧ a.structTr = a.struct.transpose := by
  have h0 : (BlockAnalysis.init size s).struct = s := symCopy_id_congr s
  obtain ⟨idx, e1, e2⟩ := analysed_core s q
    { BlockAnalysis.init size s with perm := q, struct := symCopy s { s with performed := false } (permFn q) }
    { s with performed := false } hn rfl rfl rfl hpf hf
  refine ⟨_, ?_, e2.1, e2.valid hq hf, ?_, e2.2.2.2.1, e2.2.2.2.2.2.2⟩
  · unfold setBlockPermutation
    have e3 : putIndices (BlockAnalysis.init size s).indices idx = some idx :=
      putIndices_eq s q idx size hn hq (by rw [← e2.1]; exact e1) hsize
    simp only [h0, symCopy_id_congr, Option.getD_some, e1, Option.bind_eq_bind, Option.bind_some, analyzePattern_indices, e3,
      Option.pure_def]
  · obtain ⟨idx', g1, g2, _⟩ := C53_rows s q hq hn
    have := e2.2.1
    rw [g1] at this
    rw [← Option.some.inj this]
    exact g2

/-- **C54** (partial): calling `analyzePattern` again after a successful analysis changes nothing. -/
theorem C54_analyze_idempotent_partial (a : BlockAnalysis) (h : a.struct.performed = true) :
    analyzePattern a = (true, a) := by rw [analyzePattern, if_pos h]

namespace Demo

def a22 : ℕ → ℕ → ℚ := fun i j =>
  if i = 0 ∧ j = 0 then 1 else if i = 1 ∧ j = 1 then 2 else if i + j = 1 then 1 else if i = j ∧ i < 4 then -1 else 0
def l22 : ℕ → ℕ → ℚ := fun i j => if i = j then 1 else if i = 1 ∧ j = 0 then 1 else 0
def d22 : ℕ → ℚ := fun k => if k < 2 then 1 else -1

theorem a22_ldl : IsLDL 4 a22 l22 d22 := by
  constructor
  · intro i _; simp [l22]
  · intro i _ j _ hij; simp only [l22]; rw [if_neg (by omega), if_neg (by omega)]
  · intro k _; simp only [d22]; split <;> norm_num
  · decide +kernel

theorem a22_pattern : HasPattern 2 struct22.lens struct22.kinds a22 := by
  have : ∀ i < 2, ∀ j < 2, ∀ r < 2, ∀ c < 2, ¬ Allows (struct22.kinds i j) r c →
      a22 (segOffset struct22.lens i + r) (segOffset struct22.lens j + c) = 0 := by decide +kernel
  have h2 : ∀ i < 2, struct22.lens i = 2 := by decide
  intro i hi j hj r hr c hc
  rw [h2 i hi] at hr
  rw [h2 j hj] at hc
  exact this i hi j hj r hr c hc

/-- block 0 of the stored structure after the second call is declared diagonal although the rows are in the original order -/
theorem second_call : ∃ a1 a2, findSparsifyingPermutation 2 (BlockAnalysis.init 4 struct22) = some a1 ∧ a1.perm = [1, 0] ∧
    findSparsifyingPermutation 2 a1 = some a2 ∧ a2.indices = [0, 1, 2, 3] ∧ a2.struct.n = 2 ∧ a2.struct.performed = true ∧
    a2.struct.kinds 0 0 = diag ∧ a2.struct.lens 0 = 2 := by
  have h : ((findSparsifyingPermutation 2 (BlockAnalysis.init 4 struct22)).bind fun a1 =>
      (findSparsifyingPermutation 2 a1).map fun a2 =>
        (a1.perm, a2.indices, a2.struct.n, a2.struct.performed, a2.struct.kinds 0 0, a2.struct.lens 0)) =
      some ([1, 0], [0, 1, 2, 3], 2, true, diag, 2) := by decide
  obtain ⟨a1, h1, h2⟩ := Option.bind_eq_some_iff.1 h
  obtain ⟨a2, h3, h4⟩ := Option.map_eq_some_iff.1 h2
  simp only [Prod.mk.injEq] at h4
  exact ⟨a1, a2, h1, h4.1, h3, h4.2.1, h4.2.2.1, h4.2.2.2.1, h4.2.2.2.2.1, h4.2.2.2.2.2⟩

end Demo

/-- **C54 is false**: on the default structure of one primal and one dual block of size 2, a second
`findSparsifyingPermutation` re-permutes the already factored structure without redoing the analysis; the stored structure is
then not valid for matrices of the declared pattern, although it is marked as analysed. -/
theorem C54_second_analysis_false : ∃ (s : Sym) (a1 a2 : BlockAnalysis), s.n ≠ 0 ∧ s.performed = false ∧
    (∀ i < s.n, s.kinds i i = diag ∨ s.kinds i i = dense) ∧
    findSparsifyingPermutation s.n.factorial (BlockAnalysis.init 4 s) = some a1 ∧
    findSparsifyingPermutation s.n.factorial a1 = some a2 ∧ a2.struct.performed = true ∧
    ¬ ValidAnalysis ℚ s a2.struct a2.indices := by
  obtain ⟨a1, a2, h1, _, h2, h3, h4, h5, h6, h7⟩ := Demo.second_call
  refine ⟨Demo.struct22, a1, a2, by decide, by decide, by decide, h1, h2, h5, ?_⟩
  intro hv
  have := hv Demo.a22 Demo.l22 Demo.d22 Demo.a22_pattern (by
    have hN : segOffset Demo.struct22.lens Demo.struct22.n = 4 := by decide
    rw [hN]
    have := Demo.a22_ldl
    constructor
    · exact this.unit
    · exact this.lower
    · exact this.pivots
    · intro i hi j hj
      rw [h3]
      have e : ∀ i < 4, ([0, 1, 2, 3] : List ℕ).getD i 0 = i := by decide
      simp only [e i hi, e j hj]
      exact this.eq i hi j hj)
  have h := this 0 (by rw [h4]; omega) 0 (by rw [h4]; omega) 1 (by rw [h7]; omega) 0 (by rw [h7]; omega)
    (by rw [h6]; simp [Allows])
  simp [segOffset, Demo.l22] at h

/-- **C77**: allocating the block solver for any nonempty list of block sizes terminates with a valid analysis of the KKT
pattern: the symbolic factorisation succeeds, the block order has the least nonzero count, and the rows are permuted
bijectively. -/
theorem C77_allocation (g : ℕ → ℕ → BlockKind) (primal dual : List ℕ) (hne : primal ≠ [] ∨ dual ≠ []) (fuel : ℕ)
    (hfuel : (primal.length + dual.length).factorial ≤ fuel) :
    ∃ a, allocateBlockSparse fuel g primal dual = some a ∧
      IsFirstBest (defaultStructure g primal dual) (fun _ => True) a.perm ∧
      ValidAnalysis K (defaultStructure g primal dual) a.struct a.indices ∧
      a.indices.Perm (List.range (primal.sum + dual.sum)) ∧ a.struct.performed = true ∧
      a.structTr = a.struct.transpose := by
  have hsz := C67_sizes g primal dual
  have hdn : (defaultStructure g primal dual).n ≠ 0 := by
    rw [hsz.2.2.1]
    have h1 : primal ≠ [] → 0 < primal.length := List.length_pos_of_ne_nil
    have h2 : dual ≠ [] → 0 < dual.length := List.length_pos_of_ne_nil
    rcases hne with h | h
    · have := h1 h; omega
    · have := h2 h; omega
  have hdiag : ∀ i < (defaultStructure g primal dual).n, (defaultStructure g primal dual).kinds i i = diag ∨
      (defaultStructure g primal dual).kinds i i = dense := by
    intro i hi
    rw [hsz.2.2.1] at hi
    have hpat := C67_default_pattern g primal dual
    by_cases h : i < primal.length
    · exact Or.inr (hpat.1 i i h (by omega))
    · have := hpat.2.2.1 (i - primal.length) (by omega)
      rw [show primal.length + (i - primal.length) = i from by omega] at this
      exact Or.inl this
  obtain ⟨a, h1, h2, h3, h4, h5, h6⟩ := C54_first_analysis_partial (K := K) (defaultStructure g primal dual)
    (totalDim primal dual) fuel (by rw [hsz.2.2.2.1]; exact hsz.2.2.2.2) hdn rfl hdiag (by rw [hsz.2.2.1]; exact hfuel)
  rw [hsz.2.2.2.1] at h4
  exact ⟨a, h1, h2, h3, h4, h5, h6⟩

/-- the hypotheses are met -/
example : ([2] : List ℕ) ≠ [] ∧ (allocateBlockSparse 6 (fun _ _ => zero) [2] [2, 1]).map (fun a => (a.perm, a.indices)) =
    some ([1, 0, 2], [2, 3, 0, 1, 4]) := by decide

end ProxNLP
