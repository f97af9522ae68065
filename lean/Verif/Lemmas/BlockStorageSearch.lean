import Verif.Lemmas.BlockStorage
import Verif.Lemmas.NextPerm
import Verif.Props.BlockKind
import Mathlib.Data.List.GetD

/-! Lemmas on the arrays of block structures: the search of a block order, the default structure, and the allocation of the block solver. -/

namespace ProxNLP

open BlockKind Spec

/-- What the search keeps between two passes: the object has room, the other locals are those of the model without arrays. -/
structure SearchSim (n : ℕ) (st : StoreSearch) (bt : BruteState) : Prop where
  room : Room st.self
  count : st.self.n = n ∧ bt.self.n = n
  best : st.best = bt.best
  nnz : st.bestNnz = bt.bestNnz
  first : st.first = bt.first

theorem permFn_get {l : List ℕ} {n : ℕ} (h : l.Perm (List.range n)) {i : ℕ} (hi : i < n) : l[i]? = some (permFn l i) ∧ permFn l i < n := by
  have hl : l.length = n := by rw [h.length_eq, List.length_range]
  have hil : i < l.length := by omega
  have e : permFn l i = l[i] := by rw [permFn, List.getD_eq_getElem _ _ hil]
  rw [e, List.getElem?_eq_getElem hil]
  exact ⟨rfl, List.mem_range.1 (h.mem_iff.1 (List.getElem_mem hil))⟩

theorem storeBody_sim {inp : SymStore} {a : Sym} (h : Holds inp a) {iwork : List ℕ} (hp : iwork.Perm (List.range inp.n)) {st : StoreSearch}
    {bt : BruteState} (hs : SearchSim inp.n st bt) :
    ∃ st', storeBody inp iwork st = some ((bruteBody a iwork bt).1, st') ∧ SearchSim inp.n st' (bruteBody a iwork bt).2 ∧
      Holds st'.self (bruteBody a iwork bt).2.self ∧ Inside st.self st'.self := by
  obtain ⟨s1, e1, h1, i1⟩ := deepCopy_store h hs.room (some fun i => iwork[i]?) (permFn iwork)
    (fun i hi => by
      rw [hs.count.1] at hi
      exact (permFn_get hp hi).1)
    (fun i hi => by
      rw [hs.count.1] at hi
      exact (permFn_get hp hi).2) bt.self (by rw [hs.count.1, hs.count.2])
  have h1' : Holds { s1 with performed := false } { symCopy a bt.self (permFn iwork) with performed := false } :=
    ⟨h1.count, rfl, h1.stride, h1.lens, h1.kinds⟩
  obtain ⟨s2, e2, h2, i2⟩ := lltInPlace_store h1'
  have i1' : Inside st.self { s1 with performed := false } := ⟨i1.place, i1.sizes, i1.data, i1.lens⟩
  have i12 := i1'.trans i2
  have hn2 : s2.n = inp.n := by rw [i12.place.2.2.1, hs.count.1]
  have hbn : ∀ x : Sym, x = (lltInPlace { symCopy a bt.self (permFn iwork) with performed := false }).2 → x.n = inp.n := by
    rintro x rfl
    exact hs.count.2
  simp only [storeBody, bruteBody]
  rw [e1]
  simp only [Option.bind_some]
  rw [e2]
  simp only [Option.bind_some]
  by_cases hok : (lltInPlace { symCopy a bt.self (permFn iwork) with performed := false }).1 = true
  · rw [if_pos hok, if_pos hok, countNnz_store h2]
    simp only [Option.bind_some]
    by_cases hb : bt.first = true ∨ countNnz (lltInPlace { symCopy a bt.self (permFn iwork) with performed := false }).2 < bt.bestNnz
    · rw [if_pos hb, if_pos (by rw [hs.first, hs.nnz]; exact hb)]
      exact ⟨_, rfl, ⟨h2.room, ⟨hn2, hbn _ rfl⟩, rfl, rfl, rfl⟩, h2, i12⟩
    · rw [if_neg hb, if_neg (by rw [hs.first, hs.nnz]; exact hb)]
      exact ⟨_, rfl, ⟨h2.room, ⟨hn2, hbn _ rfl⟩, hs.best, hs.nnz, rfl⟩, h2, i12⟩
  · rw [if_neg hok, if_neg hok]
    exact ⟨_, rfl, ⟨h2.room, ⟨hn2, hbn _ rfl⟩, hs.best, hs.nnz, hs.first⟩, h2, i12⟩

theorem bruteBody_best (a : Sym) (iwork : List ℕ) (bt : BruteState) :
    (bruteBody a iwork bt).2.best = bt.best ∨ (bruteBody a iwork bt).2.best = iwork := by
  simp only [bruteBody]
  split
  · split
    · exact Or.inr rfl
    · exact Or.inl rfl
  · exact Or.inl rfl

theorem storeLoop_sim {inp : SymStore} {a : Sym} (h : Holds inp a) : ∀ (fuel : ℕ) (iwork : List ℕ), iwork.Perm (List.range inp.n) →
    ∀ (st : StoreSearch) (bt : BruteState), SearchSim inp.n st bt →
      (bruteLoop a fuel iwork bt = none → storeLoop inp fuel iwork st = some none) ∧
      ∀ ok bt', bruteLoop a fuel iwork bt = some (ok, bt') → ∃ st', storeLoop inp fuel iwork st = some (some (ok, st')) ∧
        SearchSim inp.n st' bt' ∧ Holds st'.self bt'.self ∧ Inside st.self st'.self ∧
        (bt.best.Perm (List.range inp.n) → bt'.best.Perm (List.range inp.n))
  | 0, iwork, hp, st, bt, hs => ⟨fun _ => rfl, fun ok bt' e => by simp [bruteLoop] at e⟩
  | fuel + 1, iwork, hp, st, bt, hs => by
    obtain ⟨st1, e1, s1, h1, i1⟩ := storeBody_sim h hp hs
    have hbp : bt.best.Perm (List.range inp.n) → (bruteBody a iwork bt).2.best.Perm (List.range inp.n) := by
      intro hb
      rcases bruteBody_best a iwork bt with e | e
      · rw [e]; exact hb
      · rw [e]; exact hp
    rw [bruteLoop, storeLoop, e1]
    simp only [Option.bind_some]
    generalize hB : bruteBody a iwork bt = B at s1 h1 hbp ⊢
    obtain ⟨ok, bt1⟩ := B
    cases ok with
    | false =>
      refine ⟨fun e => by simp at e, fun ok bt' e => ?_⟩
      simp only [Option.some.injEq, Prod.mk.injEq] at e
      obtain ⟨rfl, rfl⟩ := e
      exact ⟨st1, rfl, s1, h1, i1, hbp⟩
    | true =>
      simp only
      have hnp := nextPerm_perm iwork
      generalize nextPerm iwork = N at hnp ⊢
      obtain ⟨more, iwork'⟩ := N
      cases more with
      | true =>
        simp only
        obtain ⟨ha, hb⟩ := storeLoop_sim h fuel iwork' (hnp.trans hp) st1 bt1 s1
        refine ⟨ha, fun ok bt' e => ?_⟩
        obtain ⟨st', e', s', h', i', p'⟩ := hb ok bt' e
        exact ⟨st', e', s', h', i1.trans i', fun x => p' (hbp x)⟩
      | false =>
        refine ⟨fun e => by simp at e, fun ok bt' e => ?_⟩
        simp only [Option.some.injEq, Prod.mk.injEq] at e
        obtain ⟨rfl, rfl⟩ := e
        exact ⟨st1, rfl, s1, h1, i1, hbp⟩

/-! ### The default structure -/

/-- The entries, as functions of what an uninitialised array holds. -/
def SimG (s0 s : SymStore) (F : (ℕ → ℕ → BlockKind) → ℕ → ℕ → BlockKind) : Prop :=
  ∃ oK, StoreSim s0 s oK ∧ ∀ g a b, F g a b = (oK a b).getD (g a b)

theorem SimG.set {s0 s : SymStore} {F : (ℕ → ℕ → BlockKind) → ℕ → ℕ → BlockKind} (h : SimG s0 s F) (hst : s0.n ≤ s0.os) {i j : ℕ}
    (hi : i < s0.n) (hj : j < s0.n) (k : BlockKind) : ∃ s', s.set i j k = some s' ∧ SimG s0 s' (fun g => setKind (F g) i j k) := by
  obtain ⟨oK, hs, hF⟩ := h
  obtain ⟨s', e, h'⟩ := hs.set_ok hst hi hj k
  refine ⟨s', e, _, h', fun g a b => ?_⟩
  simp only [setKind, putO]
  split
  · rfl
  · exact hF g a b

theorem forRangeM_simG {s0 : SymStore} (lo n : ℕ) (f : ℕ → SymStore → Option SymStore) (G : ℕ → (ℕ → ℕ → BlockKind) → ℕ → ℕ → BlockKind)
    (hstep : ∀ t, lo ≤ t → t < lo + n → ∀ s F, SimG s0 s F → ∃ s', f t s = some s' ∧ SimG s0 s' (fun g => G t (F g)))
    {s : SymStore} {F : (ℕ → ℕ → BlockKind) → ℕ → ℕ → BlockKind} (h : SimG s0 s F) :
    ∃ s', forRangeM lo n f s = some s' ∧ SimG s0 s' (fun g => forRange lo n G (F g)) := by
  obtain ⟨s', e, h'⟩ := forRangeM_inv (fun t s => SimG s0 s (fun g => forRange lo t G (F g))) lo f n s h (fun t ht s hs => by
    obtain ⟨s', e, h'⟩ := hstep (lo + t) (by omega) (by omega) s _ hs
    exact ⟨s', e, h'⟩)
  exact ⟨s', e, h'⟩

theorem defaultStore_holds (primal dual : List ℕ) :
    ∃ s, defaultStore primal dual = some s ∧ ∀ g, Holds s (defaultStructure g primal dual) := by
  have hlenA : (SymStore.alloc (primal.length + dual.length) (primal.length + dual.length)).lensArr.length = primal.length + dual.length :=
    List.length_replicate
  obtain ⟨L1, e1, l1, v1, f1⟩ := setLen_loop (v := fun i => primal.getD i 0) (n := primal.length) (off := 0)
    (SymStore.alloc (primal.length + dual.length) (primal.length + dual.length))
    (fun i hi => by
      rw [hlenA]
      show 0 + (i + 0) < _
      omega)
    (fun i s => primal[i]?.bind fun l => s.setLen i l)
    (fun i hi s => by
      show primal[i]?.bind _ = _
      rw [List.getElem?_eq_getElem hi, List.getD_eq_getElem _ _ hi]
      rfl)
  obtain ⟨L2, e2, l2, v2, f2⟩ := setLen_loop (v := fun i => dual.getD i 0) (n := dual.length) (off := primal.length)
    ({ SymStore.alloc (primal.length + dual.length) (primal.length + dual.length) with lensArr := L1 })
    (fun i hi => by
      show 0 + (i + primal.length) < L1.length
      rw [l1, hlenA]
      omega)
    (fun i s => dual[i]?.bind fun l => s.setLen (i + primal.length) l)
    (fun i hi s => by
      show dual[i]?.bind _ = _
      rw [List.getElem?_eq_getElem hi, List.getD_eq_getElem _ _ hi]
      rfl)
  have hroom : Room ({ SymStore.alloc (primal.length + dual.length) (primal.length + dual.length) with lensArr := L2 } : SymStore) := by
    have hA := alloc_room (Nat.le_refl (primal.length + dual.length))
    refine ⟨hA.stride, fun i hi => ?_, hA.kinds⟩
    show 0 + i < L2.length
    rw [l2]
    show 0 + i < L1.length
    rw [l1, hlenA]
    have : i < primal.length + dual.length := hi
    omega
  generalize hs0 : ({ SymStore.alloc (primal.length + dual.length) (primal.length + dual.length) with lensArr := L2 } : SymStore) = s0 at *
  have hn0 : s0.n = primal.length + dual.length := by rw [← hs0]; rfl
  have hnone : ∀ i < s0.n, ∀ j < s0.n, s0.data[s0.off + (i + j * s0.os)]? = some none := by
    intro i hi j hj
    have hlt := hroom.kinds i hi j hj
    rw [List.getElem?_eq_getElem hlt]
    subst hs0
    simp only [SymStore.alloc, List.getElem_replicate]
  have h0 : SimG s0 s0 (fun g => g) := ⟨fun _ _ => none, ⟨rfl, rfl, hnone, fun _ _ => rfl⟩, fun _ _ _ => rfl⟩
  obtain ⟨s3, e3, h3⟩ := forRangeM_simG 0 primal.length (fun i s => forRangeM 0 primal.length (fun j s => s.set i j dense) s)
    (fun i K => forRange 0 primal.length (fun j K => setKind K i j dense) K)
    (fun i _ hi s F hF => forRangeM_simG 0 primal.length _ (fun j K => setKind K i j dense)
      (fun j _ hj s F hF => hF.set hroom.stride (by omega) (by omega) dense) hF) h0
  obtain ⟨s4, e4, h4⟩ := forRangeM_simG 0 primal.length
    (fun i s => forRangeM primal.length (primal.length + dual.length - primal.length)
      (fun j s => (s.set i j dense).bind fun s => s.set j i dense) s)
    (fun i K => forRange primal.length (primal.length + dual.length - primal.length) (fun j K => setKind (setKind K i j dense) j i dense) K)
    (fun i _ hi s F hF => forRangeM_simG primal.length (primal.length + dual.length - primal.length) _
      (fun j K => setKind (setKind K i j dense) j i dense)
      (fun j _ hj s F hF => by
        obtain ⟨s', e, h'⟩ := hF.set hroom.stride (i := i) (j := j) (by omega) (by omega) dense
        obtain ⟨s'', e', h''⟩ := h'.set hroom.stride (i := j) (j := i) (by omega) (by omega) dense
        refine ⟨s'', ?_, h''⟩
        show (s.set i j dense).bind _ = _
        rw [e]
        exact e') hF) h3
  obtain ⟨s5, e5, h5⟩ := forRangeM_simG primal.length (primal.length + dual.length - primal.length)
    (fun i s => (s.set i i diag).bind fun s => forRangeM primal.length (primal.length + dual.length - primal.length)
      (fun j s => if i ≠ j then s.set i j zero else some s) s)
    (fun i K => forRange primal.length (primal.length + dual.length - primal.length) (fun j K => if i ≠ j then setKind K i j zero else K)
      (setKind K i i diag))
    (fun i _ hi s F hF => by
      obtain ⟨s', e, h'⟩ := hF.set hroom.stride (i := i) (j := i) (by omega) (by omega) diag
      obtain ⟨s'', e', h''⟩ := forRangeM_simG primal.length (primal.length + dual.length - primal.length)
        (fun j s => if i ≠ j then s.set i j zero else some s) (fun j K => if i ≠ j then setKind K i j zero else K)
        (fun j _ hj s F hF => by
          by_cases hij : i ≠ j
          · obtain ⟨s', e, h'⟩ := hF.set hroom.stride (i := i) (j := j) (by omega) (by omega) zero
            refine ⟨s', by rw [if_pos hij]; exact e, ?_⟩
            simp only [if_pos hij]
            exact h'
          · refine ⟨s, by rw [if_neg hij], ?_⟩
            simp only [if_neg hij]
            exact hF) h'
      refine ⟨s'', ?_, h''⟩
      show (s.set i i diag).bind _ = _
      rw [e]
      exact e') h4
  refine ⟨s5, ?_, fun g => ?_⟩
  · simp only [defaultStore]
    rw [e1]
    simp only [Option.bind_some]
    refine (congrArg (fun o => Option.bind o _) e2).trans ?_
    simp only [Option.bind_some]
    rw [e3]
    simp only [Option.bind_some]
    rw [e4]
    simp only [Option.bind_some]
    exact e5
  · obtain ⟨oK, hS, hF⟩ := h5
    refine ⟨?_, ?_, ?_, ?_, ?_⟩
    · rw [hS.hn, hn0]
      rfl
    · rw [hS.hperf, ← hs0]
      rfl
    · rw [hS.hn, hS.hos]
      exact hroom.stride
    · rw [hS.hn, hS.hlens, hS.hlo]
      intro i hi
      rw [hn0] at hi
      rw [← hs0]
      show L2[0 + i]? = some (some (if i < primal.length then primal.getD i 0 else dual.getD (i - primal.length) 0))
      by_cases hip : i < primal.length
      · rw [f2 (0 + i) (fun j hj e => by
          have : 0 + i = 0 + (j + primal.length) := e
          omega), if_pos hip]
        have := v1 i hip
        exact this
      · have := v2 (i - primal.length) (by omega)
        rw [if_neg hip, ← this]
        show L2[0 + i]? = L2[0 + (i - primal.length + primal.length)]?
        rw [Nat.sub_add_cancel (by omega)]
    · rw [hS.hn, hS.hoff, hS.hos]
      intro i hi j hj
      rw [hS.ent i hi j hj]
      rw [hn0] at hi hj
      have hkey : ∀ g', (defaultStructure g' primal dual).kinds i j = (oK i j).getD (g' i j) := fun g' => hF g' i j
      cases hO : oK i j with
      | some k =>
        rw [hkey g, hO]
        rfl
      | none =>
        exfalso
        have a1 := hkey fun _ _ => triL
        have a2 := hkey fun _ _ => triU
        rw [hO] at a1 a2
        rw [defaultKinds_eq, if_pos ⟨hi, hj⟩] at a1 a2
        rw [a1] at a2
        cases a2

/-! ### Allocation -/

theorem copy_store' {s : SymStore} {a : Sym} (h : Holds s a) :
    ∃ s', s.copy = some s' ∧ Holds s' (symCopy a a id) ∧ s'.n = s.n := by
  obtain ⟨s', e, h', hin⟩ := deepCopy_store h (alloc_room h.stride) none id (fun _ _ => rfl) (fun i hi => hi) a h.count.symm
  exact ⟨s', e, h', hin.place.2.2.1⟩

theorem storeAllocate_sim (fuel : ℕ) (g : ℕ → ℕ → BlockKind) (primal dual : List ℕ) (a : BlockAnalysis)
    (ha : allocateBlockSparse fuel g primal dual = some a) :
    ∃ sa, storeAllocate fuel primal dual = some (some sa) ∧ sa.perm = a.perm ∧ Holds sa.struct a.struct ∧ Holds sa.structTr a.structTr := by
  obtain ⟨s0, e0, h0⟩ := defaultStore_holds primal dual
  obtain ⟨m, em, hm, hmn⟩ := copy_store' (h0 g)
  obtain ⟨tr, etr, htr⟩ := transpose_store hm
  obtain ⟨inp, ei, hi, hin⟩ := copy_store' hm
  simp only [allocateBlockSparse, findSparsifyingPermutation, BlockAnalysis.init, Option.bind_eq_bind, Option.bind_eq_some_iff] at ha
  obtain ⟨⟨ok, bt⟩, hb, idx, hidx, ha⟩ := ha
  generalize hD : defaultStructure g primal dual = D at *
  have hnD : inp.n = D.n := by rw [hi.count]; rfl
  have hs : SearchSim inp.n { self := m, best := List.range m.n, bestNnz := 0, first := true }
      { self := symCopy D D id, best := List.range D.n, bestNnz := 0, first := true } :=
    ⟨hm.room, ⟨hin.symm, by rw [hnD]; rfl⟩, by
      show List.range m.n = List.range D.n
      rw [← hin, hnD], rfl, rfl⟩
  have hpr : (List.range inp.n).Perm (List.range inp.n) := List.Perm.refl _
  obtain ⟨st, est, sst, hst, ist, pst⟩ := (storeLoop_sim hi fuel (List.range inp.n) hpr _ _ hs).2 ok bt (by
    rw [hnD]
    exact hb)
  have hbest : bt.best.Perm (List.range inp.n) := pst (by
    show (List.range D.n).Perm _
    rw [hnD])
  obtain ⟨m2, em2, hm2, _⟩ := deepCopy_store hi sst.room (some fun i => st.best[i]?) (permFn bt.best)
    (fun i hi' => by
      rw [sst.count.1] at hi'
      rw [← (permFn_get hbest hi').1, ← sst.best]
      rfl)
    (fun i hi' => by
      rw [sst.count.1] at hi'
      exact (permFn_get hbest hi').2) bt.self (by rw [sst.count.1, sst.count.2])
  have hperf : m2.performed = false := by
    rw [hm2.flag]
    show D.performed = false
    rw [← hD]
    rfl
  obtain ⟨m3, em3, hm3, _⟩ := lltInPlace_store hm2
  obtain ⟨tr3, etr3, htr3⟩ := transpose_store hm3
  have hapat : analyzePattern ⟨symCopy (symCopy (symCopy D D id) (symCopy D D id) id) bt.self (permFn bt.best),
      (symCopy D D id).transpose, List.range (totalDim primal dual), bt.best⟩ =
      ((lltInPlace (symCopy (symCopy (symCopy D D id) (symCopy D D id) id) bt.self (permFn bt.best))).1,
        ⟨(lltInPlace (symCopy (symCopy (symCopy D D id) (symCopy D D id) id) bt.self (permFn bt.best))).2,
          (lltInPlace (symCopy (symCopy (symCopy D D id) (symCopy D D id) id) bt.self (permFn bt.best))).2.transpose,
          List.range (totalDim primal dual), bt.best⟩) := by
    rw [analyzePattern]
    refine if_neg ?_
    show ¬ D.performed = true
    rw [← hD]
    simp [defaultStructure]
  refine ⟨{ struct := m3, structTr := tr3, perm := st.best }, ?_, ?_, ?_, ?_⟩
  · rw [storeAllocate, e0]
    simp only [Option.bind_some]
    rw [em]
    simp only [Option.bind_some]
    rw [etr]
    simp only [Option.bind_some]
    rw [ei]
    simp only [Option.bind_some]
    rw [storeSearch, est]
    simp only [Option.bind_some]
    rw [em2]
    simp only [Option.bind_some]
    rw [if_neg (by rw [hperf]; simp), em3]
    simp only [Option.bind_some]
    rw [etr3]
    rfl
  all_goals
    have ha' := Option.some.inj ha
    simp only [hapat] at ha'
    rw [← ha']
  · exact sst.best
  · exact hm3
  · exact htr3

end ProxNLP
