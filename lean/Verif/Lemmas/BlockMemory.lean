import Verif.Spec.BlockMemory

/-! Separation invariant of the memory behind `BlockLDLT` objects. -/

set_option linter.unusedSectionVars false
namespace ProxNLP

open Spec

/-- all arrays of all objects are alive and different, and the deleted arrays are exactly those made and no longer alive, each
deleted once -/
structure Spec.Separate (m : BlockMem) : Prop where
  live : ∀ i o, m.objs i = some o → m.heap.blocks o.struct.ptr ≠ none ∧ m.heap.blocks o.structTr.ptr ≠ none
  alone : ∀ i j o o', m.objs i = some o → m.objs j = some o' →
    o.struct.ptr ≠ o'.structTr.ptr ∧ (i ≠ j → o.struct.ptr ≠ o'.struct.ptr ∧ o.structTr.ptr ≠ o'.structTr.ptr)
  fresh : ∀ a, m.heap.born ≤ a → m.heap.blocks a = none
  once : m.heap.freed.Nodup
  gone : ∀ a, a ∈ m.heap.freed ↔ a < m.heap.born ∧ m.heap.blocks a = none

theorem separate_empty : Separate BlockMem.empty :=
  ⟨by simp [BlockMem.empty], by simp [BlockMem.empty], by simp [BlockMem.empty], by simp [BlockMem.empty], by simp [BlockMem.empty]⟩

theorem Spec.Separate.lt {m : BlockMem} (h : Separate m) {a : ℕ} (ha : m.heap.blocks a ≠ none) : a < m.heap.born := by
  by_contra hc
  exact ha (h.fresh a (by omega))

/-- arrays belonging to nobody yet -/
theorem separate_alloc {m : BlockMem} (h : Separate m) (s : Sym) :
    Separate (m.alloc s).2 ∧ analyses (m.alloc s).2 = analyses m := by
  have hlt := fun a => @Spec.Separate.lt m h a
  obtain ⟨h1, h2, h3, h4, h5⟩ := h
  refine ⟨⟨?_, h2, ?_, h4, ?_⟩, ?_⟩ <;> simp only [BlockMem.alloc, PolyHeap.make]
  · intro i o ho
    have := h1 i o ho
    constructor <;> split <;> simp_all
  · intro a ha
    rw [if_neg (by omega)]
    exact h3 a (by omega)
  · intro a
    rw [h5 a]
    by_cases ha : a = m.heap.born
    · simp [ha]
    · rw [if_neg ha]
      constructor <;> rintro ⟨g1, g2⟩ <;> exact ⟨by omega, g2⟩
  · funext i
    simp only [analyses]
    cases ho : m.objs i with
    | none => rfl
    | some o =>
      have := h1 i o ho
      simp only [Option.bind_some, BlockMem.view, BlockMem.sym]
      rw [if_neg (by have := hlt _ this.1; omega), if_neg (by have := hlt _ this.2; omega)]

/-- overwriting an object's structure in place -/
theorem separate_write {m : BlockMem} (h : Separate m) (i : ℕ) (o : BlockRef) (a : BlockAnalysis) (ho : m.objs i = some o)
    (ha : m.view o = some a) (s : Sym) (idx pm : List ℕ) :
    let m' := (({ m with heap := m.heap.write o.struct.ptr s } : BlockMem).put i
      (some { o with struct := { o.struct with performed := s.performed }, indices := idx, perm := pm }))
    Separate m' ∧ analyses m' = Analyses.put (analyses m) i (some { struct := s, structTr := a.structTr, indices := idx, perm := pm }) := by
  intro m'
  have hlt := fun a => @Spec.Separate.lt m h a
  obtain ⟨h1, h2, h3, h4, h5⟩ := h
  refine ⟨⟨?_, ?_, ?_, h4, ?_⟩, ?_⟩
  · intro j o' ho'
    simp only [m', BlockMem.put, PolyHeap.write] at ho' ⊢
    have hb : ∀ b, m.heap.blocks b ≠ none →
        (if b = o.struct.ptr then (m.heap.blocks b).map fun p => (s, p.2) else m.heap.blocks b) ≠ none := by
      intro b hb
      split
      · simpa using hb
      · exact hb
    by_cases hj : j = i
    · rw [if_pos hj] at ho'
      cases ho'
      exact ⟨hb _ (h1 i o ho).1, hb _ (h1 i o ho).2⟩
    · rw [if_neg hj] at ho'
      exact ⟨hb _ (h1 j o' ho').1, hb _ (h1 j o' ho').2⟩
  · intro j k o1 o2 hj hk
    simp only [m', BlockMem.put] at hj hk
    grind
  · intro b hb
    simp only [m', BlockMem.put, PolyHeap.write] at hb ⊢
    rw [h3 b hb]
    simp
  · intro b
    simp only [m', BlockMem.put, PolyHeap.write]
    rw [h5 b]
    split <;> simp
  · funext j
    simp only [analyses, Analyses.put, m', BlockMem.put, PolyHeap.write, BlockMem.view, BlockMem.sym] at ha ⊢
    by_cases hj : j = i
    · simp only [hj, if_true, Option.bind_some, BlockMem.view, BlockMem.sym]
      have g1 := (h1 i o ho)
      have g2 := (h2 i i o o ho ho).1
      rw [if_neg (Ne.symm g2)]
      cases e1 : m.heap.blocks o.struct.ptr with
      | none => exact absurd e1 g1.1
      | some p =>
        cases e2 : m.heap.blocks o.structTr.ptr with
        | none => exact absurd e2 g1.2
        | some q =>
          rw [e1, e2] at ha
          simp only [Option.map_some, Option.some.injEq] at ha ⊢
          rw [← ha]
    · simp only [hj, if_false]
      cases ho' : m.objs j with
      | none => rfl
      | some o' =>
        have g1 := (h2 i j o o' ho ho').1
        have g2 := ((h2 i j o o' ho ho').2 (Ne.symm hj)).1
        simp only [Option.bind_some, BlockMem.view, BlockMem.sym]
        rw [if_neg (Ne.symm g1), if_neg (Ne.symm g2)]

/-- new arrays for the transpose of an object -/
theorem separate_transpose {m : BlockMem} (h : Separate m) (i : ℕ) (o : BlockRef) (a : BlockAnalysis) (ho : m.objs i = some o)
    (ha : m.view o = some a) (t : Sym) :
    Separate ((m.alloc t).2.put i (some { o with structTr := (m.alloc t).1 })) ∧
    analyses ((m.alloc t).2.put i (some { o with structTr := (m.alloc t).1 })) = Analyses.put (analyses m) i (some { a with structTr := t }) := by
  have hlt := fun a => @Spec.Separate.lt m h a
  obtain ⟨⟨h1', h2', h3', h4', h5'⟩, -⟩ := separate_alloc h t
  obtain ⟨h1, h2, h3, h4, h5⟩ := h
  have hb : (m.alloc t).2.heap.blocks m.heap.born = some (t, ()) := by simp [BlockMem.alloc, PolyHeap.make]
  have hne : ∀ b, m.heap.blocks b ≠ none → (m.alloc t).2.heap.blocks b = m.heap.blocks b := by
    intro b hb
    have := hlt b hb
    simp only [BlockMem.alloc, PolyHeap.make]
    rw [if_neg (by omega)]
  refine ⟨⟨?_, ?_, h3', h4', h5'⟩, ?_⟩
  · intro j o' hj
    simp only [BlockMem.put] at hj ⊢
    by_cases hji : j = i
    · rw [if_pos hji] at hj
      cases hj
      refine ⟨(h1' i o ho).1, ?_⟩
      show (m.alloc t).2.heap.blocks m.heap.born ≠ none
      rw [hb]
      simp
    · rw [if_neg hji] at hj
      exact h1' j o' hj
  · intro j k o1 o2 hj hk
    have e : ∀ j o', m.objs j = some o' → o'.struct.ptr ≠ m.heap.born ∧ o'.structTr.ptr ≠ m.heap.born := by
      intro j o' hj
      have := hlt _ (h1 j o' hj).1
      have := hlt _ (h1 j o' hj).2
      constructor <;> omega
    have e0 : (m.alloc t).1.ptr = m.heap.born := rfl
    simp only [BlockMem.put] at hj hk
    have hm : (m.alloc t).2.objs = m.objs := rfl
    rw [hm] at hj hk
    have := e i o ho
    have := h2 i i o o ho ho
    by_cases hji : j = i <;> by_cases hki : k = i
    · subst hji
      subst hki
      rw [if_pos rfl] at hj hk
      cases hj
      cases hk
      exact ⟨this.1 |> fun _ => (e _ o ho).1, fun hc => absurd rfl hc⟩
    · rw [if_pos hji] at hj
      rw [if_neg hki] at hk
      cases hj
      have g := h2 i k o o2 ho hk
      have g2 := e k o2 hk
      refine ⟨g.1, fun _ => ⟨(g.2 (Ne.symm hki)).1, ?_⟩⟩
      exact Ne.symm g2.2
    · rw [if_neg hji] at hj
      rw [if_pos hki] at hk
      cases hk
      have g := h2 j i o1 o hj ho
      have g2 := e j o1 hj
      exact ⟨g2.1, fun _ => ⟨(g.2 hji).1, g2.2⟩⟩
    · rw [if_neg hji] at hj
      rw [if_neg hki] at hk
      exact h2 j k o1 o2 hj hk
  · funext j
    simp only [analyses, Analyses.put, BlockMem.put, BlockMem.view, BlockMem.sym] at ha ⊢
    by_cases hj : j = i
    · simp only [hj, if_true, Option.bind_some, BlockMem.view, BlockMem.sym]
      have g1 := h1 i o ho
      rw [hne _ g1.1]
      have e0 : (m.alloc t).1 = ⟨m.heap.born, t.performed⟩ := rfl
      rw [e0]
      simp only [hb, Option.map_some]
      cases e1 : m.heap.blocks o.struct.ptr with
      | none => exact absurd e1 g1.1
      | some p =>
        cases e2 : m.heap.blocks o.structTr.ptr with
        | none => exact absurd e2 g1.2
        | some q =>
          rw [e1, e2] at ha
          simp only [Option.map_some, Option.some.injEq] at ha ⊢
          rw [← ha]
    · simp only [hj, if_false]
      have hm : (m.alloc t).2.objs = m.objs := rfl
      rw [hm]
      cases ho' : m.objs j with
      | none => rfl
      | some o' =>
        have g := h1 j o' ho'
        simp only [Option.bind_some, BlockMem.view, BlockMem.sym]
        rw [hne _ g.1, hne _ g.2]

/-- the constructor -/
theorem separate_construct {m : BlockMem} (h : Separate m) (i : ℕ) (a : BlockAnalysis) (hi : m.objs i = none) :
    Separate (m.construct i a) ∧ analyses (m.construct i a) = Analyses.put (analyses m) i (some a) := by
  have hlt := fun a => @Spec.Separate.lt m h a
  obtain ⟨⟨h1', h2', h3', h4', h5'⟩, hv⟩ := separate_alloc (separate_alloc h a.struct).1 a.structTr
  obtain ⟨h1, h2, h3, h4, h5⟩ := h
  have hne : ∀ b, m.heap.blocks b ≠ none → (m.construct i a).heap.blocks b = m.heap.blocks b := by
    intro b hb
    have := hlt b hb
    show (if b = m.heap.born + 1 then some (a.structTr, ()) else if b = m.heap.born then some (a.struct, ()) else m.heap.blocks b) = _
    rw [if_neg (by omega), if_neg (by omega)]
  have hb1 : (m.construct i a).heap.blocks m.heap.born = some (a.struct, ()) := by
    simp [BlockMem.construct, BlockMem.put, BlockMem.alloc, PolyHeap.make]
  have hb2 : (m.construct i a).heap.blocks (m.heap.born + 1) = some (a.structTr, ()) := by
    simp [BlockMem.construct, BlockMem.put, BlockMem.alloc, PolyHeap.make]
  have hobj : ∀ j, (m.construct i a).objs j = if j = i then
      some { struct := ⟨m.heap.born, a.struct.performed⟩, structTr := ⟨m.heap.born + 1, a.structTr.performed⟩, indices := a.indices, perm := a.perm }
      else m.objs j := fun j => rfl
  have e : ∀ j o', m.objs j = some o' → o'.struct.ptr < m.heap.born ∧ o'.structTr.ptr < m.heap.born :=
    fun j o' hj => ⟨hlt _ (h1 j o' hj).1, hlt _ (h1 j o' hj).2⟩
  refine ⟨⟨?_, ?_, h3', h4', h5'⟩, ?_⟩
  · intro j o' hj
    rw [hobj] at hj
    by_cases hji : j = i
    · rw [if_pos hji] at hj
      cases hj
      simp [hb1, hb2]
    · rw [if_neg hji] at hj
      rw [hne _ (h1 j o' hj).1, hne _ (h1 j o' hj).2]
      exact h1 j o' hj
  · intro j k o1 o2 hj hk
    rw [hobj] at hj hk
    by_cases hji : j = i <;> by_cases hki : k = i
    · rw [if_pos hji] at hj
      rw [if_pos hki] at hk
      cases hj
      cases hk
      simp only []
      exact ⟨by omega, by omega⟩
    · rw [if_pos hji] at hj
      rw [if_neg hki] at hk
      cases hj
      have := e k o2 hk
      simp only []
      exact ⟨by omega, fun _ => ⟨by omega, by omega⟩⟩
    · rw [if_neg hji] at hj
      rw [if_pos hki] at hk
      cases hk
      have := e j o1 hj
      simp only []
      exact ⟨by omega, fun _ => ⟨by omega, by omega⟩⟩
    · rw [if_neg hji] at hj
      rw [if_neg hki] at hk
      exact h2 j k o1 o2 hj hk
  · funext j
    simp only [analyses, Analyses.put, hobj]
    by_cases hj : j = i
    · simp only [hj, if_true, Option.bind_some, BlockMem.view, BlockMem.sym, hb1, hb2, Option.map_some]
    · simp only [hj, if_false]
      cases ho' : m.objs j with
      | none => rfl
      | some o' =>
        have g := h1 j o' ho'
        simp only [Option.bind_some, BlockMem.view, BlockMem.sym]
        rw [hne _ g.1, hne _ g.2]

/-- the destructor -/
theorem separate_destroy {m : BlockMem} (h : Separate m) (i : ℕ) (o : BlockRef) (ho : m.objs i = some o) :
    ∃ m', m.step (.destroy i) = some m' ∧ Separate m' ∧ analyses m' = Analyses.put (analyses m) i none ∧
      m'.heap.born = m.heap.born ∧ m'.heap.freed = o.structTr.ptr :: o.struct.ptr :: m.heap.freed ∧
      (∀ a, m'.heap.blocks a = if a = o.structTr.ptr ∨ a = o.struct.ptr then none else m.heap.blocks a) ∧
      ∀ j, m'.objs j = if j = i then none else m.objs j := by
  have hlt := fun a => @Spec.Separate.lt m h a
  obtain ⟨h1, h2, h3, h4, h5⟩ := h
  have hl := h1 i o ho
  have hne := (h2 i i o o ho ho).1
  cases e1 : m.heap.blocks o.struct.ptr with
  | none => exact absurd e1 hl.1
  | some p =>
  cases e2 : m.heap.blocks o.structTr.ptr with
  | none => exact absurd e2 hl.2
  | some q =>
  have hs : m.step (.destroy i) = some (({ m with heap :=
      { blocks := fun b => if b = o.structTr.ptr then none else if b = o.struct.ptr then none else m.heap.blocks b
        born := m.heap.born, freed := o.structTr.ptr :: o.struct.ptr :: m.heap.freed } } : BlockMem).put i none) := by
    simp only [BlockMem.step, ho, PolyHeap.free, e1, if_true]
    rw [if_neg (Ne.symm hne), e2]
  have l1 := hlt _ hl.1
  have l2 := hlt _ hl.2
  refine ⟨_, hs, ⟨?_, ?_, ?_, ?_, ?_⟩, ?_, rfl, rfl, ?_, fun j => rfl⟩
  · intro j o' hj
    simp only [BlockMem.put] at hj ⊢
    by_cases hji : j = i
    · rw [if_pos hji] at hj; cases hj
    · rw [if_neg hji] at hj
      have g1 := h2 i j o o' ho hj
      have g2 := h2 j i o' o hj ho
      have g3 := g1.2 (Ne.symm hji)
      rw [if_neg g2.1, if_neg (Ne.symm g3.1), if_neg (Ne.symm g3.2), if_neg (Ne.symm g1.1)]
      exact h1 j o' hj
  · intro j k o1 o2 hj hk
    simp only [BlockMem.put] at hj hk
    grind
  · intro a ha
    simp only [BlockMem.put] at ha ⊢
    rw [h3 a ha]
    simp
  · simp only [BlockMem.put, List.nodup_cons, List.mem_cons, not_or]
    refine ⟨⟨Ne.symm hne, fun hc => hl.2 ((h5 _).1 hc).2⟩, fun hc => hl.1 ((h5 _).1 hc).2, h4⟩
  · intro a
    simp only [BlockMem.put, List.mem_cons, h5 a]
    by_cases ha : a = o.structTr.ptr
    · simp [ha, l2]
    · by_cases ha' : a = o.struct.ptr
      · simp [ha', l1]
      · simp [ha, ha']
  · funext j
    simp only [analyses, Analyses.put, BlockMem.put]
    by_cases hj : j = i
    · simp [hj]
    · simp only [hj, if_false]
      cases ho' : m.objs j with
      | none => rfl
      | some o' =>
        have g1 := h2 i j o o' ho ho'
        have g2 := h2 j i o' o ho' ho
        have g3 := g1.2 (Ne.symm hj)
        simp only [Option.bind_some, BlockMem.view, BlockMem.sym]
        rw [if_neg g2.1, if_neg (Ne.symm g3.1), if_neg (Ne.symm g3.2), if_neg (Ne.symm g1.1)]
  · intro a
    simp only [BlockMem.put]
    grind

/-! ### what the analysis methods leave unchanged -/

theorem analyzePattern_keeps (a : BlockAnalysis) (h : a.struct.performed = true) : (analyzePattern a).2 = a := by
  simp [analyzePattern, h]

theorem setBlockPermutation_keeps (a a' : BlockAnalysis) (q : Option (List ℕ)) (h : a.struct.performed = true)
    (he : setBlockPermutation a q = some a') : a'.structTr = a.structTr := by
  unfold setBlockPermutation at he
  simp only [Option.bind_eq_bind, Option.bind_eq_some_iff, Option.pure_def, Option.some.injEq] at he
  obtain ⟨idx, -, rfl⟩ := he
  rw [analyzePattern_keeps]
  simp [symCopy, h]

theorem find_keeps (fuel : ℕ) (a a' : BlockAnalysis) (h : a.struct.performed = true)
    (he : findSparsifyingPermutation fuel a = some a') : a'.structTr = a.structTr := by
  unfold findSparsifyingPermutation at he
  simp only [Option.bind_eq_bind, Option.bind_eq_some_iff, Option.pure_def, Option.some.injEq] at he
  obtain ⟨st, -, idx, -, rfl⟩ := he
  rw [analyzePattern_keeps]
  simp [symCopy, h]

/-- an analysis method -/
theorem separate_update {m : BlockMem} (h : Separate m) (i temps : ℕ) (f : BlockAnalysis → Option BlockAnalysis) (a a' : BlockAnalysis)
    (ha : analyses m i = some a) (hf : f a = some a') (hk : a.struct.performed = true → a'.structTr = a.structTr) :
    ∃ m', m.update i temps f = some m' ∧ Separate m' ∧ analyses m' = Analyses.put (analyses m) i (some a') ∧
      m'.heap.born = m.heap.born + temps + (if a.struct.performed then 0 else 1) ∧ m'.heap.freed = m.heap.freed := by
  simp only [analyses, Option.bind_eq_some_iff] at ha
  obtain ⟨o, ho, hv⟩ := ha
  have hfold : ∀ n, let m1 := (List.range n).foldl (fun (m : BlockMem) _ => (m.alloc a.struct).2) m
      Separate m1 ∧ analyses m1 = analyses m ∧ m1.objs = m.objs ∧ m1.heap.born = m.heap.born + n ∧ m1.heap.freed = m.heap.freed := by
    intro n
    induction n with
    | zero => exact ⟨h, rfl, rfl, rfl, rfl⟩
    | succ n ih =>
      simp only [List.range_succ, List.foldl_append, List.foldl_cons, List.foldl_nil] at ih ⊢
      obtain ⟨i1, i2, i3, i4, i5⟩ := ih
      have := separate_alloc i1 a.struct
      refine ⟨this.1, this.2.trans i2, i3, ?_, i5⟩
      show _ + 1 = _
      rw [i4]
      omega
  obtain ⟨i1, i2, i3, i4, i5⟩ := hfold temps
  unfold BlockMem.update
  simp only [ho, hv, hf]
  generalize (List.range temps).foldl (fun (m : BlockMem) _ => (m.alloc a.struct).2) m = m1 at i1 i2 i3 i4 i5 ⊢
  have ho1 : m1.objs i = some o := by rw [i3]; exact ho
  have hv1 : m1.view o = some a := by
    have := congrFun i2 i
    simp only [analyses, ho1, ho, Option.bind_some] at this
    rw [this]
    exact hv
  obtain ⟨w1, w2⟩ := separate_write i1 i o a ho1 hv1 a'.struct a'.indices a'.perm
  by_cases hp : a.struct.performed = true
  · rw [if_pos hp]
    refine ⟨_, rfl, w1, ?_, ?_, i5⟩
    · rw [w2, i2, ← hk hp]
    · rw [if_pos hp]; exact i4
  · rw [if_neg hp]
    simp only [] at w1 w2
    have t := separate_transpose w1 i { struct := ⟨o.struct.ptr, a'.struct.performed⟩, structTr := o.structTr, indices := a'.indices, perm := a'.perm }
      { struct := a'.struct, structTr := a.structTr, indices := a'.indices, perm := a'.perm } (by simp only [BlockMem.put, if_true])
      (by
        have := congrFun w2 i
        simp only [analyses, Analyses.put, if_true] at this
        simp only [BlockMem.put, if_true, Option.bind_some] at this
        exact this) a'.structTr
    refine ⟨_, rfl, ?_, ?_, ?_, i5⟩
    · refine ?_
      have := t.1
      simp only [BlockMem.put, BlockMem.alloc] at this ⊢
      convert this using 3
      split <;> rfl
    · have := t.2
      rw [w2, i2] at this
      have hpp : Analyses.put (Analyses.put (analyses m) i (some { struct := a'.struct, structTr := a.structTr, indices := a'.indices, perm := a'.perm })) i
          (some a') = Analyses.put (analyses m) i (some a') := by
        funext j
        simp only [Analyses.put]
        split <;> rfl
      rw [← hpp]
      rw [← this]
      congr 1
      simp only [BlockMem.put, BlockMem.alloc, BlockMem.mk.injEq, true_and]
      funext j
      split <;> rfl
    · rw [if_neg hp]
      show _ + 1 = _
      simp only [PolyHeap.write, i4]

end ProxNLP
