import Verif.Spec.Polymorphic

/-! Ownership invariant of `polymorphic` objects. -/

set_option linter.unusedSectionVars false
namespace ProxNLP

open Spec

variable {Val Al : Type} [DecidableEq Al]

/-- every object owns its block alone, blocks come from the owner's allocator, no block is without owner, and the destroyed
blocks are exactly those that were made and are not alive, each destroyed once -/
structure Spec.OwnsAll (s : PolyState Val Al) : Prop where
  live : ∀ i o a, s.objs i = some o → o.cb = some a → ∃ v, s.heap.blocks a = some (v, o.al)
  alone : ∀ i j o o' a, s.objs i = some o → s.objs j = some o' → o.cb = some a → o'.cb = some a → i = j
  owned : ∀ a p, s.heap.blocks a = some p → ∃ i o, s.objs i = some o ∧ o.cb = some a
  fresh : ∀ a, s.heap.born ≤ a → s.heap.blocks a = none
  once : s.heap.freed.Nodup
  gone : ∀ a, a ∈ s.heap.freed ↔ a < s.heap.born ∧ s.heap.blocks a = none

theorem Spec.OwnsAll.lt {s : PolyState Val Al} (h : OwnsAll s) {a : ℕ} {p : Val × Al} (ha : s.heap.blocks a = some p) : a < s.heap.born := by
  by_contra hc
  rw [h.fresh a (by omega)] at ha
  cases ha

theorem ownsAll_empty : OwnsAll (PolyState.empty : PolyState Val Al) :=
  ⟨by simp [PolyState.empty], by simp [PolyState.empty], by simp [PolyState.empty], by simp [PolyState.empty], by simp [PolyState.empty],
    by simp [PolyState.empty]⟩

/-- a new block, owned by object `i` -/
theorem ownsAll_make {s : PolyState Val Al} (h : OwnsAll s) (i : ℕ) (v : Val) (al : Al) (hi : ∀ o, s.objs i = some o → o.cb = none) :
    OwnsAll (({ s with heap := (s.heap.make v al).2 }).put i (some ⟨some s.heap.born, al⟩)) ∧
    cells (({ s with heap := (s.heap.make v al).2 }).put i (some ⟨some s.heap.born, al⟩)) = Cells.put (cells s) i (some (al, some v)) := by
  have hlt := fun a p => @Spec.OwnsAll.lt _ _ _ s h a p
  obtain ⟨h1, h2, h3, h4, h5, h6⟩ := h
  refine ⟨⟨?_, ?_, ?_, ?_, ?_, ?_⟩, ?_⟩ <;> simp only [PolyState.put, PolyHeap.make]
  · intro j o a hj ha
    by_cases hji : j = i
    · rw [if_pos hji] at hj
      cases hj
      cases ha
      exact ⟨v, by rw [if_pos rfl]⟩
    · rw [if_neg hji] at hj
      obtain ⟨w, hw⟩ := h1 j o a hj ha
      have := hlt a _ hw
      exact ⟨w, by rw [if_neg (by omega)]; exact hw⟩
  · intro j k o o' a hj hk ha ha'
    grind
  · intro a p ha
    by_cases hab : a = s.heap.born
    · exact ⟨i, _, by rw [if_pos rfl], by rw [hab]⟩
    · rw [if_neg hab] at ha
      obtain ⟨j, o, hj, ho⟩ := h3 a p ha
      refine ⟨j, o, ?_, ho⟩
      rw [if_neg]
      · exact hj
      · rintro rfl
        rw [hi o hj] at ho
        cases ho
  · intro a ha
    grind
  · exact h5
  · intro a
    grind
  · funext j
    simp only [cells, Cells.put]
    by_cases hj : j = i
    · simp [hj]
    · simp only [hj, if_false]
      cases ho : s.objs j with
      | none => rfl
      | some o =>
        simp only [Option.map_some]
        cases hc : o.cb with
        | none => rfl
        | some a =>
          obtain ⟨w, hw⟩ := h1 j o a ho hc
          have := hlt a _ hw
          simp only [Option.bind_some]
          rw [if_neg (by omega)]

/-- an exception while building a block -/
theorem ownsAll_throw {s : PolyState Val Al} (h : OwnsAll s) :
    OwnsAll { s with heap := s.heap.makeThrow } ∧ cells { s with heap := s.heap.makeThrow } = cells s := by
  refine ⟨⟨h.live, h.alone, h.owned, ?_, ?_, ?_⟩, rfl⟩ <;> simp only [PolyHeap.makeThrow]
  · intro a ha
    exact h.fresh a (by omega)
  · rw [List.nodup_cons]
    refine ⟨fun hc => ?_, h.once⟩
    have := ((h.gone _).1 hc).1
    omega
  · intro a
    rw [List.mem_cons, h.gone a]
    constructor
    · rintro (rfl | h1)
      · exact ⟨by omega, h.fresh _ (Nat.le_refl _)⟩
      · exact ⟨by omega, h1.2⟩
    · rintro ⟨h1, h2⟩
      by_cases ha : a = s.heap.born
      · exact Or.inl ha
      · exact Or.inr ⟨by omega, h2⟩

/-- a valueless object -/
theorem ownsAll_valueless {s : PolyState Val Al} (h : OwnsAll s) (i : ℕ) (x : Option Al) (hi : ∀ o, s.objs i = some o → o.cb = none) :
    OwnsAll (s.put i (x.map fun al => ⟨none, al⟩)) ∧
    cells (s.put i (x.map fun al => ⟨none, al⟩)) = Cells.put (cells s) i (x.map fun al => (al, none)) := by
  obtain ⟨h1, h2, h3, h4, h5, h6⟩ := h
  have hx : ∀ o : PolyObj Al, (x.map fun al => (⟨none, al⟩ : PolyObj Al)) = some o → o.cb = none := by
    intro o ho
    cases x with
    | none => cases ho
    | some al => cases ho; rfl
  refine ⟨⟨?_, ?_, ?_, h4, h5, h6⟩, ?_⟩ <;> simp only [PolyState.put]
  · intro j o a hj ha
    grind
  · intro j k o o' a hj hk ha ha'
    grind
  · intro a p ha
    obtain ⟨j, o, hj, ho⟩ := h3 a p ha
    refine ⟨j, o, ?_, ho⟩
    rw [if_neg]
    · exact hj
    · rintro rfl
      rw [hi o hj] at ho
      cases ho
  · funext j
    simp only [cells, Cells.put]
    by_cases hj : j = i
    · simp only [hj, if_true]
      cases x <;> simp
    · simp only [hj, if_false]

/-- `reset()` -/
theorem ownsAll_reset {s : PolyState Val Al} (h : OwnsAll s) (i : ℕ) (o : PolyObj Al) (ho : s.objs i = some o) :
    ∃ s', s.reset i o = some s' ∧ OwnsAll s' ∧ cells s' = Cells.put (cells s) i (some (o.al, none)) ∧
      s'.objs i = some ⟨none, o.al⟩ ∧ (∀ j, j ≠ i → s'.objs j = s.objs j) ∧ s'.heap.born = s.heap.born ∧
      ∀ j o' a, j ≠ i → s.objs j = some o' → o'.cb = some a → s'.heap.blocks a = s.heap.blocks a := by
  cases hc : o.cb with
  | none =>
    have hoeq : o = ⟨none, o.al⟩ := by cases o; simp at hc; subst hc; rfl
    refine ⟨s.put i (some o), by rw [PolyState.reset, hc], ?_⟩
    have := ownsAll_valueless h i (some o.al) (fun o' ho' => by rw [ho] at ho'; cases ho'; exact hc)
    simp only [Option.map_some] at this
    rw [← hoeq] at this
    refine ⟨this.1, this.2, by rw [← hoeq]; simp [PolyState.put], fun j hj => by simp [PolyState.put, hj], rfl, fun _ _ _ _ _ _ => rfl⟩
  | some a =>
    obtain ⟨v, hv⟩ := h.live i o a ho hc
    have hlt := h.lt hv
    refine ⟨_, by rw [PolyState.reset, hc]; simp only [PolyHeap.free, hv, if_true, Option.map_some]; rfl, ?_⟩
    obtain ⟨h1, h2, h3, h4, h5, h6⟩ := h
    refine ⟨⟨?_, ?_, ?_, ?_, ?_, ?_⟩, ?_, ?_, ?_, rfl, ?_⟩ <;> simp only [PolyState.put]
    · intro j o' b hj hb
      grind
    · intro j k o1 o2 b hj hk hb hb'
      grind
    · intro b p hb
      grind
    · intro b hb
      grind
    · rw [List.nodup_cons]
      refine ⟨fun hc => ?_, h5⟩
      have := ((h6 _).1 hc).2
      rw [hv] at this
      cases this
    · intro b
      grind
    · funext j
      simp only [cells, Cells.put]
      by_cases hj : j = i
      · simp [hj]
      · simp only [hj, if_false]
        cases ho' : s.objs j with
        | none => rfl
        | some o' =>
          simp only [Option.map_some]
          cases hc' : o'.cb with
          | none => rfl
          | some b =>
            simp only [Option.bind_some]
            rw [if_neg]
            rintro rfl
            exact hj (h2 j i o' o b ho' ho hc' hc)
    · simp
    · intro j hj
      simp [hj]
    · intro j o' b hj ho' hb
      rw [if_neg]
      rintro rfl
      exact hj (h2 j i o' o b ho' ho hb hc)

/-- pointers change hands between two objects with the same allocator, or with their allocators -/
theorem ownsAll_swap {s : PolyState Val Al} (h : OwnsAll s) (i j : ℕ) (d o d' o' : PolyObj Al) (hd : s.objs i = some d)
    (ho : s.objs j = some o) (hd' : d'.cb = o.cb ∧ (o.cb ≠ none → d'.al = o.al)) (ho' : o'.cb = d.cb ∧ (d.cb ≠ none → o'.al = d.al))
    (hij : i = j → d = o ∧ d' = o') :
    OwnsAll ((s.put i (some d')).put j (some o')) ∧
    cells ((s.put i (some d')).put j (some o')) = Cells.put (Cells.put (cells s) i (some (d'.al, (cells s j).bind (·.2)))) j
      (some (o'.al, (cells s i).bind (·.2))) := by
  have hpi : ∀ k, ((s.put i (some d')).put j (some o')).objs k = if k = j then some o' else if k = i then some d' else s.objs k := fun _ => rfl
  obtain ⟨h1, h2, h3, h4, h5, h6⟩ := h
  refine ⟨⟨?_, ?_, ?_, h4, h5, h6⟩, ?_⟩
  · intro k x a hk ha
    rw [hpi] at hk
    change ∃ v, s.heap.blocks a = _
    by_cases hkj : k = j
    · rw [if_pos hkj] at hk
      cases hk
      rw [ho'.1] at ha
      obtain ⟨v, hv⟩ := h1 i d a hd ha
      exact ⟨v, by rw [hv, ho'.2 (by rw [ha]; simp)]⟩
    · rw [if_neg hkj] at hk
      by_cases hki : k = i
      · rw [if_pos hki] at hk
        cases hk
        rw [hd'.1] at ha
        obtain ⟨v, hv⟩ := h1 j o a ho ha
        exact ⟨v, by rw [hv, hd'.2 (by rw [ha]; simp)]⟩
      · rw [if_neg hki] at hk
        exact h1 k x a hk ha
  · intro k l x y a hk hl hx hy
    rw [hpi] at hk hl
    grind
  · intro a p ha
    obtain ⟨k, x, hk, hx⟩ := h3 a p ha
    by_cases hkj : k = j
    · subst hkj
      rw [ho] at hk
      cases hk
      by_cases hij' : i = k
      · obtain ⟨e1, e2⟩ := hij hij'
        exact ⟨k, o', by rw [hpi, if_pos rfl], by rw [ho'.1, e1]; exact hx⟩
      · exact ⟨i, d', by rw [hpi, if_neg hij', if_pos rfl], by rw [hd'.1]; exact hx⟩
    · by_cases hki : k = i
      · subst hki
        rw [hd] at hk
        cases hk
        exact ⟨j, o', by rw [hpi, if_pos rfl], by rw [ho'.1]; exact hx⟩
      · exact ⟨k, x, by rw [hpi, if_neg hkj, if_neg hki]; exact hk, hx⟩
  · funext k
    simp only [Cells.put]
    rw [cells, hpi]
    by_cases hkj : k = j
    · subst hkj
      simp only [if_true, Option.map_some, cells, hd, Option.bind_some, ho'.1]
      rfl
    · simp only [hkj, if_false]
      by_cases hki : k = i
      · subst hki
        simp only [if_true, Option.map_some, cells, ho, Option.bind_some, hd'.1]
        rfl
      · simp only [hki, if_false]
        rfl

/-- a value is replaced in place -/
theorem ownsAll_write {s : PolyState Val Al} (h : OwnsAll s) (i : ℕ) (o : PolyObj Al) (a : ℕ) (ho : s.objs i = some o)
    (ha : o.cb = some a) (w : Val) :
    OwnsAll { s with heap := s.heap.write a w } ∧
    cells { s with heap := s.heap.write a w } = Cells.put (cells s) i (some (o.al, some w)) := by
  obtain ⟨v, hv⟩ := h.live i o a ho ha
  obtain ⟨h1, h2, h3, h4, h5, h6⟩ := h
  refine ⟨⟨?_, h2, ?_, ?_, h5, ?_⟩, ?_⟩ <;> simp only [PolyHeap.write]
  · intro j x b hj hb
    obtain ⟨u, hu⟩ := h1 j x b hj hb
    split
    · exact ⟨w, by rw [hu]; rfl⟩
    · exact ⟨u, hu⟩
  · intro b p hb
    cases hc : s.heap.blocks b with
    | none => rw [hc] at hb; split at hb <;> simp at hb
    | some p' => exact h3 b p' hc
  · intro b hb
    rw [h4 b hb]
    simp
  · intro b
    rw [h6]
    split
    · simp
    · rfl
  · funext k
    simp only [cells, Cells.put]
    by_cases hk : k = i
    · subst hk
      simp [ho, ha, hv]
    · simp only [hk, if_false]
      cases ho' : s.objs k with
      | none => rfl
      | some o' =>
        simp only [Option.map_some]
        cases hc' : o'.cb with
        | none => rfl
        | some b =>
          simp only [Option.bind_some]
          rw [if_neg]
          rintro rfl
          exact hk (h2 k i o' o b ho' ho hc' ha)

/-- destroying the old block after making the new one is the same as before -/
theorem reset_make {s : PolyState Val Al} (h : OwnsAll s) (i : ℕ) (o : PolyObj Al) (ho : s.objs i = some o) (v : Val) (al : Al) :
    ({ s with heap := (s.heap.make v al).2 } : PolyState Val Al).reset i o =
      (s.reset i o).map fun s' => { s' with heap := (s'.heap.make v al).2 } := by
  cases hc : o.cb with
  | none => simp [PolyState.reset, hc, PolyState.put]
  | some a =>
    obtain ⟨w, hw⟩ := h.live i o a ho hc
    have hlt := h.lt hw
    have hne : a ≠ s.heap.born := by omega
    simp only [PolyState.reset, hc, PolyHeap.free, PolyHeap.make, hne, if_false, hw, if_true, Option.map_some, PolyState.put,
      Option.some.injEq, PolyState.mk.injEq, PolyHeap.mk.injEq, and_true]
    funext b
    by_cases h1 : b = a
    · subst h1
      simp [hne]
    · simp [h1]

end ProxNLP
