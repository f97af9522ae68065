import Verif.Lemmas.Polymorphic

/-! Property theorems for C62: value semantics and ownership of `polymorphic`. -/

set_option linter.unusedSectionVars false
namespace ProxNLP

open Spec

variable {Val Al : Type} [DecidableEq Al]

theorem cells_none {s : PolyState Val Al} {i : ℕ} (h : cells s i = none) : s.objs i = none := by
  simpa [cells] using h

theorem cells_some {s : PolyState Val Al} {i : ℕ} {al : Al} {v : Option Val} (hI : OwnsAll s) (h : cells s i = some (al, v)) :
    ∃ o, s.objs i = some o ∧ o.al = al ∧ (v = none → o.cb = none) ∧
      ∀ x, v = some x → ∃ a, o.cb = some a ∧ s.heap.blocks a = some (x, al) := by
  simp only [cells, Option.map_eq_some_iff] at h
  obtain ⟨o, ho, hp⟩ := h
  simp only [Prod.mk.injEq] at hp
  refine ⟨o, ho, hp.1, fun hv => ?_, fun x hx => ?_⟩
  · cases hc : o.cb with
    | none => rfl
    | some a =>
      obtain ⟨w, hw⟩ := hI.live i o a ho hc
      rw [hc, hv] at hp
      simp [hw] at hp
  · cases hc : o.cb with
    | none => rw [hc, hx] at hp; simp at hp
    | some a =>
      obtain ⟨w, hw⟩ := hI.live i o a ho hc
      rw [hc, hx] at hp
      simp only [Option.bind_some, hw, Option.map_some, Option.some.injEq] at hp
      exact ⟨a, rfl, by rw [hw, hp.1, hp.2]⟩

theorem construct_sim {s : PolyState Val Al} (hI : OwnsAll s) (i : ℕ) (al : Al) (v : Val) (t : Bool) (hi : s.objs i = none)
    (flag : Bool) (c' : Cells Val Al)
    (hv : (if t then (true, cells s) else (false, Cells.put (cells s) i (some (al, some v)))) = (flag, c')) :
    ∃ s', s.construct i al v t = (if flag then .threw s' else .ok s') ∧ OwnsAll s' ∧ cells s' = c' := by
  cases t with
  | true =>
    simp only [if_true, Prod.mk.injEq] at hv
    obtain ⟨rfl, rfl⟩ := hv
    exact ⟨_, rfl, ownsAll_throw hI⟩
  | false =>
    simp only [Bool.false_eq_true, if_false, Prod.mk.injEq] at hv
    obtain ⟨rfl, rfl⟩ := hv
    exact ⟨_, rfl, ownsAll_make hI i v al (fun o ho => by rw [hi] at ho; cases ho)⟩

theorem copyFrom_sim {s : PolyState Val Al} (hI : OwnsAll s) (i : ℕ) (al : Al) (o : PolyObj Al) (j : ℕ) (v : Option Val) (t : Bool)
    (hi : s.objs i = none) (hj : cells s j = some (o.al, v)) (ho : s.objs j = some o) (flag : Bool) (c' : Cells Val Al)
    (hv : (if t = true ∧ v.isSome = true then (true, cells s) else (false, Cells.put (cells s) i (some (al, v)))) = (flag, c')) :
    ∃ s', s.copyFrom i al o t = (if flag then .threw s' else .ok s') ∧ OwnsAll s' ∧ cells s' = c' := by
  obtain ⟨o', ho', -, h1, h2⟩ := cells_some hI hj
  rw [ho] at ho'
  obtain rfl := Option.some.inj ho'
  unfold PolyState.copyFrom
  cases v with
  | none =>
    simp only [Option.isSome_none, Bool.false_eq_true, and_false, if_false, Prod.mk.injEq] at hv
    obtain ⟨rfl, rfl⟩ := hv
    rw [h1 rfl]
    exact ⟨_, rfl, ownsAll_valueless hI i (some al) (fun o ho => by rw [hi] at ho; cases ho)⟩
  | some x =>
    obtain ⟨a, ha, hb⟩ := h2 x rfl
    rw [ha]
    simp only [hb]
    refine construct_sim hI i al x t hi flag c' ?_
    rw [← hv]
    cases t <;> simp

theorem put_put (s : PolyState Val Al) (i : ℕ) (x y : Option (PolyObj Al)) : (s.put i x).put i y = s.put i y := by
  simp only [PolyState.put, PolyState.mk.injEq, true_and]
  funext j
  split <;> rfl

theorem cput_put (c : Cells Val Al) (i : ℕ) (x y : Option (Cell Val Al)) : Cells.put (Cells.put c i x) i y = Cells.put c i y := by
  funext j
  simp only [Cells.put]
  split <;> rfl

theorem cput_comm (c : Cells Val Al) (i j : ℕ) (x y : Option (Cell Val Al)) (h : i ≠ j) :
    Cells.put (Cells.put c i x) j y = Cells.put (Cells.put c j y) i x := by
  funext k
  simp only [Cells.put]
  split
  · rename_i h1
    rw [if_neg (by rw [h1]; exact h.symm)]
  · rfl

theorem cput_self (c : Cells Val Al) (i : ℕ) (x : Option (Cell Val Al)) (h : c i = x) : Cells.put c i x = c := by
  funext j
  simp only [Cells.put]
  split
  · rename_i h1
    rw [h1, h]
  · rfl

theorem reset_put (s : PolyState Val Al) (i : ℕ) (x : Option (PolyObj Al)) (o : PolyObj Al) : (s.put i x).reset i o = s.reset i o := by
  cases hc : o.cb with
  | none => simp only [PolyState.reset, hc, put_put]
  | some a =>
    simp only [PolyState.reset, hc]
    change Option.map (fun h => (({ s with heap := h } : PolyState Val Al).put i x).put i (some { o with cb := none })) (s.heap.free a o.al) = _
    simp only [put_put]

theorem steal_sim {s : PolyState Val Al} (hI : OwnsAll s) (i j : ℕ) (al : Al) (o : PolyObj Al) (v : Option Val) (hi : s.objs i = none)
    (ho : s.objs j = some o) (hj : cells s j = some (o.al, v)) (hal : al = o.al) :
    OwnsAll (s.steal i al j o) ∧ cells (s.steal i al j o) = Cells.put (Cells.put (cells s) i (some (al, v))) j (some (o.al, none)) := by
  have hij : i ≠ j := by rintro rfl; rw [hi] at ho; cases ho
  have h1 := ownsAll_valueless hI i (some al) (fun o ho => by rw [hi] at ho; cases ho)
  simp only [Option.map_some] at h1
  have h2 := ownsAll_swap h1.1 i j ⟨none, al⟩ o ⟨o.cb, al⟩ { o with cb := none } (by simp [PolyState.put])
    (by simp [PolyState.put, hij.symm, ho]) ⟨rfl, fun _ => hal⟩ ⟨rfl, fun h => absurd rfl h⟩ (fun h => absurd h hij)
  rw [put_put, h1.2, cput_put] at h2
  refine ⟨h2.1, ?_⟩
  rw [PolyState.steal, h2.2]
  simp [Cells.put, hij.symm, hj]

theorem moveFrom_sim (T : PolyTraits Val Al) {s : PolyState Val Al} (hI : OwnsAll s) (i : ℕ) (al : Al) (o : PolyObj Al) (j : ℕ)
    (v : Option Val) (t : Bool) (hi : s.objs i = none) (hj : cells s j = some (o.al, v)) (ho : s.objs j = some o) (flag : Bool)
    (c' : Cells Val Al) (hT : T.copy = true → al = o.al)
    (hv : (if al = o.al then (false, Cells.put (Cells.put (cells s) i (some (al, v))) j (some (o.al, none)))
      else (if t = true ∧ v.isSome = true then (true, cells s)
        else (false, Cells.put (Cells.put (cells s) i (some (al, v))) j (some (o.al, v.map T.moved))))) = (flag, c')) :
    ∃ s', s.moveFrom T i al j o t = (if flag then .threw s' else .ok s') ∧ OwnsAll s' ∧ cells s' = c' := by
  have hij : i ≠ j := by rintro rfl; rw [hi] at ho; cases ho
  by_cases hal : al = o.al
  · rw [if_pos hal] at hv
    simp only [Prod.mk.injEq] at hv
    obtain ⟨rfl, rfl⟩ := hv
    refine ⟨_, ?_, steal_sim hI i j al o v hi ho hj hal⟩
    simp only [PolyState.moveFrom, hal, if_true, ite_self]
    rfl
  · rw [if_neg hal] at hv
    have hT' : T.copy = false := by
      cases h : T.copy with
      | false => rfl
      | true => exact absurd (hT h) hal
    obtain ⟨o', ho', -, h1, h2⟩ := cells_some hI hj
    rw [ho] at ho'
    obtain rfl := Option.some.inj ho'
    unfold PolyState.moveFrom
    simp only [hT', Bool.false_eq_true, if_false, hal]
    cases v with
    | none =>
      simp only [Option.isSome_none, Bool.false_eq_true, and_false, if_false, Prod.mk.injEq, Option.map_none] at hv
      obtain ⟨rfl, rfl⟩ := hv
      simp only [h1 rfl]
      have := ownsAll_valueless hI i (some al) (fun o ho => by rw [hi] at ho; cases ho)
      refine ⟨_, rfl, this.1, ?_⟩
      refine this.2.trans ?_
      rw [cput_self (Cells.put (cells s) i _) j]
      · rfl
      · simp [Cells.put, hij.symm, hj]
    | some x =>
      obtain ⟨a, ha, hb⟩ := h2 x rfl
      simp only [ha, hb]
      cases t with
      | true =>
        simp only [Option.isSome_some, and_self, if_true, Prod.mk.injEq] at hv
        obtain ⟨rfl, rfl⟩ := hv
        exact ⟨_, rfl, ownsAll_throw hI⟩
      | false =>
        simp only [Bool.false_eq_true, false_and, if_false, Prod.mk.injEq, Option.map_some] at hv
        obtain ⟨rfl, rfl⟩ := hv
        have hw := ownsAll_write hI j o a ho ha (T.moved x)
        have hm := ownsAll_make hw.1 i x al (fun o ho => by rw [show s.objs i = none from hi] at ho; cases ho)
        refine ⟨_, rfl, hm.1, ?_⟩
        exact hm.2.trans (by rw [hw.2, cput_comm _ _ _ _ _ hij])

/-- the new block replaces the one object `i` had -/
theorem replace_sim {s : PolyState Val Al} (hI : OwnsAll s) (i : ℕ) (d : PolyObj Al) (hd : s.objs i = some d) (v : Val) (al : Al) :
    ∃ s', ({ s with heap := (s.heap.make v al).2 } : PolyState Val Al).reset i d = some s' ∧
      OwnsAll (s'.put i (some ⟨some s.heap.born, al⟩)) ∧
      cells (s'.put i (some ⟨some s.heap.born, al⟩)) = Cells.put (cells s) i (some (al, some v)) := by
  obtain ⟨s1, h1, h2, h3, h4, h5, h6, h7⟩ := ownsAll_reset hI i d hd
  rw [reset_make hI i d hd, h1]
  have hm := ownsAll_make h2 i v al (fun o ho => by rw [h4] at ho; cases ho; rfl)
  rw [h6] at hm
  refine ⟨_, rfl, hm.1, ?_⟩
  exact hm.2.trans (by rw [h3, cput_put])

/-- object `i` loses its block and takes the allocator `al` -/
theorem clear_sim {s : PolyState Val Al} (hI : OwnsAll s) (i : ℕ) (d : PolyObj Al) (hd : s.objs i = some d) (x : Option Al) :
    ∃ s', s.reset i d = some s' ∧ OwnsAll (s'.put i (x.map fun al => ⟨none, al⟩)) ∧
      cells (s'.put i (x.map fun al => ⟨none, al⟩)) = Cells.put (cells s) i (x.map fun al => (al, none)) := by
  obtain ⟨s1, h1, h2, h3, h4, h5, h6, h7⟩ := ownsAll_reset hI i d hd
  have hm := ownsAll_valueless h2 i x (fun o ho => by rw [h4] at ho; cases ho; rfl)
  exact ⟨s1, h1, hm.1, by rw [hm.2, h3, cput_put]⟩

theorem copyInto_sim (T : PolyTraits Val Al) {s : PolyState Val Al} (hI : OwnsAll s) (i j : ℕ) (d o : PolyObj Al)
    (v : Option Val) (t : Bool) (hd : s.objs i = some d) (ho : s.objs j = some o) (hj : cells s j = some (o.al, v)) (flag : Bool)
    (c' : Cells Val Al) (hv : (if t = true ∧ v.isSome = true then (true, cells s)
      else (false, Cells.put (cells s) i (some (if T.copy then o.al else d.al, v)))) = (flag, c')) :
    ∃ s', s.copyInto T i d o t = (if flag then .threw s' else .ok s') ∧ OwnsAll s' ∧ cells s' = c' := by
  obtain ⟨o', ho', -, h1, h2⟩ := cells_some hI hj
  rw [ho] at ho'
  obtain rfl := Option.some.inj ho'
  unfold PolyState.copyInto
  cases v with
  | none =>
    simp only [Option.isSome_none, Bool.false_eq_true, and_false, if_false, Prod.mk.injEq] at hv
    obtain ⟨rfl, rfl⟩ := hv
    obtain ⟨s1, e1, e2, e3⟩ := clear_sim hI i d hd (some (if T.copy then o.al else d.al))
    simp only [h1 rfl, e1]
    exact ⟨_, rfl, e2, e3⟩
  | some x =>
    obtain ⟨a, ha, hb⟩ := h2 x rfl
    simp only [ha, hb]
    cases t with
    | true =>
      simp only [Option.isSome_some, and_self, if_true, Prod.mk.injEq] at hv
      obtain ⟨rfl, rfl⟩ := hv
      exact ⟨_, rfl, ownsAll_throw hI⟩
    | false =>
      simp only [Bool.false_eq_true, false_and, if_false, Prod.mk.injEq] at hv
      obtain ⟨rfl, rfl⟩ := hv
      obtain ⟨s1, e1, e2, e3⟩ := replace_sim hI i d hd x (if T.copy then o.al else d.al)
      simp only [Bool.false_eq_true, if_false, e1]
      exact ⟨_, rfl, e2, e3⟩

theorem moveInto_sim (T : PolyTraits Val Al) {s : PolyState Val Al} (hI : OwnsAll s) (i j : ℕ) (d o : PolyObj Al)
    (v : Option Val) (t : Bool) (hij : i ≠ j) (hd : s.objs i = some d) (ho : s.objs j = some o) (hj : cells s j = some (o.al, v))
    (flag : Bool) (c' : Cells Val Al)
    (hv : (if d.al = o.al then (false, Cells.put (Cells.put (cells s) i (some (if T.move then o.al else d.al, v))) j (some (o.al, none)))
      else if t = true ∧ v.isSome = true then (true, cells s)
      else (false, Cells.put (Cells.put (cells s) i (some (if T.move then o.al else d.al, v))) j (some (o.al, v.map T.moved)))) = (flag, c')) :
    (s.moveInto T i d j o t = .terminate ∧ T.move = true ∧ t = true ∧ d.al ≠ o.al) ∨
    ∃ s', s.moveInto T i d j o t = (if flag then .threw s' else .ok s') ∧ OwnsAll s' ∧ cells s' = c' := by
  obtain ⟨o', ho', -, h1, h2⟩ := cells_some hI hj
  rw [ho] at ho'
  obtain rfl := Option.some.inj ho'
  unfold PolyState.moveInto
  cases v with
  | none =>
    right
    have hv' : (false, Cells.put (Cells.put (cells s) i (some (if T.move then o.al else d.al, none))) j (some (o.al, none))) = (flag, c') := by
      rw [← hv]
      split <;> simp
    simp only [Prod.mk.injEq] at hv'
    obtain ⟨rfl, rfl⟩ := hv'
    obtain ⟨s1, e1, e2, e3⟩ := clear_sim hI i d hd (some (if T.move then o.al else d.al))
    simp only [h1 rfl, e1]
    refine ⟨_, rfl, e2, ?_⟩
    refine e3.trans ?_
    rw [cput_self (Cells.put (cells s) i _) j]
    · rfl
    · simp [Cells.put, hij.symm, hj]
  | some x =>
    obtain ⟨a, ha, hb⟩ := h2 x rfl
    simp only [ha, hb]
    by_cases hal : d.al = o.al
    · right
      rw [if_pos hal] at hv
      simp only [Prod.mk.injEq] at hv
      obtain ⟨rfl, rfl⟩ := hv
      simp only [hal, if_true]
      have hs := ownsAll_swap hI i j d o { d with cb := o.cb } { o with cb := d.cb } hd ho ⟨rfl, fun _ => hal⟩ ⟨rfl, fun _ => hal.symm⟩
        (fun h => absurd h hij)
      obtain ⟨s1, e1, e2, e3, e4, e5, e6, e7⟩ := ownsAll_reset hs.1 j { o with cb := d.cb } (by simp [PolyState.put])
      rw [reset_put] at e1
      rw [ha, hal] at e1
      simp only [e1, ite_self]
      have hob : s1.objs i = some ⟨some a, o.al⟩ := by
        rw [e5 i hij, PolyState.put, PolyState.put]
        simp [hij, ha, hal]
      have hput : s1.put i (some ⟨some a, o.al⟩) = s1 := by
        simp only [PolyState.put]
        congr 1
        funext k
        split
        · rename_i hk
          rw [hk, hob]
        · rfl
      rw [hput]
      refine ⟨s1, rfl, e2, ?_⟩
      rw [e3, hs.2, cput_put, hj]
      simp only [hal, Option.bind_some]
    · rw [if_neg hal] at hv
      simp only [hal, if_false]
      cases t with
      | true =>
        simp only [Option.isSome_some, and_self, if_true, Prod.mk.injEq] at hv
        obtain ⟨rfl, rfl⟩ := hv
        cases hm : T.move with
        | true => left; exact ⟨by simp, rfl, rfl, hal⟩
        | false => right; exact ⟨_, rfl, ownsAll_throw hI⟩
      | false =>
        right
        simp only [Bool.false_eq_true, false_and, if_false, Prod.mk.injEq, Option.map_some] at hv
        obtain ⟨rfl, rfl⟩ := hv
        have hw := ownsAll_write hI j o a ho ha (T.moved x)
        obtain ⟨s1, e1, e2, e3⟩ := replace_sim hw.1 i d hd x (if T.move then o.al else d.al)
        simp only [Bool.false_eq_true, if_false, e1]
        refine ⟨_, rfl, e2, ?_⟩
        refine e3.trans ?_
        rw [hw.2, cput_comm _ _ _ _ _ hij]

/-- **C62, one operation**: on a state in which every object owns its block, a legal operation has the effect value semantics
prescribes, and ownership stays intact; no block is used after its destruction, destroyed twice or lost, also when a value
constructor throws. The only other outcome is `std::terminate` in a move assignment declared `noexcept` whose allocators differ
and whose value constructor throws. -/
theorem C62_step (T : PolyTraits Val Al) {s : PolyState Val Al} (hI : OwnsAll s) (op : PolyOp Val Al)
    (hlist : ∀ i al v t, op = .makeList i al v t → T.base v = v)
    (hext : T.copy = true → ∀ i al j t o, op = .moveExt i al j t → s.objs j = some o → al = o.al)
    (flag : Bool) (c' : Cells Val Al) (hv : valueStep T (cells s) op = some (flag, c')) :
    (s.step T op = .terminate ∧ T.move = true ∧ ∃ i j d o, op = .moveAssign i j true ∧ s.objs i = some d ∧ s.objs j = some o ∧ d.al ≠ o.al) ∨
    ∃ s', s.step T op = (if flag then .threw s' else .ok s') ∧ OwnsAll s' ∧ cells s' = c' := by
  cases op with
  | make i al v t =>
    right
    simp only [valueStep] at hv
    cases hi : cells s i with
    | some x => rw [hi] at hv; cases hv
    | none =>
      rw [hi] at hv
      simp only [PolyState.step, cells_none hi]
      exact construct_sim hI i al v t (cells_none hi) flag c' (Option.some.inj hv)
  | makeList i al v t =>
    right
    simp only [valueStep] at hv
    cases hi : cells s i with
    | some x => rw [hi] at hv; cases hv
    | none =>
      rw [hi] at hv
      simp only [PolyState.step, cells_none hi, hlist i al v t rfl]
      exact construct_sim hI i al v t (cells_none hi) flag c' (Option.some.inj hv)
  | copyExt i al j t =>
    right
    simp only [valueStep] at hv
    cases hi : cells s i with
    | some x => rw [hi] at hv; cases hv
    | none =>
      cases hj : cells s j with
      | none => rw [hi, hj] at hv; cases hv
      | some x =>
        obtain ⟨al', v⟩ := x
        rw [hi, hj] at hv
        obtain ⟨o, ho, rfl, -, -⟩ := cells_some hI hj
        simp only [PolyState.step, cells_none hi, ho]
        exact copyFrom_sim hI i al o j v t (cells_none hi) hj ho flag c' (Option.some.inj hv)
  | copyCtor i j t =>
    right
    simp only [valueStep] at hv
    cases hi : cells s i with
    | some x => rw [hi] at hv; cases hv
    | none =>
      cases hj : cells s j with
      | none => rw [hi, hj] at hv; cases hv
      | some x =>
        obtain ⟨al', v⟩ := x
        rw [hi, hj] at hv
        obtain ⟨o, ho, rfl, -, -⟩ := cells_some hI hj
        simp only [PolyState.step, cells_none hi, ho]
        exact copyFrom_sim hI i (T.select o.al) o j v t (cells_none hi) hj ho flag c' (Option.some.inj hv)
  | moveExt i al j t =>
    right
    simp only [valueStep] at hv
    cases hi : cells s i with
    | some x => rw [hi] at hv; cases hv
    | none =>
      cases hj : cells s j with
      | none => rw [hi, hj] at hv; cases hv
      | some x =>
        obtain ⟨al', v⟩ := x
        rw [hi, hj] at hv
        obtain ⟨o, ho, rfl, -, -⟩ := cells_some hI hj
        simp only [PolyState.step, cells_none hi, ho]
        refine moveFrom_sim T hI i al o j v t (cells_none hi) hj ho flag c' (fun h => hext h i al j t o rfl ho) ?_
        apply Option.some.inj
        rw [← hv]
        simp only
        split <;> rfl
  | moveCtor i j =>
    right
    simp only [valueStep] at hv
    cases hi : cells s i with
    | some x => rw [hi] at hv; cases hv
    | none =>
      cases hj : cells s j with
      | none => rw [hi, hj] at hv; cases hv
      | some x =>
        obtain ⟨al', v⟩ := x
        rw [hi, hj] at hv
        obtain ⟨o, ho, rfl, -, -⟩ := cells_some hI hj
        simp only [PolyState.step, cells_none hi, ho]
        refine moveFrom_sim T hI i o.al o j v false (cells_none hi) hj ho flag c' (fun _ => rfl) ?_
        rw [if_pos rfl]
        exact Option.some.inj hv
  | copyAssign i j t =>
    right
    simp only [valueStep] at hv
    cases hi : cells s i with
    | none => rw [hi] at hv; cases hv
    | some y =>
      obtain ⟨al, w⟩ := y
      cases hj : cells s j with
      | none => rw [hi, hj] at hv; cases hv
      | some x =>
        obtain ⟨al', v⟩ := x
        rw [hi, hj] at hv
        obtain ⟨o, ho, rfl, -, -⟩ := cells_some hI hj
        obtain ⟨d, hd, rfl, -, -⟩ := cells_some hI hi
        simp only [PolyState.step, hd, ho]
        by_cases hij : i = j
        · simp only [hij, if_true] at hv ⊢
          simp only [Option.some.injEq, Prod.mk.injEq] at hv
          obtain ⟨rfl, rfl⟩ := hv
          exact ⟨s, rfl, hI, rfl⟩
        · simp only [hij, if_false] at hv ⊢
          exact copyInto_sim T hI i j d o v t hd ho hj flag c' (Option.some.inj hv)
  | moveAssign i j t =>
    simp only [valueStep] at hv
    cases hi : cells s i with
    | none => rw [hi] at hv; cases hv
    | some y =>
      obtain ⟨al, w⟩ := y
      cases hj : cells s j with
      | none => rw [hi, hj] at hv; cases hv
      | some x =>
        obtain ⟨al', v⟩ := x
        rw [hi, hj] at hv
        obtain ⟨o, ho, rfl, -, -⟩ := cells_some hI hj
        obtain ⟨d, hd, rfl, -, -⟩ := cells_some hI hi
        simp only [PolyState.step, hd, ho]
        by_cases hij : i = j
        · simp only [hij, if_true] at hv ⊢
          simp only [Option.some.injEq, Prod.mk.injEq] at hv
          obtain ⟨rfl, rfl⟩ := hv
          exact Or.inr ⟨s, rfl, hI, rfl⟩
        · simp only [hij, if_false] at hv ⊢
          rcases moveInto_sim T hI i j d o v t hij hd ho hj flag c' (by
            apply Option.some.inj
            rw [← hv]
            split
            · rfl
            · split <;> rfl) with h | h
          · left
            refine ⟨h.1, h.2.1, i, j, d, o, by rw [h.2.2.1], hd, ho, h.2.2.2⟩
          · exact Or.inr h
  | swap i j =>
    right
    simp only [valueStep] at hv
    cases hi : cells s i with
    | none => rw [hi] at hv; cases hv
    | some y =>
      obtain ⟨al, w⟩ := y
      cases hj : cells s j with
      | none => rw [hi, hj] at hv; cases hv
      | some x =>
        obtain ⟨al', v⟩ := x
        rw [hi, hj] at hv
        obtain ⟨o, ho, rfl, -, -⟩ := cells_some hI hj
        obtain ⟨d, hd, rfl, -, -⟩ := cells_some hI hi
        have hdo : i = j → d = o := by rintro rfl; rw [hd] at ho; exact Option.some.inj ho
        simp only [PolyState.step, hd, ho]
        by_cases hT : T.swap = true
        · simp only [hT, if_true, Option.some.injEq, Prod.mk.injEq] at hv ⊢
          obtain ⟨rfl, rfl⟩ := hv
          have hs := ownsAll_swap hI i j d o o d hd ho ⟨rfl, fun _ => rfl⟩ ⟨rfl, fun _ => rfl⟩ (fun h => ⟨hdo h, (hdo h).symm⟩)
          refine ⟨_, rfl, hs.1, ?_⟩
          rw [hs.2, hi, hj]
          rfl
        · simp only [hT, Bool.false_eq_true, if_false] at hv ⊢
          by_cases hal : d.al = o.al
          · rw [if_pos hal] at hv
            simp only [hal, if_true, Option.some.injEq, Prod.mk.injEq] at hv ⊢
            obtain ⟨rfl, rfl⟩ := hv
            have hs := ownsAll_swap hI i j d o { d with cb := o.cb } { o with cb := d.cb } hd ho ⟨rfl, fun _ => hal⟩
              ⟨rfl, fun _ => hal.symm⟩ (fun h => ⟨hdo h, by rw [hdo h]⟩)
            rw [hal] at hs
            refine ⟨_, rfl, hs.1, ?_⟩
            rw [hs.2, hi, hj]
            rfl
          · rw [if_neg hal] at hv
            cases hv
  | write i v =>
    right
    simp only [valueStep] at hv
    cases hi : cells s i with
    | none => rw [hi] at hv; cases hv
    | some y =>
      obtain ⟨al, w⟩ := y
      obtain ⟨d, hd, rfl, h1, h2⟩ := cells_some hI hi
      cases w with
      | none => rw [hi] at hv; cases hv
      | some x =>
        rw [hi] at hv
        simp only [Option.some.injEq, Prod.mk.injEq] at hv
        obtain ⟨rfl, rfl⟩ := hv
        obtain ⟨a, ha, hb⟩ := h2 x rfl
        obtain ⟨cb, al⟩ := d
        simp only at ha
        subst ha
        simp only [PolyState.step, hd, hb]
        exact ⟨_, rfl, ownsAll_write hI i _ a hd rfl v⟩
  | destroy i =>
    right
    simp only [valueStep] at hv
    cases hi : cells s i with
    | none => rw [hi] at hv; cases hv
    | some y =>
      obtain ⟨al, w⟩ := y
      obtain ⟨d, hd, rfl, h1, h2⟩ := cells_some hI hi
      rw [hi] at hv
      simp only [Option.some.injEq, Prod.mk.injEq] at hv
      obtain ⟨rfl, rfl⟩ := hv
      obtain ⟨s1, e1, e2, e3⟩ := clear_sim hI i d hd none
      simp only [PolyState.step, hd, e1]
      exact ⟨_, rfl, e2, e3⟩

/-- **C62, histories**: every legal history of operations, on any number of objects and with exceptions thrown by value
constructors at any point, runs without undefined behaviour and shows exactly the values that value semantics prescribes
(so copies are independent of their originals and self-assignment changes nothing); afterwards every object owns its block
alone and every other block was destroyed exactly once. Hypotheses: the allocator does not propagate on copy assignment, or
the allocator-extended move constructor is not used (else false: `C62_move_allocator_false`); initializer-list construction
only with `U = T` (else false: `C62_list_false`). -/
theorem C62_value_semantics (T : PolyTraits Val Al) (ops : List (PolyOp Val Al)) (c : Cells Val Al)
    (hrun : valueRun T (fun _ => none) ops = some c)
    (hlist : ∀ i al v t, PolyOp.makeList i al v t ∈ ops → T.base v = v)
    (hext : T.copy = false ∨ ∀ i al j t, PolyOp.moveExt i al j t ∉ ops) :
    (PolyState.empty.run T ops = .terminate ∧ T.move = true ∧ (∃ i j, PolyOp.moveAssign i j true ∈ ops) ∧ ∃ al al' : Al, al ≠ al') ∨
    ∃ s', PolyState.empty.run T ops = .ok s' ∧ OwnsAll s' ∧ cells s' = c := by
  suffices H : ∀ (ops : List (PolyOp Val Al)) (s : PolyState Val Al), OwnsAll s → valueRun T (cells s) ops = some c →
      (∀ i al v t, PolyOp.makeList i al v t ∈ ops → T.base v = v) →
      (T.copy = false ∨ ∀ i al j t, PolyOp.moveExt i al j t ∉ ops) →
      (s.run T ops = .terminate ∧ T.move = true ∧ (∃ i j, PolyOp.moveAssign i j true ∈ ops) ∧ ∃ al al' : Al, al ≠ al') ∨
      ∃ s', s.run T ops = .ok s' ∧ OwnsAll s' ∧ cells s' = c from
    H ops PolyState.empty ownsAll_empty hrun hlist hext
  clear hrun hlist hext ops
  intro ops
  induction ops with
  | nil =>
    intro s hI hr _ _
    exact Or.inr ⟨s, rfl, hI, Option.some.inj hr⟩
  | cons op ops ih =>
    intro s hI hr hl he
    simp only [valueRun] at hr
    cases hv : valueStep T (cells s) op with
    | none => rw [hv] at hr; cases hr
    | some x =>
      obtain ⟨flag, c'⟩ := x
      rw [hv] at hr
      have hstep := C62_step T hI op (fun i al v t h => hl i al v t (by rw [← h]; exact List.mem_cons_self))
        (fun hT i al j t o h _ => by
          rcases he with he | he
          · rw [hT] at he; cases he
          · exact absurd (by rw [← h]; exact List.mem_cons_self) (he i al j t)) flag c' hv
      rcases hstep with ⟨h1, h2, i, j, d, o, rfl, _, _, hne⟩ | ⟨s', h1, h2, h3⟩
      · left
        exact ⟨by rw [PolyState.run, h1], h2, ⟨i, j, List.mem_cons_self⟩, _, _, hne⟩
      · have hrun : s.run T (op :: ops) = s'.run T ops := by
          rw [PolyState.run, h1]
          cases flag <;> rfl
        rw [hrun]
        rcases ih s' h2 (by rw [h3]; exact hr) (fun i al v t h => hl i al v t (List.mem_cons_of_mem _ h))
          (he.imp id fun h i al j t hm => h i al j t (List.mem_cons_of_mem _ hm)) with ⟨e1, e2, ⟨i, j, e3⟩, e4⟩ | e
        · exact Or.inl ⟨e1, e2, ⟨i, j, List.mem_cons_of_mem _ e3⟩, e4⟩
        · exact Or.inr e

/-- **C62, as the library uses it** (`std::allocator`: all allocators are equal, copy assignment does not propagate): no legal
history ends in undefined behaviour or termination. -/
theorem C62_std_allocator [Subsingleton Al] (T : PolyTraits Val Al) (hT : T.copy = false) (ops : List (PolyOp Val Al)) (c : Cells Val Al)
    (hrun : valueRun T (fun _ => none) ops = some c) (hlist : ∀ i al v t, PolyOp.makeList i al v t ∈ ops → T.base v = v) :
    ∃ s', PolyState.empty.run T ops = .ok s' ∧ OwnsAll s' ∧ cells s' = c := by
  rcases C62_value_semantics T ops c hrun hlist (Or.inl hT) with ⟨_, _, _, al, al', hne⟩ | h
  · exact absurd (Subsingleton.elim al al') hne
  · exact h

/-- **C62, no leak**: if all objects have been destroyed, every block ever made was destroyed, once. -/
theorem C62_no_leak (s : PolyState Val Al) (h : OwnsAll s) (hd : ∀ i, cells s i = none) :
    (∀ a, s.heap.blocks a = none) ∧ ∀ a < s.heap.born, s.heap.freed.count a = 1 := by
  have hn : ∀ a, s.heap.blocks a = none := by
    intro a
    cases hb : s.heap.blocks a with
    | none => rfl
    | some p =>
      obtain ⟨i, o, ho, _⟩ := h.owned a p hb
      rw [cells_none (hd i)] at ho
      cases ho
  exact ⟨hn, fun a ha => List.count_eq_one_of_mem h.once ((h.gone a).2 ⟨ha, hn a⟩)⟩

/-- **C62, independence of copies**: writing through a copy does not change the original, nor the other way round. -/
theorem C62_copies_independent (T : PolyTraits Val Al) {s : PolyState Val Al} (hI : OwnsAll s) (i j : ℕ) (hij : i ≠ j) (v : Val) (al : Al) (x : Val)
    (hi : cells s i = some (al, some x)) :
    ∃ s', s.step T (.write i v) = .ok s' ∧ cells s' i = some (al, some v) ∧ cells s' j = cells s j := by
  rcases C62_step T hI (.write i v) (by simp) (by simp) false (Cells.put (cells s) i (some (al, some v))) (by simp [valueStep, hi]) with
    ⟨_, _, _, _, _, _, h, _⟩ | ⟨s', h1, _, h3⟩
  · cases h
  · refine ⟨s', h1, ?_, ?_⟩
    · rw [h3]; simp [Cells.put]
    · rw [h3]; simp [Cells.put, hij.symm]

namespace Demo

/-- `std::allocator`, values are numbers, a moved-from value becomes 0 -/
def stdTraits : PolyTraits ℕ Unit := ⟨false, true, false, id, fun _ => 0, id⟩

/-- two numbered allocators that do not propagate -/
def twoTraits (copy move : Bool) : PolyTraits ℕ ℕ := ⟨copy, move, false, id, fun _ => 0, fun _ => 0⟩

def polyOps : List (PolyOp ℕ Unit) :=
  [.make 0 () 7 false, .copyCtor 1 0 true, .copyCtor 1 0 false, .write 1 9, .copyAssign 0 0 false, .moveCtor 2 0, .moveAssign 0 1 false,
    .copyAssign 1 2 true, .copyAssign 1 2 false, .swap 0 2, .destroy 1, .swap 2 2]

end Demo

/-- the hypotheses are met by a history with an exception, self-assignment, moves and a swap -/
example : ∃ c, valueRun Demo.stdTraits (fun _ => none) Demo.polyOps = some c ∧ c 0 = some ((), some 7) ∧ c 1 = none ∧ c 2 = some ((), some 9) :=
  ⟨_, rfl, by decide, by decide, by decide⟩

/-- and by one with two allocators in which values are moved -/
example : ∃ c, valueRun (Demo.twoTraits false false) (fun _ => none)
    [.make 0 1 7 false, .moveExt 1 2 0 true, .moveExt 1 2 0 false, .make 2 3 5 false, .moveAssign 2 1 false] = some c ∧
    c 0 = some (1, some 0) ∧ c 1 = some (2, some 0) ∧ c 2 = some (3, some 7) :=
  ⟨_, rfl, by decide, by decide, by decide⟩

/-- **C62 is false for allocators that propagate on copy assignment**: the allocator-extended move constructor tests the wrong
trait and takes over a block of another allocator; the destructor then returns it to the wrong allocator. -/
theorem C62_move_allocator_false : ∃ (T : PolyTraits ℕ ℕ) (ops : List (PolyOp ℕ ℕ)), T.copy = true ∧
    (∃ c, valueRun T (fun _ => none) ops = some c) ∧ PolyState.empty.run T ops = .ub :=
  ⟨Demo.twoTraits true true, [.make 0 1 7 false, .moveExt 1 2 0 false, .destroy 1], rfl, ⟨_, rfl⟩, rfl⟩

/-- **C62 is false for the initializer-list constructor**: asked to hold a `U`, the object holds a `T`. -/
theorem C62_list_false : ∃ (T : PolyTraits ℕ ℕ) (ops : List (PolyOp ℕ ℕ)) (c : Cells ℕ ℕ) (s : PolyState ℕ ℕ),
    valueRun T (fun _ => none) ops = some c ∧ PolyState.empty.run T ops = .ok s ∧ cells s 0 ≠ c 0 :=
  ⟨Demo.twoTraits false true, [.makeList 0 1 7 false], _, _, rfl, rfl, by decide⟩

/-- **C62, termination**: with an allocator that propagates on move assignment and unequal allocators, an exception in the
move of the value terminates the program. -/
theorem C62_terminate_example : ∃ (T : PolyTraits ℕ ℕ) (ops : List (PolyOp ℕ ℕ)), T.copy = false ∧
    (∃ c, valueRun T (fun _ => none) ops = some c) ∧ PolyState.empty.run T ops = .terminate :=
  ⟨Demo.twoTraits false true, [.make 0 1 7 false, .make 1 2 8 false, .moveAssign 0 1 true], rfl, ⟨_, rfl⟩, rfl⟩

end ProxNLP
