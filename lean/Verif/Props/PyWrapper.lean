import Verif.Lemmas.PyWrapper

/-!
# C120: objects of Python classes stored by value

The theorems are about every program (list of statements) from an empty memory, of any length and with any number of objects. What a
program should show is defined in `Spec/PyWrapper.lean`, on values alone.
-/

set_option linter.unusedSectionVars false

namespace ProxNLP

open Spec

variable {V W : Type}

/-- **C120, values**: as long as no wrapped object is itself moved, a program shows exactly what it shows on plain values: storing and
copying copies attributes and members, `b.x` refers to the stored value, and memory of an ended object is used exactly if the program uses
a value that no slot has any more. -/
theorem C120_values_partial (prog : List (WrapStmt V W)) (hn : NoRelocate prog) :
    (WrapHeap.run {} prog).map Prod.snd = (Values.run {} prog).map Prod.snd := by
  have h := (run_sim prog (wf_empty (V := V) (W := W)) hn).1
  rw [heapOf_empty] at h
  rw [h, Option.map_map]
  rfl

/-- **C120, safety**: without references to stored values (`b.x`) no program uses the memory of an ended object, in whatever order
objects are stored, copied, assigned and ended, from Python or from C++. -/
theorem C120_safe_partial (prog : List (WrapStmt V W)) (hn : NoRelocate prog) (hg : ∀ t, WrapStmt.get t ∉ prog) :
    ∃ h outs, WrapHeap.run {} prog = some (h, outs) ∧ outs.length = prog.length := by
  obtain ⟨r, hr⟩ := own_run prog (wf_empty (V := V) (W := W)) (by intro k v hk; simp at hk) hn hg
  have h := (run_sim prog (wf_empty (V := V) (W := W)) hn).1
  rw [heapOf_empty, hr] at h
  exact ⟨_, _, h, values_run_length prog hr⟩

/-- **C120, independence**: if a stored object is never handed out to Python, what it computes stays the same whatever else happens: changes
of the object it was made from or of other copies do not show, and it outlives them. Here `pre` is everything before a first call, `mid`
everything between this call and a second one. -/
theorem C120_independent_partial (pre mid : List (WrapStmt V W)) (t : ℕ) (hn : NoRelocate (pre ++ mid)) (hp : WrapStmt.get t ∉ pre)
    (hm : ∀ a ∈ mid, ¬ Touches t a) (h : WrapHeap V W) (outs : List (WrapOut V W))
    (hr : WrapHeap.run {} (pre ++ .call t :: (mid ++ [.call t])) = some (h, outs)) (v : V) (w : W)
    (ho : outs[pre.length]? = some (.result v w)) : outs[pre.length + 1 + mid.length]? = some (.result v w) := by
  have hn' : NoRelocate (pre ++ .call t :: (mid ++ [.call t])) := by
    intro i hi
    simp only [List.mem_append, List.mem_cons, reduceCtorEq, false_or, or_false, List.not_mem_nil] at hi
    exact hn i (List.mem_append.2 hi)
  have hnp : NoRelocate pre := fun i hi => hn i (List.mem_append.2 (.inl hi))
  have hnm : NoRelocate mid := fun i hi => hn i (List.mem_append.2 (.inr hi))
  have hsim := (run_sim _ (wf_empty (V := V) (W := W)) hn').1
  rw [heapOf_empty, hr] at hsim
  obtain ⟨⟨s', outs'⟩, hs, he⟩ := Option.map_eq_some_iff.1 hsim.symm
  obtain ⟨-, rfl⟩ := Prod.mk.inj he
  rw [values_run_append, Option.bind_eq_some_iff] at hs
  obtain ⟨⟨s1, o1⟩, h1, hs⟩ := hs
  have l1 := values_run_length _ h1
  have hw1 := (run_sim pre (wf_empty (V := V) (W := W)) hnp).2 _ h1
  have hu1 := unshared_run (t := t) pre (wf_empty (V := V) (W := W)) hnp (by intro k hk; simp at hk) hp h1
  obtain ⟨⟨s5, o5⟩, h5, hs⟩ := Option.map_eq_some_iff.1 hs
  obtain ⟨rfl, rfl⟩ := Prod.mk.inj hs
  simp only [Values.run, Option.bind_eq_some_iff] at h5
  obtain ⟨⟨s2, o2⟩, h2, ⟨s4, o4⟩, h4, h5⟩ := h5
  obtain ⟨rfl, rfl⟩ := Prod.mk.inj (Option.some.inj h5)
  simp only at l1
  have e2 : o2 = .result v w := by
    rw [← l1, List.getElem?_append_right (Nat.le_refl _)] at ho
    simpa using ho
  subst e2
  simp only [Values.step] at h2
  cases hk : s1.slots[t]?.join with
  | none => simp [hk] at h2
  | some k =>
    simp only [hk, Option.bind_eq_some_iff] at h2
    obtain ⟨x, hx, h2⟩ := h2
    obtain ⟨rfl, hvw⟩ := Prod.mk.inj (Option.some.inj h2)
    rw [values_run_append, Option.bind_eq_some_iff] at h4
    obtain ⟨⟨s3, o3⟩, h3, h4⟩ := h4
    have l3 := values_run_length _ h3
    simp only at l3 h4
    obtain ⟨a, b⟩ := kept_run (x := x) mid hw1 hnm hu1 hm (mem_of_join hk) (exists_val hx).1 h3
    obtain ⟨⟨s6, o6⟩, h6, h4⟩ := Option.map_eq_some_iff.1 h4
    obtain ⟨rfl, rfl⟩ := Prod.mk.inj h4
    have hj : s3.slots[t]?.join = some k := by simp only [a]; rfl
    have hxx : s3.exists? k = some x := by simp [Values.exists?, b, List.mem_of_getElem? a]
    simp only [Values.run, Values.step, hj, hxx, Option.bind_some, Option.some.injEq, Prod.mk.injEq] at h6
    obtain ⟨rfl, rfl⟩ := h6
    rw [← hvw, List.getElem?_append_right (show o1.length ≤ _ by omega)]
    show (_ :: _ : List (WrapOut V W))[pre.length + 1 + mid.length - o1.length]? = _
    have : pre.length + 1 + mid.length - o1.length = mid.length + 1 := by omega
    rw [this, List.getElem?_cons_succ, List.getElem?_append_right (by omega), l3]
    simp

/-- **C120, no leak**: when all variables are deleted and all slots ended, both halves of every object have ended. -/
theorem C120_no_leak_partial (prog : List (WrapStmt V W)) (hn : NoRelocate prog) (h : WrapHeap V W) (outs : List (WrapOut V W))
    (hr : WrapHeap.run {} prog = some (h, outs)) (hv : ∀ k, some k ∉ h.vars) (hs : ∀ k, some k ∉ h.slots) :
    (∀ p ∈ h.pys, p.alive = false) ∧ ∀ c ∈ h.cpps, c.alive = false := by
  have hsim := (run_sim prog (wf_empty (V := V) (W := W)) hn).1
  rw [heapOf_empty, hr] at hsim
  obtain ⟨⟨s, outs'⟩, -, he⟩ := Option.map_eq_some_iff.1 hsim.symm
  obtain ⟨rfl, rfl⟩ := Prod.mk.inj he
  constructor
  · intro p hp
    obtain ⟨k, hk⟩ := List.mem_iff_getElem?.1 hp
    rw [heapOf_pys, Option.map_eq_some_iff] at hk
    obtain ⟨x, -, rfl⟩ := hk
    simp only [heapOf_vars, heapOf_slots] at hv hs
    simp [pyOf, hv k, hs k]
  · intro c hc
    obtain ⟨k, hk⟩ := List.mem_iff_getElem?.1 hc
    rw [heapOf_cpps, Option.map_eq_some_iff] at hk
    obtain ⟨x, -, rfl⟩ := hk
    simp only [heapOf_vars, heapOf_slots] at hv hs
    simp [cppOf, hv k, hs k]

namespace Demo

/-- an object is stored and then changed and deleted; the stored one is copied, handed out and changed through Python -/
def wrapProg : List (WrapStmt ℕ ℕ) :=
  [.create 1 10 true, .store 0, .setAttr 0 2, .setData 0 20, .read 0, .call 0, .drop 0, .call 0, .copy 0, .get 0, .setAttr 1 3, .setData 1 30,
    .call 0, .call 1, .assign 1 0, .drop 1, .destroy 0, .call 1, .destroy 1]

end Demo

/-- what this program shows, and that nothing is left at the end -/
example : (WrapHeap.run {} Demo.wrapProg).map Prod.snd = some [.quiet, .quiet, .quiet, .quiet, .result 2 20, .result 1 10, .quiet,
      .result 1 10, .quiet, .quiet, .quiet, .quiet, .result 3 30, .result 1 10, .quiet, .quiet, .quiet, .result 3 30, .quiet] ∧
    (WrapHeap.run {} Demo.wrapProg).map (fun r => (r.1.pys.map PyHalf.alive, r.1.cpps.map CppHalf.alive, r.1.vars, r.1.slots)) =
      some ([false, false, false, false], [false, false, false, false], [none, none], [none, none]) ∧
    NoRelocate Demo.wrapProg :=
  ⟨by decide +kernel, by decide +kernel, by simp [NoRelocate, Demo.wrapProg]⟩

/-- the two calls of `C120_independent_partial`: the original is changed and deleted between them -/
example : (WrapHeap.run {} ([.create 1 10 true, .store 0] ++ .call 0 :: ([.setAttr 0 2, .copy 0, .get 1, .setAttr 1 7, .drop 0] ++ [.call 0]) :
      List (WrapStmt ℕ ℕ))).map Prod.snd =
    some [.quiet, .quiet, .result 1 10, .quiet, .quiet, .quiet, .quiet, .quiet, .result 1 10] := by
  decide +kernel

/-- **What does not hold, moves**: the move constructor of a wrapped object leaves the holder of its Python half pointing to the old
object. A method called afterwards that uses the C++ part of `self` uses freed memory. -/
theorem C120_relocate_false : WrapHeap.run {} [.create 1 10 true, .store 0, .call 0, .relocate 0, .call 0] = none ∧
    (Values.run {} [.create 1 10 true, .store 0, .call 0, .relocate 0, .call 0]).map Prod.snd =
      some [.quiet, .quiet, .result 1 10, .quiet, .result 1 10] ∧
    ∃ h outs, WrapHeap.run {} ([.create 1 10 true, .store 0, .call 0, .relocate 0] : List (WrapStmt ℕ ℕ)) = some (h, outs) :=
  ⟨by decide +kernel, by decide +kernel, _, _, rfl⟩

/-- **What does not hold, references**: `y = b.x` keeps the Python half alive but not the C++ half. After `b.x = other`, or the end of `b`,
`y` looks valid (its attributes can be read and set) but every method that uses its C++ part uses freed memory. -/
theorem C120_reference_false : WrapHeap.run {} [.create 1 10 true, .store 0, .get 0, .read 1, .put 0 0, .read 1] = none ∧
    WrapHeap.run {} [.create 1 10 true, .store 0, .get 0, .destroy 0, .read 1] = none ∧
    (WrapHeap.run {} ([.create 1 10 true, .store 0, .get 0, .destroy 0, .setAttr 1 5] : List (WrapStmt ℕ ℕ))).map Prod.snd =
      some [.quiet, .quiet, .quiet, .quiet, .quiet] :=
  ⟨by decide +kernel, by decide +kernel, by decide +kernel⟩

/-- **What does not hold, constructors with arguments**: an object whose class cannot be called with what `__getinitargs__` returns (no
arguments, if the class does not define it) cannot be stored: `deepcopy` raises, although the object itself works. -/
theorem C120_init_args_false : (WrapHeap.run {} ([.create 1 10 false, .read 0, .store 0] : List (WrapStmt ℕ ℕ))).map Prod.snd =
    some [.quiet, .result 1 10, .raised] := by
  decide +kernel

end ProxNLP
