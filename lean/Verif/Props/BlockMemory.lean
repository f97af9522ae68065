import Verif.Lemmas.BlockMemory
import Verif.Props.BlockLdlt
import Mathlib.Data.Finset.Card
import Mathlib.Algebra.Order.BigOperators.Group.Finset

/-! Property theorems for C63: ownership of the arrays behind `BlockLDLT` objects. -/

set_option linter.unusedSectionVars false
namespace ProxNLP

open Spec

theorem analyses_none {m : BlockMem} (hS : Separate m) {i : ℕ} (h : analyses m i = none) : m.objs i = none := by
  cases ho : m.objs i with
  | none => rfl
  | some o =>
    have g := hS.live i o ho
    simp only [analyses, ho, Option.bind_some, BlockMem.view, BlockMem.sym] at h
    cases e1 : m.heap.blocks o.struct.ptr with
    | none => exact absurd e1 g.1
    | some p =>
      cases e2 : m.heap.blocks o.structTr.ptr with
      | none => exact absurd e2 g.2
      | some q => rw [e1, e2] at h; simp at h

theorem analyses_some {m : BlockMem} {i : ℕ} {a : BlockAnalysis} (h : analyses m i = some a) :
    ∃ o, m.objs i = some o ∧ m.view o = some a ∧ m.sym o.struct = some a.struct ∧ o.indices = a.indices ∧ o.perm = a.perm := by
  simp only [analyses, Option.bind_eq_some_iff] at h
  obtain ⟨o, ho, hv⟩ := h
  refine ⟨o, ho, hv, ?_⟩
  simp only [BlockMem.view] at hv
  split at hv
  · cases hv
    rename_i h1 _
    exact ⟨h1, rfl, rfl⟩
  · cases hv

/-- **C63** (one operation). On objects whose arrays are separate, every operation but assignment that is a legal use acts as on
values, keeps the arrays separate, and the numbers of arrays made and deleted are: two made per object created, two deleted per
object destroyed, and those lost. -/
theorem C63_step (m : BlockMem) (hS : Separate m) (op : BlockMemOp) (hna : noAssign op = true) (c' : Analyses)
    (h : analysisStep (analyses m) op = some c') :
    ∃ m', m.step op = some m' ∧ Separate m' ∧ analyses m' = c' ∧
      m'.heap.born = m.heap.born + 2 * createdBy op + lost (analyses m) op ∧
      m'.heap.freed.length = m.heap.freed.length + 2 * destroyedBy op := by
  cases op with
  | new i size s =>
    simp only [analysisStep] at h
    split at h
    · rename_i hi
      cases h
      have ho := analyses_none hS hi
      have := separate_construct hS i (BlockAnalysis.init size s) ho
      refine ⟨_, by simp only [BlockMem.step, ho], this.1, this.2, rfl, rfl⟩
    · cases h
  | copy i j =>
    simp only [analysisStep] at h
    split at h
    · rename_i a hi hj
      cases h
      have ho := analyses_none hS hi
      obtain ⟨o, hoj, hv, hs, hx, hp⟩ := analyses_some hj
      have := separate_construct hS i a.copy ho
      refine ⟨_, by simp only [BlockMem.step, ho, hoj, hs, hx, hp]; rfl, this.1, this.2, rfl, rfl⟩
    · cases h
  | assign i j => cases hna
  | analyze i =>
    simp only [analysisStep, Analyses.change] at h
    split at h
    · cases h
    · rename_i a ha
      cases h
      obtain ⟨m', h1, h2, h3, h4, h5⟩ := separate_update hS i 0 (fun a => some (analyzePattern a).2) a _ ha rfl
        (fun hp => by rw [analyzePattern_keeps a hp])
      exact ⟨m', h1, h2, h3, by rw [h4]; simp [createdBy, lost, ha], by rw [h5]; rfl⟩
  | setPerm i q =>
    simp only [analysisStep, Analyses.change] at h
    split at h
    · cases h
    · rename_i a ha
      simp only [Option.map_eq_some_iff] at h
      obtain ⟨a', ha', rfl⟩ := h
      obtain ⟨m', h1, h2, h3, h4, h5⟩ := separate_update hS i 1 (fun a => setBlockPermutation a q) a a' ha ha'
        (fun hp => setBlockPermutation_keeps a a' q hp ha')
      refine ⟨m', h1, h2, h3, ?_, by rw [h5]; rfl⟩
      rw [h4]
      simp only [createdBy, lost, ha]
      split <;> omega
  | find i =>
    simp only [analysisStep, Analyses.change] at h
    split at h
    · cases h
    · rename_i a ha
      simp only [Option.map_eq_some_iff] at h
      obtain ⟨a', ha', rfl⟩ := h
      obtain ⟨m', h1, h2, h3, h4, h5⟩ := separate_update hS i 1
        (fun a => findSparsifyingPermutation a.struct.n.factorial a) a a' ha ha' (fun hp => find_keeps _ a a' hp ha')
      refine ⟨m', h1, h2, h3, ?_, by rw [h5]; rfl⟩
      rw [h4]
      simp only [createdBy, lost, ha]
      split <;> omega
  | destroy i =>
    simp only [analysisStep] at h
    split at h
    · cases h
    · rename_i a ha
      cases h
      obtain ⟨o, ho, -⟩ := analyses_some ha
      obtain ⟨m', h1, h2, h3, h4, h5, -⟩ := separate_destroy hS i o ho
      refine ⟨m', h1, h2, h3, ?_, ?_⟩
      · rw [h4]; simp [createdBy, lost]
      · rw [h5]; simp [destroyedBy]

theorem blockRun_sim (ops : List BlockMemOp) (m : BlockMem) (hS : Separate m) (hna : ∀ op ∈ ops, noAssign op = true) (c' : Analyses)
    (h : analysisRun (analyses m) ops = some c') :
    ∃ m', m.run ops = some m' ∧ Separate m' ∧ analyses m' = c' ∧
      m'.heap.born = m.heap.born + 2 * (ops.map createdBy).sum + totalLost (analyses m) ops ∧
      m'.heap.freed.length = m.heap.freed.length + 2 * (ops.map destroyedBy).sum := by
  induction ops generalizing m with
  | nil =>
    cases h
    exact ⟨m, rfl, hS, rfl, rfl, rfl⟩
  | cons op ops ih =>
    simp only [analysisRun] at h
    cases e : analysisStep (analyses m) op with
    | none => rw [e] at h; cases h
    | some c1 =>
      rw [e] at h
      obtain ⟨m1, h1, h2, h3, h4, h5⟩ := C63_step m hS op (hna op (by simp)) c1 e
      subst h3
      obtain ⟨m', g1, g2, g3, g4, g5⟩ := ih m1 h2 (fun op hop => hna op (by simp [hop])) h
      refine ⟨m', by simp only [BlockMem.run, h1, g1], g2, g3, ?_, ?_⟩
      · rw [g4, h4]
        simp only [List.map_cons, List.sum_cons, totalLost, e]
        ring
      · rw [g5, h5]
        simp only [List.map_cons, List.sum_cons]
        ring

/-- **C63** (partial). In every history of construction, copy construction, analysis (in any form and any number of times) and
destruction that uses objects in their lifetime, no array is read, written or deleted when it is not alive, in particular none
is deleted twice; no two arrays of the objects coincide; and each object evolves as a value of its own, so a copy does not see
what later happens to the original nor the original what happens to the copy. Missing: histories with assignment, for which it
is false (`C63_assign_false`), and that nothing is leaked, false as soon as an analysis runs (`C63_leak_false`,
`C63_leaks_exactly`). -/
theorem C63_separate_partial (ops : List BlockMemOp) (hna : ∀ op ∈ ops, noAssign op = true) (c : Analyses)
    (h : analysisRun (fun _ => none) ops = some c) :
    ∃ m, BlockMem.empty.run ops = some m ∧ analyses m = c ∧ m.heap.freed.Nodup ∧
      (∀ i o, m.objs i = some o → m.heap.blocks o.struct.ptr ≠ none ∧ m.heap.blocks o.structTr.ptr ≠ none) ∧
      ∀ i j o o', m.objs i = some o → m.objs j = some o' →
        o.struct.ptr ≠ o'.structTr.ptr ∧ (i ≠ j → o.struct.ptr ≠ o'.struct.ptr ∧ o.structTr.ptr ≠ o'.structTr.ptr) := by
  obtain ⟨m, h1, h2, h3, -⟩ := blockRun_sim ops BlockMem.empty separate_empty hna c (by exact h)
  exact ⟨m, h1, h3, h2.once, h2.live, h2.alone⟩

/-- **C63** (what leaks). In such a history the number of arrays alive at the end is two for each object alive, and exactly one
for each analysis of a structure not analysed before and one for each call of `setBlockPermutation` and
`findSparsifyingPermutation`. -/
theorem C63_leaks_exactly (ops : List BlockMemOp) (hna : ∀ op ∈ ops, noAssign op = true) (c : Analyses)
    (h : analysisRun (fun _ => none) ops = some c) :
    ∃ m, BlockMem.empty.run ops = some m ∧
      ((Finset.range m.heap.born).filter fun a => (m.heap.blocks a).isSome).card + 2 * (ops.map destroyedBy).sum =
        2 * (ops.map createdBy).sum + totalLost (fun _ => none) ops := by
  obtain ⟨m, h1, h2, h3, h4, h5⟩ := blockRun_sim ops BlockMem.empty separate_empty hna c (by exact h)
  refine ⟨m, h1, ?_⟩
  have hc := Finset.card_filter_add_card_filter_not (s := Finset.range m.heap.born) (fun a => (m.heap.blocks a).isSome = true)
  have hfreed : ((Finset.range m.heap.born).filter fun a => ¬ (m.heap.blocks a).isSome = true).card = m.heap.freed.length := by
    rw [← List.toFinset_card_of_nodup h2.once]
    congr 1
    ext a
    simp only [Finset.mem_filter, Finset.mem_range, List.mem_toFinset, h2.gone a]
    simp
  rw [hfreed, Finset.card_range] at hc
  have e0 : BlockMem.empty.heap.born = 0 := rfl
  have e1 : BlockMem.empty.heap.freed.length = 0 := rfl
  rw [e1, Nat.zero_add] at h5
  rw [e0, Nat.zero_add] at h4
  have e2 : analyses BlockMem.empty = fun _ => none := rfl
  rw [e2] at h4
  omega

/-- the object an operation changes -/
def Spec.target : BlockMemOp → ℕ
  | .new i _ _ | .copy i _ | .assign i _ | .analyze i | .setPerm i _ | .find i | .destroy i => i

theorem analysisStep_other (c c' : Analyses) (op : BlockMemOp) (h : analysisStep c op = some c') (i : ℕ) (hi : target op ≠ i) : c' i = c i := by
  have hne : i ≠ target op := Ne.symm hi
  cases op <;> simp only [target] at hne <;> simp only [analysisStep, Analyses.change] at h <;> (try split at h) <;>
    (first | (cases h; done) | (cases h; simp [Analyses.put, hne]; done) | skip) <;>
    (simp only [Option.map_eq_some_iff] at h; obtain ⟨a', -, rfl⟩ := h; simp [Analyses.put, hne])

/-- **C63** (copies are independent, partial as above). After a copy, nothing that is done to other objects, the original included,
changes what the copy holds; and nothing done to the copy changes the original. -/
theorem C63_copies_independent_partial (ops ops' : List BlockMemOp) (i : ℕ) (hna : ∀ op ∈ ops ++ ops', noAssign op = true)
    (hi : ∀ op ∈ ops', target op ≠ i) (c : Analyses) (h : analysisRun (fun _ => none) (ops ++ ops') = some c) :
    ∃ m m', BlockMem.empty.run ops = some m ∧ BlockMem.empty.run (ops ++ ops') = some m' ∧ analyses m' i = analyses m i := by
  have hsplit : ∀ (c0 : Analyses), analysisRun c0 (ops ++ ops') = some c → ∃ c1, analysisRun c0 ops = some c1 ∧ analysisRun c1 ops' = some c := by
    clear h hna
    induction ops with
    | nil => exact fun c0 h => ⟨c0, rfl, h⟩
    | cons op ops ih =>
      intro c0 h
      simp only [List.cons_append, analysisRun] at h ⊢
      cases e : analysisStep c0 op with
      | none => rw [e] at h; cases h
      | some c1 => rw [e] at h; exact ih c1 h
  obtain ⟨c1, g1, g2⟩ := hsplit _ h
  obtain ⟨m, h1, -, h3, -⟩ := blockRun_sim ops BlockMem.empty separate_empty (fun op hop => hna op (by simp [hop])) c1 (by exact g1)
  obtain ⟨m', h1', -, h3', -⟩ := blockRun_sim (ops ++ ops') BlockMem.empty separate_empty hna c (by exact h)
  refine ⟨m, m', h1, h1', ?_⟩
  rw [h3, h3']
  clear h3 h1 g1 h hna hsplit h1' h3'
  induction ops' generalizing c1 with
  | nil => cases g2; rfl
  | cons op ops' ih =>
    simp only [analysisRun] at g2
    cases e : analysisStep c1 op with
    | none => rw [e] at g2; cases g2
    | some c2 =>
      rw [e] at g2
      rw [ih (fun op hop => hi op (by simp [hop])) c2 g2]
      exact analysisStep_other c1 c2 op e i (hi op (by simp))

theorem life_owned (m m' : BlockMem) (hS : Separate m) (op : BlockMemOp) (hl : lifeOnly op = true) (c' : Analyses)
    (h : analysisStep (analyses m) op = some c') (hm : m.step op = some m') (hU : ∀ a, ¬ Unowned m a) : ∀ a, ¬ Unowned m' a := by
  have hown : ∀ a, m.heap.blocks a ≠ none → ∃ i o, m.objs i = some o ∧ (o.struct.ptr = a ∨ o.structTr.ptr = a) := by
    intro a ha
    by_contra hc
    push Not at hc
    exact hU a ⟨ha, hc⟩
  have hcons : ∀ i b, m.objs i = none → ∀ a, ¬ Unowned (m.construct i b) a := by
    rintro i b hi a ⟨h1, h2⟩
    have hobj : ∀ j, (m.construct i b).objs j = if j = i then
        some { struct := ⟨m.heap.born, b.struct.performed⟩, structTr := ⟨m.heap.born + 1, b.structTr.performed⟩, indices := b.indices, perm := b.perm }
        else m.objs j := fun j => rfl
    have hb : (m.construct i b).heap.blocks a =
      (if a = m.heap.born + 1 then some (b.structTr, ()) else if a = m.heap.born then some (b.struct, ()) else m.heap.blocks a) := rfl
    have h3 := h2 i _ (by rw [hobj, if_pos rfl])
    simp only [] at h3
    rw [hb, if_neg (Ne.symm h3.2), if_neg (Ne.symm h3.1)] at h1
    obtain ⟨j, o, hj, ho⟩ := hown a h1
    have hji : j ≠ i := by rintro rfl; rw [hi] at hj; cases hj
    have h4 := h2 j o (by rw [hobj, if_neg hji]; exact hj)
    grind
  cases op with
  | new i size s =>
    simp only [BlockMem.step] at hm
    split at hm
    · rename_i hi
      cases hm
      exact hcons i _ hi
    · cases hm
  | copy i j =>
    simp only [BlockMem.step] at hm
    split at hm
    · rename_i hi _
      split at hm
      · cases hm
      · cases hm
        exact hcons i _ hi
    · cases hm
  | destroy i =>
    simp only [analysisStep] at h
    split at h
    · cases h
    · rename_i b hb
      obtain ⟨o, ho, -⟩ := analyses_some hb
      obtain ⟨m1, g1, -, -, -, -, g2, g3⟩ := separate_destroy hS i o ho
      rw [hm] at g1
      cases g1
      rintro a ⟨h1, h2⟩
      rw [g2] at h1
      split at h1
      · exact h1 rfl
      · rename_i hne
        obtain ⟨j, o', hj, ho'⟩ := hown a h1
        have hji : j ≠ i := by
          rintro rfl
          rw [ho] at hj
          cases hj
          grind
        have h4 := h2 j o' (by rw [g3, if_neg hji]; exact hj)
        grind
  | assign => cases hl
  | analyze => cases hl
  | setPerm => cases hl
  | find => cases hl

theorem life_noAssign (op : BlockMemOp) (h : lifeOnly op = true) : noAssign op = true := by cases op <;> simp_all [lifeOnly, noAssign]

theorem life_run (ops : List BlockMemOp) (m m' : BlockMem) (hS : Separate m) (hl : ∀ op ∈ ops, lifeOnly op = true) (c' : Analyses)
    (h : analysisRun (analyses m) ops = some c') (hm : m.run ops = some m') (hU : ∀ a, ¬ Unowned m a) : ∀ a, ¬ Unowned m' a := by
  induction ops generalizing m with
  | nil => cases hm; exact hU
  | cons op ops ih =>
    simp only [analysisRun] at h
    cases e : analysisStep (analyses m) op with
    | none => rw [e] at h; cases h
    | some c1 =>
      rw [e] at h
      obtain ⟨m1, h1, h2, h3, -⟩ := C63_step m hS op (life_noAssign op (hl op (by simp))) c1 e
      subst h3
      simp only [BlockMem.run, h1] at hm
      exact ih m1 h2 (fun op hop => hl op (by simp [hop])) h hm
        (life_owned m m1 hS op (hl op (by simp)) _ e h1 hU)

/-- **C63** (partial: construction, copy construction and destruction only). Nothing is leaked: every array alive belongs to an
object in lifetime, and once all objects are destroyed no array is alive. -/
theorem C63_no_leak_partial (ops : List BlockMemOp) (hl : ∀ op ∈ ops, lifeOnly op = true) (c : Analyses)
    (h : analysisRun (fun _ => none) ops = some c) :
    ∃ m, BlockMem.empty.run ops = some m ∧ (∀ a, ¬ Unowned m a) ∧ ((∀ i, c i = none) → ∀ a, m.heap.blocks a = none) := by
  obtain ⟨m, h1, h2, h3, -⟩ := blockRun_sim ops BlockMem.empty separate_empty (fun op hop => life_noAssign op (hl op hop)) c (by exact h)
  have hU := life_run ops BlockMem.empty m separate_empty hl c (by exact h) h1 (by simp [Unowned, BlockMem.empty])
  refine ⟨m, h1, hU, fun hc a => ?_⟩
  by_contra hne
  refine hU a ⟨hne, fun i o ho => ?_⟩
  have := analyses_none h2 (i := i) (by rw [h3]; exact hc i)
  rw [ho] at this
  cases this

/-! ### the copy of an object -/

section
variable {K : Type} [Field K] [LinearOrder K]

/-- **C63** (copies are equivalent). The copy of an object whose transposed structure is in order (as after construction and after
the first analysis) solves, reconstructs and reports exactly as the original. -/
theorem C63_copy_equivalent (tiny : K) (o : BlockObj K) (h : o.an.structTr = o.an.struct.transpose) :
    (∀ w b, (o.copy).solve tiny w b = o.solve tiny w b) ∧ (o.copy).reconstruct = o.reconstruct ∧
      (o.copy).signature = o.signature ∧ (o.copy).info = o.info ∧ (o.copy).vectorD = o.vectorD := by
  have e : o.an.copy = o.an := by
    cases o with
    | mk an n mat sign info =>
      cases an
      simp only [BlockAnalysis.copy, symCopy_id_congr] at h ⊢
      rw [h]
  refine ⟨fun w b => ?_, ?_, rfl, rfl, rfl⟩
  · simp only [BlockObj.solve, BlockObj.copy, e]
  · simp only [BlockObj.reconstruct, BlockObj.copy, e]

end

/-! ### counterexamples and examples -/

namespace Demo

/-- one dense block of size 2 -/
def oneBlock : Sym := { n := 1, lens := fun _ => 2, kinds := fun _ _ => .dense, performed := false }

end Demo

open Demo

/-- a history with copies, all analyses and destruction meets the hypotheses of `C63_separate_partial`, `C63_leaks_exactly` and
`C63_copies_independent_partial`; three arrays are lost -/
example :
    let ops : List BlockMemOp := [.new 0 2 oneBlock, .copy 1 0, .find 0, .copy 2 0, .setPerm 2 (some [0]), .analyze 0, .destroy 0, .destroy 1, .destroy 2]
    (ops.all noAssign && (analysisRun (fun _ => none) ops).isSome && (totalLost (fun _ => none) ops == 3)) = true := by decide +kernel

example :
    let ops : List BlockMemOp := [.new 0 2 oneBlock, .copy 1 0, .destroy 0, .copy 2 1, .destroy 1, .destroy 2]
    (ops.all lifeOnly && (analysisRun (fun _ => none) ops).isSome) = true := by decide +kernel

example : ∃ o : BlockObj ℚ, o.an.structTr = o.an.struct.transpose ∧ o.info = some true :=
  ⟨(analysedObj oneBlock).compute 2 (fun i j => if i = j then 1 else 0), rfl, by decide +kernel⟩

/-- **C63** is false with assignment: two objects, one assigned to the other, and both destroyed: the second destructor deletes
arrays that the first has deleted. -/
theorem C63_assign_false :
    (analysisRun (fun _ => none) [.new 0 2 oneBlock, .new 1 2 oneBlock, .assign 0 1, .destroy 0, .destroy 1]).isSome = true ∧
    (BlockMem.empty.run [.new 0 2 oneBlock, .new 1 2 oneBlock, .assign 0 1, .destroy 0]).isSome = true ∧
    BlockMem.empty.run [.new 0 2 oneBlock, .new 1 2 oneBlock, .assign 0 1, .destroy 0, .destroy 1] = none := by
  refine ⟨by decide +kernel, by decide +kernel, Option.isNone_iff_eq_none.1 (by decide +kernel)⟩

/-- **C63** is false with assignment also before any destruction: an analysis of one object changes the other. Here object 0 is
assigned from object 1, then object 0 is analysed: the values say that object 1 keeps its structure, but in memory its
structure is the factorised one. -/
theorem C63_assign_aliases_false :
    let s : Sym := { n := 2, lens := fun _ => 1, kinds := fun i j => if i = 0 ∨ i = j then .diag else if j = 0 then .diag else .zero, performed := false }
    let ops : List BlockMemOp := [.new 0 2 s, .new 1 2 s, .assign 0 1, .analyze 0]
    ((analysisRun (fun _ => none) ops).bind fun c => (c 1).map fun a => a.struct.kinds 0 1) = some .diag ∧
    ((BlockMem.empty.run ops).bind fun m => (analyses m 1).map fun a => a.struct.kinds 0 1) = some .zero := by
  refine ⟨by decide +kernel, by decide +kernel⟩

/-- **C63** is false for leaks: an object is constructed, analysed and destroyed, and an array remains alive that belongs to
nobody. -/
theorem C63_leak_false :
    ∃ m, BlockMem.empty.run [.new 0 2 oneBlock, .analyze 0, .destroy 0] = some m ∧ Unowned m 1 := by
  have h1 : (BlockMem.empty.run [.new 0 2 oneBlock, .analyze 0, .destroy 0]).any
      (fun m => (m.heap.blocks 1).isSome) = true := by decide +kernel
  obtain ⟨c, hc⟩ := Option.isSome_iff_exists.1
    (show (analysisRun (fun _ => none) [.new 0 2 oneBlock, .analyze 0, .destroy 0]).isSome = true by decide +kernel)
  have h2 : ∀ j, (((BlockMem.empty.run [.new 0 2 oneBlock, .analyze 0, .destroy 0])).bind fun m => m.objs j) = none := by
    intro j
    show (if j = 0 then none else if j = 0 then _ else if j = 0 then _ else none) = _
    split <;> simp_all
  cases e : BlockMem.empty.run [.new 0 2 oneBlock, .analyze 0, .destroy 0] with
  | none => rw [e] at h1; simp at h1
  | some m =>
    rw [e] at h1 h2
    simp only [Option.any_some, Option.bind_some] at h1 h2
    exact ⟨m, rfl, by rw [← Option.isSome_iff_ne_none]; exact h1, fun i o ho => by rw [h2 i] at ho; cases ho⟩

/-- **C63**: the copy of an object does not report the same sign, so its `info` and signature come with another `m_sign`. -/
theorem C63_copy_sign_false : ∃ o : BlockObj ℚ, o.copy.sign ≠ o.sign ∧ o.copy.info = o.info :=
  ⟨(analysedObj oneBlock).compute 2 (fun i j => if i = j then 1 else 0), by decide +kernel, rfl⟩

end ProxNLP
