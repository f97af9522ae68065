import Verif.Model.History
import Mathlib.Data.List.GetD
import Mathlib.Algebra.Order.Ring.Rat

/-! Property theorems for C64: the history callback. -/

set_option linter.unusedSectionVars false
namespace ProxNLP

variable {K : Type}

/-- what the solver state was at each invocation, in order -/
def Spec.invocations (cur : HistContents K) : List (HistEvent K) → List (HistContents K)
  | [] => []
  | .change c :: es | .setup c _ :: es => Spec.invocations c es
  | .invoke :: es => cur :: Spec.invocations cur es

/-- what the solver state is in the end -/
def Spec.finalState (cur : HistContents K) : List (HistEvent K) → HistContents K
  | [] => cur
  | .change c :: es | .setup c _ :: es => Spec.finalState c es
  | .invoke :: es => Spec.finalState cur es

/-- the line search left as many values as steps, and (unless `lenient`) at least one -/
def Spec.LineSearchStored (lenient : Bool) (c : HistContents K) : Prop :=
  c.lsValues.length = c.lsAlphas.length ∧ (lenient = true ∨ c.lsAlphas ≠ [])

open Spec

theorem hist_run (lenient : Bool) (f : HistFlags) (es : List (HistEvent K)) (m : HistMem K) (h : HistStorage K)
    (hls : ∀ c ∈ invocations m.cur es, LineSearchStored lenient c) :
    ∃ m' h', histRun lenient f (m, h) es = some (m', h') ∧ m'.cur = finalState m.cur es ∧
      h'.xs = h.xs ++ (if f.primalDual then (invocations m.cur es).map (·.x) else []) ∧
      h'.lams = h.lams ++ (if f.primalDual then (invocations m.cur es).map (·.lams) else []) ∧
      h'.values = h.values ++ (if f.values then (invocations m.cur es).map (·.value) else []) ∧
      h'.primInfeas = h.primInfeas ++ (if f.residuals then (invocations m.cur es).map (·.primInfeas) else []) ∧
      h'.dualInfeas = h.dualInfeas ++ (if f.residuals then (invocations m.cur es).map (·.dualInfeas) else []) ∧
      h'.lsAlphas = h.lsAlphas ++ (invocations m.cur es).map (·.lsAlphas) ∧
      h'.lsValues = h.lsValues ++ (invocations m.cur es).map (·.lsValues) ∧
      h'.alphas = h.alphas ++ (invocations m.cur es).map (·.alphaOpt) ∧
      h'.dmeritDir = h.dmeritDir ++ (invocations m.cur es).map (·.dmeritDir) ∧
      h'.lamsView.length = h.lamsView.length + (if f.primalDual then (invocations m.cur es).length else 0) := by
  induction es generalizing m h with
  | nil => exact ⟨m, h, rfl, rfl, by simp [invocations]⟩
  | cons e es ih =>
    cases e with
    | change c => exact ih _ h hls
    | setup c dims => exact ih _ h hls
    | invoke =>
      have h0 := hls m.cur (by simp [invocations])
      obtain ⟨g1, g2⟩ := h0
      have hcall : ∃ h1, h.call lenient f m = some h1 ∧
          h1.xs = h.xs ++ (if f.primalDual then [m.cur.x] else []) ∧
          h1.lams = h.lams ++ (if f.primalDual then [m.cur.lams] else []) ∧
          h1.values = h.values ++ (if f.values then [m.cur.value] else []) ∧
          h1.primInfeas = h.primInfeas ++ (if f.residuals then [m.cur.primInfeas] else []) ∧
          h1.dualInfeas = h.dualInfeas ++ (if f.residuals then [m.cur.dualInfeas] else []) ∧
          h1.lsAlphas = h.lsAlphas ++ [m.cur.lsAlphas] ∧
          h1.lsValues = h.lsValues ++ [m.cur.lsValues] ∧
          h1.alphas = h.alphas ++ [m.cur.alphaOpt] ∧
          h1.dmeritDir = h.dmeritDir ++ [m.cur.dmeritDir] ∧
          h1.lamsView.length = h.lamsView.length + (if f.primalDual then 1 else 0) := by
        have hnot : ¬ ((m.cur.lsAlphas.length = 0 ∨ m.cur.lsValues.length = 0) ∧ ¬ lenient = true) := by
          rintro ⟨hc, hl⟩
          rw [g1, or_self, List.length_eq_zero_iff] at hc
          rcases g2 with g2 | g2
          · exact hl g2
          · exact g2 hc
        refine ⟨_, by unfold HistStorage.call; simp only []; rw [if_neg hnot, if_neg (by omega)], ?_⟩
        have ht : m.cur.lsValues.take m.cur.lsAlphas.length = m.cur.lsValues := by rw [← g1, List.take_length]
        rw [ht]
        obtain ⟨a, b, c⟩ := f
        cases a <;> cases b <;> cases c <;> simp
      obtain ⟨h1, k0, k1, k2, k3, k4, k5, k6, k7, k8, k9, k10⟩ := hcall
      obtain ⟨m', h', r0, r00, r1, r2, r3, r4, r5, r6, r7, r8, r9, r10⟩ := ih m h1 (fun c hc => hls c (by simp [invocations, hc]))
      refine ⟨m', h', by simp only [histRun, histStep, k0, Option.map_some]; exact r0, r00, ?_, ?_, ?_, ?_, ?_, ?_, ?_, ?_, ?_, ?_⟩
      · rw [r1, k1]; cases f.primalDual <;> simp [invocations]
      · rw [r2, k2]; cases f.primalDual <;> simp [invocations]
      · rw [r3, k3]; cases f.values <;> simp [invocations]
      · rw [r4, k4]; cases f.residuals <;> simp [invocations]
      · rw [r5, k5]; cases f.residuals <;> simp [invocations]
      · rw [r6, k6]; simp [invocations]
      · rw [r7, k7]; simp [invocations]
      · rw [r8, k8]; simp [invocations]
      · rw [r9, k9]; simp [invocations]
      · rw [r10, k10]; cases f.primalDual <;> simp [invocations]; omega

/-- **C64** (partial). For every sequence of changes of the solver state, `setup()` calls and invocations, the history holds one
entry per invocation, and the `k`-th entry of every quantity stored by value is that of the solver at the `k`-th invocation (the
quantities switched off at construction stay empty). Assumed: at every invocation the line search has left as many values as
steps, and at least one (or, with `lenient`, that the address of the first element of an empty vector may be formed).
Missing: the multiplier views, false by `C64_views_false` and `C64_dangling_false`; without the assumption false by
`C64_undefined_false` and `C64_values_false`. -/
theorem C64_snapshots_partial (lenient : Bool) (f : HistFlags) (c0 : HistContents K) (dims : List (ℕ × ℕ)) (es : List (HistEvent K))
    (hls : ∀ c ∈ invocations c0 es, LineSearchStored lenient c) :
    ∃ m h, histRun lenient f (HistMem.init c0 dims, HistStorage.empty) es = some (m, h) ∧
      h.xs = (if f.primalDual then (invocations c0 es).map (·.x) else []) ∧
      h.lams = (if f.primalDual then (invocations c0 es).map (·.lams) else []) ∧
      h.values = (if f.values then (invocations c0 es).map (·.value) else []) ∧
      h.primInfeas = (if f.residuals then (invocations c0 es).map (·.primInfeas) else []) ∧
      h.dualInfeas = (if f.residuals then (invocations c0 es).map (·.dualInfeas) else []) ∧
      h.lsAlphas = (invocations c0 es).map (·.lsAlphas) ∧ h.lsValues = (invocations c0 es).map (·.lsValues) ∧
      h.alphas = (invocations c0 es).map (·.alphaOpt) ∧ h.dmeritDir = (invocations c0 es).map (·.dmeritDir) ∧
      h.lamsView.length = (if f.primalDual then (invocations c0 es).length else 0) := by
  obtain ⟨m, h, r⟩ := hist_run lenient f es (HistMem.init c0 dims) HistStorage.empty hls
  refine ⟨m, h, r.1, ?_⟩
  have r2 := r.2.2
  have hcur : (HistMem.init c0 dims).cur = c0 := rfl
  rw [hcur] at r2
  simpa [HistStorage.empty] using r2

/-- no `setup()` -/
def Spec.noSetup : HistEvent K → Bool
  | .setup _ _ => false
  | _ => true

theorem view_run (lenient : Bool) (f : HistFlags) (es : List (HistEvent K)) (m m' : HistMem K) (h h' : HistStorage K)
    (hns : ∀ e ∈ es, noSetup e = true) (hrun : histRun lenient f (m, h) es = some (m', h')) (hheap : m.heap m.ptr = some m.cur.lams)
    (hview : ∀ v ∈ h.lamsView, v = m.refs) (hrefs : ∀ r ∈ m.refs, r.ptr = m.ptr) :
    m'.heap m'.ptr = some m'.cur.lams ∧ m'.refs = m.refs ∧ m'.ptr = m.ptr ∧ ∀ v ∈ h'.lamsView, v = m.refs := by
  induction es generalizing m h with
  | nil => cases hrun; exact ⟨hheap, rfl, rfl, hview⟩
  | cons e es ih =>
    have hns' := fun e he => hns e (List.mem_cons_of_mem _ he)
    cases e with
    | change c =>
      exact ih { m with cur := c, heap := fun a => if a = m.ptr then some c.lams else m.heap a } h hns' hrun (by simp) hview hrefs
    | setup c dims => have := hns (.setup c dims) (by simp); cases this
    | invoke =>
      simp only [histRun, histStep] at hrun
      cases hc : h.call lenient f m with
      | none => rw [hc] at hrun; cases hrun
      | some h1 =>
        rw [hc] at hrun
        refine ih m h1 hns' hrun hheap ?_ hrefs
        have hv : h1.lamsView = if f.primalDual then h.lamsView ++ [m.refs] else h.lamsView := by
          unfold HistStorage.call at hc
          simp only [] at hc
          split at hc
          · cases hc
          · split at hc
            · cases hc
            · cases hc
              obtain ⟨a, b, c⟩ := f
              cases a <;> cases b <;> cases c <;> rfl
        rw [hv]
        intro v hvm
        split at hvm
        · rcases List.mem_append.1 hvm with hvm | hvm
          · exact hview v hvm
          · simpa using hvm
        · exact hview v hvm

/-- **C64** (what the multiplier views show). As long as `setup()` is not called again, every stored view, whenever it was stored,
shows the multipliers the solver has now. -/
theorem C64_views_show_current (lenient : Bool) (f : HistFlags) (c0 : HistContents K) (dims : List (ℕ × ℕ)) (es : List (HistEvent K))
    (hns : ∀ e ∈ es, noSetup e = true) (m : HistMem K) (h : HistStorage K)
    (hrun : histRun lenient f (HistMem.init c0 dims, HistStorage.empty) es = some (m, h)) :
    ∀ v ∈ h.lamsView, v.map m.read = dims.map fun d => some ((m.cur.lams.drop d.1).take d.2) := by
  obtain ⟨g1, g2, g3, g4⟩ := view_run lenient f es (HistMem.init c0 dims) m HistStorage.empty h hns hrun (by simp [HistMem.init])
    (by simp [HistStorage.empty]) (by simp only [HistMem.init, histRefs, List.mem_map]; rintro r ⟨d, _, rfl⟩; rfl)
  intro v hv
  rw [g4 v hv]
  simp only [HistMem.init, histRefs, List.map_map]
  refine List.map_congr_left fun d _ => ?_
  have e : (HistMem.init c0 dims).ptr = 0 := rfl
  rw [g3, e] at g1
  simp [HistMem.read, g1]

/-! ### counterexamples -/

namespace Demo

/-- a state with one multiplier, in which the line search stored one step -/
def histState (lam : ℚ) : HistContents ℚ :=
  { x := [lam], lams := [lam], value := 0, primInfeas := 0, dualInfeas := 0, lsAlphas := [1], lsValues := [0], alphaOpt := 1, dmeritDir := -1 }

def histAll : HistFlags := ⟨true, true, true⟩

end Demo

open Demo

/-- **C64** is false for the multiplier views: after two invocations the first stored view shows the multiplier at the second
invocation. -/
theorem C64_views_false :
    ((histRun false histAll (HistMem.init (histState 1) [(0, 1)], HistStorage.empty) [.invoke, .change (histState 2), .invoke]).map
      fun s => (s.2.lams, s.2.lamsView.map fun v => v.map s.1.read)) = some ([[1], [2]], [[some [2]], [some [2]]]) := by
  decide +kernel

/-- **C64** is false after another `setup()`: the stored views refer to memory that is gone. -/
theorem C64_dangling_false :
    ((histRun false histAll (HistMem.init (histState 1) [(0, 1)], HistStorage.empty) [.invoke, .setup (histState 2) [(0, 1)]]).map
      fun s => s.2.lamsView.map fun v => v.map s.1.read) = some [[none]] := by
  decide +kernel

/-- **C64** is false as the solver is: nothing in the library ever writes to `ls_alphas` or `ls_values`, so both vectors are empty
at every invocation, and the very first one is undefined behaviour. -/
theorem C64_undefined_false (f : HistFlags) (c0 : HistContents K) (dims : List (ℕ × ℕ)) (hls : c0.lsAlphas = []) :
    histRun false f (HistMem.init c0 dims, HistStorage.empty) [.invoke] = none := by
  simp [histRun, histStep, HistStorage.call, HistMem.init, hls]

/-- **C64** is false if more values than steps are stored by a line search: the surplus is dropped; and undefined if fewer are. -/
theorem C64_values_false :
    ((histRun true histAll (HistMem.init { histState 1 with lsValues := [3, 4] } [(0, 1)], HistStorage.empty) [.invoke]).map
      fun s => s.2.lsValues) = some [[3]] ∧
    (histRun true histAll (HistMem.init { histState 1 with lsAlphas := [3, 4] } [(0, 1)], HistStorage.empty) [.invoke]).isNone = true := by
  decide +kernel

/-- the hypothesis of `C64_snapshots_partial` is met with changing states, and with the empty vectors of the library if `lenient` -/
example : ∀ c ∈ invocations (histState 1) [.invoke, .change (histState 2), .invoke, .setup (histState 3) [(0, 1)], .invoke],
    LineSearchStored false c := by
  simp [invocations, LineSearchStored, histState]

example : ∀ c ∈ invocations { histState 1 with lsAlphas := [], lsValues := [] } [.invoke, .invoke], LineSearchStored true c := by
  simp [invocations, LineSearchStored]

end ProxNLP
