import Verif.Spec.Lifetimes
import Mathlib.Tactic.Common
import Mathlib.Order.Basic
import Mathlib.Order.Nat

/-! Helper lemmas for C94: reachability, the invariant of careful programs. -/

namespace ProxNLP

open Spec

/-- reachable from the variables -/
inductive PyReach (objs : List PyObj) (vars : List (ℕ × ℕ)) : ℕ → Prop
  | var {v i : ℕ} (h : (v, i) ∈ vars) : PyReach objs vars i
  | step {p i : ℕ} {o : PyObj} (hp : PyReach objs vars p) (ho : objs[p]? = some o) (hi : i ∈ o.strong) :
      PyReach objs vars i

/-- references and pointers go to older objects -/
def PyOrdered (objs : List PyObj) : Prop :=
  ∀ (p : ℕ) (o : PyObj), objs[p]? = some o → (∀ i ∈ o.strong, i < p) ∧ ∀ q ∈ pointers o, q.obj < p

theorem heldWithin_reach {objs : List PyObj} {vars : List (ℕ × ℕ)} :
    ∀ {k i : ℕ}, heldWithin objs vars k i = true → PyReach objs vars i := by
  have hv : ∀ i, (vars.any fun v => v.2 == i) = true → PyReach objs vars i := by
    intro i h
    obtain ⟨⟨v, j⟩, hm, hj⟩ := List.any_eq_true.mp h
    have : j = i := by simpa using hj
    exact .var (this ▸ hm)
  intro k
  induction k with
  | zero => intro i h; exact hv i h
  | succ k ih =>
    intro i h
    rw [heldWithin, Bool.or_eq_true] at h
    rcases h with h | h
    · exact hv i h
    · obtain ⟨p, -, hp⟩ := List.any_eq_true.mp h
      rw [Bool.and_eq_true] at hp
      obtain ⟨h1, h2⟩ := hp
      cases ho : objs[p]? with
      | none => rw [ho] at h1; simp at h1
      | some o =>
        rw [ho] at h1
        exact .step (ih h2) ho (by simpa using h1)

theorem heldWithin_mono {objs : List PyObj} {vars : List (ℕ × ℕ)} :
    ∀ {k i : ℕ}, heldWithin objs vars k i = true → heldWithin objs vars (k + 1) i = true := by
  intro k
  induction k with
  | zero => intro i h; rw [heldWithin] at h; rw [heldWithin, h, Bool.true_or]
  | succ k ih =>
    intro i h
    rw [heldWithin, Bool.or_eq_true] at h ⊢
    rcases h with h | h
    · exact .inl h
    · refine .inr ?_
      obtain ⟨p, hp, hq⟩ := List.any_eq_true.mp h
      rw [Bool.and_eq_true] at hq
      exact List.any_eq_true.mpr ⟨p, hp, by rw [Bool.and_eq_true]; exact ⟨hq.1, ih hq.2⟩⟩

theorem heldWithin_le {objs : List PyObj} {vars : List (ℕ × ℕ)} {k l i : ℕ} (hkl : k ≤ l)
    (h : heldWithin objs vars k i = true) : heldWithin objs vars l i = true := by
  induction hkl with
  | refl => exact h
  | step _ ih => exact heldWithin_mono ih

theorem reach_heldWithin {objs : List PyObj} {vars : List (ℕ × ℕ)} (ho : PyOrdered objs)
    {i : ℕ} (h : PyReach objs vars i) : heldWithin objs vars (objs.length - i) i = true := by
  induction h with
  | @var v i h =>
    have : heldWithin objs vars 0 i = true := by
      rw [heldWithin]
      exact List.any_eq_true.mpr ⟨(v, i), h, by simp⟩
    exact heldWithin_le (Nat.zero_le _) this
  | @step p i o hp hpo hi ih =>
    have hlt := (ho p o hpo).1 i hi
    have hpl : p < objs.length := (List.getElem?_eq_some_iff.mp hpo).1
    refine heldWithin_le (k := objs.length - p + 1) (by omega) ?_
    rw [heldWithin, Bool.or_eq_true]
    refine .inr (List.any_eq_true.mpr ⟨p, List.mem_range.mpr hpl, ?_⟩)
    rw [Bool.and_eq_true]
    refine ⟨?_, ih⟩
    rw [hpo]
    simpa using hi

theorem alive_iff {s : LtState} (ho : PyOrdered s.objs) {i : ℕ} :
    s.alive i = true ↔ PyReach s.objs s.vars i :=
  ⟨heldWithin_reach, fun h => heldWithin_le (Nat.sub_le _ _) (reach_heldWithin ho h)⟩

/-- entries of the variables that are kept -/
def keptVars (keep : ℕ → Bool) (s : LtState) : List (ℕ × ℕ) := s.vars.filter fun e => keep e.1

/-- The invariant of careful programs. -/
structure LtInv (keep : ℕ → Bool) (s : LtState) : Prop where
  ordered : PyOrdered s.objs
  vars : ∀ v i, (v, i) ∈ s.vars → i < s.objs.length
  ver : ∀ (p : ℕ) (o : PyObj), s.objs[p]? = some o → PyReach s.objs s.vars p → ∀ q ∈ pointers o, s.version q.obj q.slot = some q.ver
  fd : ∀ (p : ℕ) (a b : PyPtr), s.objs[p]? = some (.fd a b) →
    PyReach s.objs (keptVars keep s) a.obj ∧ PyReach s.objs (keptVars keep s) b.obj
  solver : ∀ (p : ℕ) (a : PyPtr) (n : ℕ), s.objs[p]? = some (.solver a n) → PyReach s.objs (keptVars keep s) a.obj
  cust : ∀ (p : ℕ) (t : PyPtr) (c : ℕ), s.objs[p]? = some (.ref t c) →
    t.obj = c ∨ (∃ a n, s.objs[c]? = some (.solver a n) ∧ a.obj = t.obj) ∨
      ∃ t' c', s.objs[c]? = some (.ref t' c') ∧ t'.obj = t.obj

theorem PyReach.mono {objs : List PyObj} {vars vars' : List (ℕ × ℕ)} (hv : ∀ e ∈ vars, e ∈ vars') {i : ℕ}
    (h : PyReach objs vars i) : PyReach objs vars' i := by
  induction h with
  | var h => exact .var (hv _ h)
  | step _ ho hi ih => exact .step ih ho hi

theorem kept_reach {keep : ℕ → Bool} {s : LtState} {i : ℕ} (h : PyReach s.objs (keptVars keep s) i) :
    PyReach s.objs s.vars i := h.mono fun _ he => (List.mem_filter.mp he).1

/-- a returned object keeps alive what it designates -/
theorem ref_reach {keep : ℕ → Bool} {s : LtState} (I : LtInv keep s) {vars : List (ℕ × ℕ)}
    (hv : ∀ e ∈ keptVars keep s, e ∈ vars) :
    ∀ (p : ℕ) (t : PyPtr) (c : ℕ), s.objs[p]? = some (.ref t c) → PyReach s.objs vars p → PyReach s.objs vars t.obj := by
  intro p
  induction p using Nat.strongRecOn with
  | _ p ih =>
    intro t c ho hr
    have hc : PyReach s.objs vars c := .step hr ho (by simp [PyObj.strong])
    rcases I.cust p t c ho with h | ⟨a, n, h1, h2⟩ | ⟨t', c', h1, h2⟩
    · rw [h]; exact hc
    · rw [← h2]; exact (I.solver c a n h1).mono hv
    · rw [← h2]
      exact ih c ((I.ordered p _ ho).1 c (by simp [PyObj.strong])) t' c' h1 hc

/-- pointers of live objects are valid -/
theorem pointer_valid {keep : ℕ → Bool} {s : LtState} (I : LtInv keep s) {p : ℕ} {o : PyObj}
    (ho : s.objs[p]? = some o) (hr : PyReach s.objs s.vars p) : ∀ q ∈ pointers o, s.valid q = true := by
  intro q hq
  have hver := I.ver p o ho hr q hq
  rw [LtState.valid, Bool.and_eq_true, hver]
  refine ⟨?_, by simp⟩
  rw [alive_iff I.ordered]
  cases o with
  | space => simp [pointers] at hq
  | func => simp [pointers] at hq
  | problem deps m => simp [pointers] at hq
  | fd a b =>
    have h := I.fd p a b ho
    simp only [pointers, List.mem_cons, List.not_mem_nil, or_false] at hq
    rcases hq with rfl | rfl
    · exact kept_reach h.1
    · exact kept_reach h.2
  | solver a n =>
    have h := I.solver p a n ho
    simp only [pointers, List.mem_cons, List.not_mem_nil, or_false] at hq
    subst hq
    exact kept_reach h
  | ref t c =>
    simp only [pointers, List.mem_cons, List.not_mem_nil, or_false] at hq
    subst hq
    exact ref_reach I (fun e he => (List.mem_filter.mp he).1) p _ c ho hr

theorem reach_lt {keep : ℕ → Bool} {s : LtState} (I : LtInv keep s) {i : ℕ} (h : PyReach s.objs s.vars i) :
    i < s.objs.length := by
  induction h with
  | var h => exact I.vars _ _ h
  | @step p i o _ ho hi _ =>
    have := (I.ordered p o ho).1 i hi
    have := (List.getElem?_eq_some_iff.mp ho).1
    omega

theorem valid_reach {keep : ℕ → Bool} {s : LtState} (I : LtInv keep s) {q : PyPtr} (h : s.valid q = true) :
    PyReach s.objs s.vars q.obj := by
  rw [LtState.valid, Bool.and_eq_true] at h
  exact (alive_iff I.ordered).mp h.1

/-- calls on live objects touch live objects only -/
theorem touch_ok {keep : ℕ → Bool} {s : LtState} (I : LtInv keep s) :
    ∀ (fuel i : ℕ), i < fuel → PyReach s.objs s.vars i → s.touch fuel i = true := by
  intro fuel
  induction fuel with
  | zero => intro i h; omega
  | succ fuel ih =>
    intro i hi hr
    have hlt := reach_lt I hr
    obtain ⟨o, ho⟩ : ∃ o, s.objs[i]? = some o := ⟨_, List.getElem?_eq_getElem hlt⟩
    have hp := pointer_valid I ho hr
    have hord := I.ordered i o ho
    rw [LtState.touch, Bool.and_eq_true, ho]
    refine ⟨(alive_iff I.ordered).mpr hr, ?_⟩
    cases o with
    | space => rfl
    | func => rfl
    | fd a b =>
      have ha := hp a (by simp [pointers])
      have hb := hp b (by simp [pointers])
      have := hord.2 b (by simp [pointers])
      simp only [ha, hb, Bool.true_and]
      exact ih b.obj (by omega) (valid_reach I hb)
    | problem deps m =>
      refine List.all_eq_true.mpr fun d hd => ?_
      have := hord.1 d hd
      exact ih d (by omega) (.step hr ho hd)
    | solver a n =>
      have ha := hp a (by simp [pointers])
      have := hord.2 a (by simp [pointers])
      simp only [ha, Bool.true_and]
      exact ih a.obj (by omega) (valid_reach I ha)
    | ref t c =>
      have ht := hp t (by simp [pointers])
      have := hord.2 t (by simp [pointers])
      simp only [ht, Bool.true_and, ih t.obj (by omega) (valid_reach I ht), Bool.or_true]

/-! ### variables -/

theorem look_mem {s : LtState} {v i : ℕ} (h : s.look v = some i) : (v, i) ∈ s.vars := by
  rw [LtState.look, Option.map_eq_some_iff] at h
  obtain ⟨⟨a, b⟩, h1, h2⟩ := h
  have hm := List.mem_of_find?_eq_some h1
  have ha : a = v := by simpa using List.find?_some h1
  have hb : b = i := h2
  rw [← ha, ← hb]
  exact hm

theorem look_none {s : LtState} {v : ℕ} (h : s.look v = none) {i : ℕ} : (v, i) ∉ s.vars := by
  rw [LtState.look, Option.map_eq_none_iff, List.find?_eq_none] at h
  intro hm
  exact h _ hm (by simp)

theorem look_reach {s : LtState} {v i : ℕ} (h : s.look v = some i) : PyReach s.objs s.vars i := .var (look_mem h)

theorem look_kept {keep : ℕ → Bool} {s : LtState} {v i : ℕ} (h : s.look v = some i) (hk : keep v = true) :
    PyReach s.objs (keptVars keep s) i := .var (List.mem_filter.mpr ⟨look_mem h, hk⟩)

/-! ### arguments -/

theorem spaceArg_spec {keep : ℕ → Bool} {s : LtState} (I : LtInv keep s) {v : ℕ} {p : PyPtr} (h : s.spaceArg v = some p) :
    s.valid p = true ∧ (keep v = true → PyReach s.objs (keptVars keep s) p.obj) := by
  rw [LtState.spaceArg, Option.bind_eq_some_iff] at h
  obtain ⟨i, hi, h⟩ := h
  have hr := look_reach hi
  cases ho : s.objs[i]? with
  | none => rw [ho] at h; simp at h
  | some o =>
    rw [ho] at h
    cases o with
    | space =>
      obtain rfl : (⟨i, .whole, 0⟩ : PyPtr) = p := by simpa using h
      refine ⟨?_, fun hk => look_kept hi hk⟩
      simp [LtState.valid, LtState.version, ho, (alive_iff I.ordered).mpr hr]
    | ref t c =>
      by_cases hs : t.slot = .manifold
      · obtain rfl : t = p := by simpa [hs] using h
        refine ⟨pointer_valid I ho hr t (by simp [pointers]), fun hk => ?_⟩
        exact ref_reach I (fun _ he => he) i t c ho (look_kept hi hk)
      · simp [hs] at h
    | func => simp at h
    | fd a b => simp at h
    | problem a b => simp at h
    | solver a b => simp at h

theorem problemArg_spec {keep : ℕ → Bool} {s : LtState} (I : LtInv keep s) {v : ℕ} {p : PyPtr} (h : s.problemArg v = some p) :
    s.valid p = true ∧ (keep v = true → PyReach s.objs (keptVars keep s) p.obj) := by
  rw [LtState.problemArg, Option.bind_eq_some_iff] at h
  obtain ⟨i, hi, h⟩ := h
  have hr := look_reach hi
  cases ho : s.objs[i]? with
  | none => rw [ho] at h; simp at h
  | some o =>
    rw [ho] at h
    cases o with
    | problem a b =>
      obtain rfl : (⟨i, .whole, 0⟩ : PyPtr) = p := by simpa using h
      refine ⟨?_, fun hk => look_kept hi hk⟩
      simp [LtState.valid, LtState.version, ho, (alive_iff I.ordered).mpr hr]
    | ref t c =>
      by_cases hs : t.slot = .whole
      · obtain rfl : t = p := by simpa [hs] using h
        refine ⟨pointer_valid I ho hr t (by simp [pointers]), fun hk => ?_⟩
        exact ref_reach I (fun _ he => he) i t c ho (look_kept hi hk)
      · simp [hs] at h
    | func => simp at h
    | fd a b => simp at h
    | space => simp at h
    | solver a b => simp at h

theorem funcArg_spec {keep : ℕ → Bool} {s : LtState} (I : LtInv keep s) {v : ℕ} {p : PyPtr} (h : s.funcArg v = some p) :
    s.valid p = true ∧ (keep v = true → PyReach s.objs (keptVars keep s) p.obj) := by
  rw [LtState.funcArg, Option.bind_eq_some_iff] at h
  obtain ⟨i, hi, h⟩ := h
  have hr := look_reach hi
  cases ho : s.objs[i]? with
  | none => rw [ho] at h; simp at h
  | some o =>
    rw [ho] at h
    cases o with
    | func =>
      obtain rfl : (⟨i, .whole, 0⟩ : PyPtr) = p := by simpa using h
      refine ⟨?_, fun hk => look_kept hi hk⟩
      simp [LtState.valid, LtState.version, ho, (alive_iff I.ordered).mpr hr]
    | fd a b =>
      obtain rfl : (⟨i, .whole, 0⟩ : PyPtr) = p := by simpa using h
      refine ⟨?_, fun hk => look_kept hi hk⟩
      simp [LtState.valid, LtState.version, ho, (alive_iff I.ordered).mpr hr]
    | problem a b => simp at h
    | ref a b => simp at h
    | space => simp at h
    | solver a b => simp at h

theorem solverArg_spec {s : LtState} {v i n : ℕ} {p : PyPtr} (h : s.solverArg v = some (i, p, n)) :
    s.look v = some i ∧ s.objs[i]? = some (.solver p n) := by
  rw [LtState.solverArg, Option.bind_eq_some_iff] at h
  obtain ⟨j, hj, h⟩ := h
  cases ho : s.objs[j]? with
  | none => rw [ho] at h; simp at h
  | some o =>
    rw [ho] at h
    cases o with
    | solver a m =>
      have : j = i ∧ a = p ∧ m = n := by simpa using h
      obtain ⟨rfl, rfl, rfl⟩ := this
      exact ⟨hj, ho⟩
    | func => simp at h
    | fd a b => simp at h
    | problem a b => simp at h
    | ref a b => simp at h
    | space => simp at h

/-! ### preservation -/

/-- the parts of the invariant that only look at one object, for an object added last -/
structure NewObj (keep : ℕ → Bool) (s : LtState) (o : PyObj) : Prop where
  strong : ∀ i ∈ o.strong, PyReach s.objs s.vars i
  ptr : ∀ q ∈ pointers o, s.version q.obj q.slot = some q.ver
  fd : ∀ a b, o = .fd a b → PyReach s.objs (keptVars keep s) a.obj ∧ PyReach s.objs (keptVars keep s) b.obj
  solver : ∀ a n, o = .solver a n → PyReach s.objs (keptVars keep s) a.obj
  cust : ∀ t c, o = .ref t c → t.obj = c ∨ (∃ a n, s.objs[c]? = some (.solver a n) ∧ a.obj = t.obj) ∨
      ∃ t' c', s.objs[c]? = some (.ref t' c') ∧ t'.obj = t.obj

theorem version_lt {s : LtState} {i n : ℕ} {slot : PySlot} (h : s.version i slot = some n) : i < s.objs.length := by
  by_contra hge
  have : s.objs[i]? = none := List.getElem?_eq_none (by omega)
  simp [LtState.version, this] at h

theorem lt_getElem?_append_old {l : List PyObj} {o o' : PyObj} {i : ℕ} (h : l[i]? = some o') :
    (l ++ [o])[i]? = some o' := by
  rw [List.getElem?_append_left (List.getElem?_eq_some_iff.mp h).1, h]

theorem getElem?_append_cases {l : List PyObj} {o o' : PyObj} {i : ℕ} (h : (l ++ [o])[i]? = some o') :
    l[i]? = some o' ∨ (i = l.length ∧ o' = o) := by
  rcases Nat.lt_trichotomy i l.length with hi | hi | hi
  · rw [List.getElem?_append_left hi] at h; exact .inl h
  · subst hi
    rw [List.getElem?_append_right (Nat.le_refl _)] at h
    exact .inr ⟨rfl, by simpa using h.symm⟩
  · rw [List.getElem?_eq_none (by simp; omega)] at h
    simp at h

theorem reach_append {l : List PyObj} {vars vars' : List (ℕ × ℕ)} {o : PyObj} (hv : ∀ e ∈ vars, e ∈ vars') {i : ℕ}
    (h : PyReach l vars i) : PyReach (l ++ [o]) vars' i := by
  induction h with
  | var h => exact .var (hv _ h)
  | step _ ho hi ih => exact .step ih (lt_getElem?_append_old ho) hi

/-- assigning a variable that is not kept, or not yet assigned, loses no kept variable -/
theorem kept_assign {keep : ℕ → Bool} {s : LtState} {v i : ℕ} (h : keep v = true → s.look v = none) (objs : List PyObj) :
    ∀ e ∈ keptVars keep s, e ∈ keptVars keep (LtState.assign { s with objs := objs } v i) := by
  rintro ⟨w, j⟩ he
  obtain ⟨h1, h2⟩ := List.mem_filter.mp he
  refine List.mem_filter.mpr ⟨?_, h2⟩
  refine List.mem_cons_of_mem _ (List.mem_filter.mpr ⟨h1, ?_⟩)
  have : w ≠ v := by
    rintro rfl
    exact look_none (h h2) h1
  simpa using this

theorem create_inv {keep : ℕ → Bool} {s : LtState} (I : LtInv keep s) {v : ℕ} {o : PyObj}
    (hv : keep v = true → s.look v = none) (N : NewObj keep s o) : LtInv keep (s.create v o) := by
  have hk := kept_assign (i := s.objs.length) hv (s.objs ++ [o])
  have hback : ∀ i, PyReach (s.create v o).objs (s.create v o).vars i → i < s.objs.length → PyReach s.objs s.vars i := by
    intro i h
    induction h with
    | @var w i h =>
      intro hi
      rcases List.mem_cons.mp h with h | h
      · have : i = s.objs.length := by simpa using congrArg Prod.snd h
        omega
      · exact .var (List.mem_filter.mp h).1
    | @step p i o' _ ho hi ih =>
      intro _
      rcases getElem?_append_cases ho with ho | ⟨-, rfl⟩
      · exact .step (ih (List.getElem?_eq_some_iff.mp ho).1) ho hi
      · exact N.strong i hi
  have hver : ∀ i slot n, s.version i slot = some n → (s.create v o).version i slot = some n := by
    intro i slot n h
    have hlt := version_lt h
    have he : (s.create v o).objs[i]? = s.objs[i]? := List.getElem?_append_left hlt
    simp only [LtState.version, he]
    exact h
  refine ⟨?_, ?_, ?_, ?_, ?_, ?_⟩
  · intro p o' ho
    rcases getElem?_append_cases ho with ho | ⟨rfl, rfl⟩
    · exact I.ordered p o' ho
    · exact ⟨fun i hi => reach_lt I (N.strong i hi), fun q hq => version_lt (N.ptr q hq)⟩
  · intro w i h
    have hlen : (s.create v o).objs.length = s.objs.length + 1 := by simp [LtState.create, LtState.assign]
    rcases List.mem_cons.mp h with h | h
    · have : i = s.objs.length := by simpa using congrArg Prod.snd h
      omega
    · have := I.vars w i (List.mem_filter.mp h).1
      omega
  · intro p o' ho hr q hq
    rcases getElem?_append_cases ho with ho | ⟨rfl, rfl⟩
    · exact hver _ _ _ (I.ver p o' ho (hback p hr (List.getElem?_eq_some_iff.mp ho).1) q hq)
    · exact hver _ _ _ (N.ptr q hq)
  · intro p a b ho
    rcases getElem?_append_cases ho with ho | ⟨rfl, rfl⟩
    · exact ⟨reach_append hk (I.fd p a b ho).1, reach_append hk (I.fd p a b ho).2⟩
    · exact ⟨reach_append hk (N.fd a b rfl).1, reach_append hk (N.fd a b rfl).2⟩
  · intro p a n ho
    rcases getElem?_append_cases ho with ho | ⟨rfl, rfl⟩
    · exact reach_append hk (I.solver p a n ho)
    · exact reach_append hk (N.solver a n rfl)
  · intro p t c ho
    have key : (t.obj = c ∨ (∃ a n, s.objs[c]? = some (.solver a n) ∧ a.obj = t.obj) ∨
        ∃ t' c', s.objs[c]? = some (.ref t' c') ∧ t'.obj = t.obj) := by
      rcases getElem?_append_cases ho with ho | ⟨rfl, rfl⟩
      · exact I.cust p t c ho
      · exact N.cust t c rfl
    rcases key with h | ⟨a, n, h1, h2⟩ | ⟨t', c', h1, h2⟩
    · exact .inl h
    · exact .inr (.inl ⟨a, n, lt_getElem?_append_old h1, h2⟩)
    · exact .inr (.inr ⟨t', c', lt_getElem?_append_old h1, h2⟩)

/-- change of the variables only: existing objects stay reachable only if they were -/
theorem vars_inv {keep : ℕ → Bool} {s : LtState} (I : LtInv keep s) {vars : List (ℕ × ℕ)}
    (hsub : ∀ e ∈ vars, PyReach s.objs s.vars e.2) (hk : ∀ e ∈ keptVars keep s, e ∈ keptVars keep { s with vars := vars }) :
    LtInv keep { s with vars := vars } := by
  have hback : ∀ i, PyReach s.objs vars i → PyReach s.objs s.vars i := by
    intro i h
    induction h with
    | var h => exact hsub _ h
    | step _ ho hi ih => exact .step ih ho hi
  exact ⟨I.ordered, fun v i h => reach_lt I (hsub _ h), fun p o ho hr => I.ver p o ho (hback p hr),
    fun p a b ho => ⟨(I.fd p a b ho).1.mono hk, (I.fd p a b ho).2.mono hk⟩,
    fun p a n ho => (I.solver p a n ho).mono hk, I.cust⟩

/-- replacing an object by one with the same references and pointers (`setup()`, assignment to `manifold`) -/
theorem set_inv {keep : ℕ → Bool} {s : LtState} (I : LtInv keep s) {i : ℕ} {o o' : PyObj} {slot : PySlot}
    (ho : s.objs[i]? = some o) (hs : o'.strong = o.strong) (hp : pointers o' = pointers o)
    (hfd : ∀ a b, o' = .fd a b → o = .fd a b) (hfd' : ∀ a b, o ≠ .ref a b) (href : ∀ a b, o' ≠ .ref a b)
    (hso : ∀ a n, o' = .solver a n → ∃ n, o = .solver a n) (hso' : ∀ a n, o = .solver a n → ∃ n, o' = .solver a n)
    (hver : ∀ sl, sl ≠ slot → LtState.version { s with objs := s.objs.set i o' } i sl = s.version i sl)
    (hun : Unreferenced s i slot) : LtInv keep { s with objs := s.objs.set i o' } := by
  have hil : i < s.objs.length := (List.getElem?_eq_some_iff.mp ho).1
  have hget : ∀ (p : ℕ) (x : PyObj), (s.objs.set i o')[p]? = some x → (p ≠ i ∧ s.objs[p]? = some x) ∨ (p = i ∧ x = o') := by
    intro p x h
    by_cases hpi : p = i
    · subst hpi
      rw [List.getElem?_set_self hil] at h
      exact .inr ⟨rfl, by simpa using h.symm⟩
    · rw [List.getElem?_set_ne (Ne.symm hpi)] at h
      exact .inl ⟨hpi, h⟩
  have hstrong : ∀ (p : ℕ) (x : PyObj), (s.objs.set i o')[p]? = some x → ∃ y, s.objs[p]? = some y ∧ y.strong = x.strong ∧ pointers y = pointers x := by
    intro p x h
    rcases hget p x h with ⟨-, h⟩ | ⟨rfl, rfl⟩
    · exact ⟨x, h, rfl, rfl⟩
    · exact ⟨o, ho, hs.symm, hp.symm⟩
  have hstrong' : ∀ (p : ℕ) (y : PyObj), s.objs[p]? = some y → ∃ x, (s.objs.set i o')[p]? = some x ∧ x.strong = y.strong := by
    intro p y h
    by_cases hpi : p = i
    · subst hpi
      rw [ho] at h
      obtain rfl : o = y := by simpa using h
      exact ⟨o', List.getElem?_set_self hil, hs⟩
    · exact ⟨y, by rw [List.getElem?_set_ne (Ne.symm hpi)]; exact h, rfl⟩
  have hfwd : ∀ (vars : List (ℕ × ℕ)) j, PyReach s.objs vars j → PyReach (s.objs.set i o') vars j := by
    intro vars j h
    induction h with
    | var h => exact .var h
    | step _ hoo hi ih =>
      obtain ⟨x, hx, hxs⟩ := hstrong' _ _ hoo
      exact .step ih hx (hxs ▸ hi)
  have hback : ∀ j, PyReach (s.objs.set i o') s.vars j → PyReach s.objs s.vars j := by
    intro j h
    induction h with
    | var h => exact .var h
    | step _ hoo hi ih =>
      obtain ⟨y, hy, hys, -⟩ := hstrong _ _ hoo
      exact .step ih hy (hys ▸ hi)
  have hlen : (s.objs.set i o').length = s.objs.length := List.length_set
  have hvers : ∀ j sl, (j = i → sl ≠ slot) → LtState.version { s with objs := s.objs.set i o' } j sl = s.version j sl := by
    intro j sl hsl
    by_cases hj : j = i
    · subst hj; exact hver sl (hsl rfl)
    · simp only [LtState.version, List.getElem?_set_ne (Ne.symm hj)]
  refine ⟨?_, ?_, ?_, ?_, ?_, ?_⟩
  · intro p x h
    obtain ⟨y, hy, hys, hyp⟩ := hstrong p x h
    rw [← hys, ← hyp]
    exact I.ordered p y hy
  · intro v j h
    have := I.vars v j h
    simpa only [hlen] using this
  · intro p x h hr q hq
    obtain ⟨y, hy, hys, hyp⟩ := hstrong p x h
    rw [← hyp] at hq
    have hrb := hback p hr
    rw [hvers q.obj q.slot (fun hj => hun p y hy ((alive_iff I.ordered).mpr hrb) q hq hj)]
    exact I.ver p y hy hrb q hq
  · intro p a b h
    have h' : s.objs[p]? = some (.fd a b) := by
      rcases hget p _ h with ⟨-, h⟩ | ⟨hpi, h2⟩
      · exact h
      · rw [hpi, ho, hfd a b h2.symm]
    exact ⟨hfwd _ _ (I.fd p a b h').1, hfwd _ _ (I.fd p a b h').2⟩
  · intro p a n h
    have h' : ∃ n, s.objs[p]? = some (.solver a n) := by
      rcases hget p _ h with ⟨-, h⟩ | ⟨hpi, h2⟩
      · exact ⟨n, h⟩
      · obtain ⟨m, hm⟩ := hso a n h2.symm
        exact ⟨m, by rw [hpi, ho, hm]⟩
    obtain ⟨m, hm⟩ := h'
    exact hfwd _ _ (I.solver p a m hm)
  · intro p t c h
    have h' : s.objs[p]? = some (.ref t c) := by
      rcases hget p _ h with ⟨-, h⟩ | ⟨hpi, h2⟩
      · exact h
      · exact absurd h2.symm (href t c)
    rcases I.cust p t c h' with h | ⟨a, n, h1, h2⟩ | ⟨t', c', h1, h2⟩
    · exact .inl h
    · refine .inr (.inl ?_)
      by_cases hc : c = i
      · subst hc
        rw [ho] at h1
        obtain ⟨m, hm⟩ := hso' a n (by simpa using h1)
        exact ⟨a, m, by rw [← hm]; exact List.getElem?_set_self hil, h2⟩
      · exact ⟨a, n, by rw [← h1]; exact List.getElem?_set_ne (Ne.symm hc), h2⟩
    · refine .inr (.inr ⟨t', c', ?_, h2⟩)
      have hc : c ≠ i := by
        rintro rfl
        rw [ho] at h1
        exact hfd' t' c' (by simpa using h1)
      rw [← h1]
      exact List.getElem?_set_ne (Ne.symm hc)

theorem mapM_mem {α β : Type} {f : α → Option β} {q : β} : ∀ {l : List α} {qs : List β},
    l.mapM f = some qs → q ∈ qs → ∃ d, f d = some q := by
  intro l
  induction l with
  | nil =>
    intro qs h hq
    have : qs = [] := by simpa using h.symm
    rw [this] at hq
    simp at hq
  | cons d l ih =>
    intro qs h hq
    rw [List.mapM_cons] at h
    cases hd : f d with
    | none => rw [hd] at h; simp at h
    | some x =>
      cases hl : l.mapM f with
      | none => rw [hd, hl] at h; simp at h
      | some xs =>
        rw [hd, hl] at h
        have : qs = x :: xs := by simpa using h.symm
        rw [this] at hq
        rcases List.mem_cons.mp hq with rfl | hq
        · exact ⟨d, hd⟩
        · exact ih hl hq

/-- a careful statement touches nothing that was destroyed, and keeps the invariant -/
theorem step_inv {keep : ℕ → Bool} {s : LtState} {st : LtStmt} (I : LtInv keep s) (C : Careful keep s st) :
    s.step st ≠ .dangling ∧ ∀ s', s.step st = .ok s' → LtInv keep s' := by
  have hnone : ∀ (q : PyPtr), s.valid q = true → s.version q.obj q.slot = some q.ver := by
    intro q h
    rw [LtState.valid, Bool.and_eq_true] at h
    simpa using h.2
  cases st with
  | newSpace v =>
    refine ⟨by simp [LtState.step], fun s' h => ?_⟩
    obtain rfl : s.create v .space = s' := by simpa [LtState.step] using h
    exact create_inv I (C.once v rfl) ⟨by simp [PyObj.strong], by simp [pointers], by simp, by simp, by simp⟩
  | newFunc v =>
    refine ⟨by simp [LtState.step], fun s' h => ?_⟩
    obtain rfl : s.create v .func = s' := by simpa [LtState.step] using h
    exact create_inv I (C.once v rfl) ⟨by simp [PyObj.strong], by simp [pointers], by simp, by simp, by simp⟩
  | newFd v sp f =>
    cases h1 : s.spaceArg sp with
    | none => simp [LtState.step, h1]
    | some p =>
      cases h2 : s.funcArg f with
      | none => simp [LtState.step, h1, h2]
      | some q =>
        obtain ⟨v1, k1⟩ := spaceArg_spec I h1
        obtain ⟨v2, k2⟩ := funcArg_spec I h2
        obtain ⟨c1, c2⟩ := C.fd v sp f rfl
        simp only [LtState.step, h1, h2, v1, v2, Bool.and_self, if_true]
        refine ⟨by simp, fun s' h => ?_⟩
        obtain rfl : s.create v (.fd p q) = s' := by simpa using h
        refine create_inv I (C.once v rfl) ⟨by simp [PyObj.strong], ?_, ?_, by simp, by simp⟩
        · intro x hx
          simp only [pointers, List.mem_cons, List.not_mem_nil, or_false] at hx
          rcases hx with rfl | rfl
          · exact hnone _ v1
          · exact hnone _ v2
        · intro a b hab
          obtain ⟨rfl, rfl⟩ : p = a ∧ q = b := by simpa using hab
          exact ⟨k1 c1, k2 c2⟩
  | newProblem v sp deps =>
    cases h1 : s.spaceArg sp with
    | none => simp [LtState.step, h1]
    | some p =>
      cases h2 : deps.mapM (fun d => s.funcArg d) with
      | none => simp only [LtState.step, h1, h2]; simp
      | some qs =>
        obtain ⟨v1, -⟩ := spaceArg_spec I h1
        simp only [LtState.step, h1, h2, v1, if_true]
        refine ⟨by simp, fun s' h => ?_⟩
        obtain rfl : s.create v (.problem (qs.map fun q => q.obj) 0) = s' := by simpa using h
        refine create_inv I (C.once v rfl) ⟨?_, by simp [pointers], by simp, by simp, by simp⟩
        intro i hi
        simp only [PyObj.strong, List.mem_map] at hi
        obtain ⟨q, hq, rfl⟩ := hi
        obtain ⟨d, hd⟩ := mapM_mem h2 hq
        exact valid_reach I (funcArg_spec I hd).1
  | newSolver v pr =>
    cases h1 : s.problemArg pr with
    | none => simp [LtState.step, h1]
    | some p =>
      obtain ⟨v1, k1⟩ := problemArg_spec I h1
      simp only [LtState.step, h1, v1, if_true]
      refine ⟨by simp, fun s' h => ?_⟩
      obtain rfl : s.create v (.solver p 0) = s' := by simpa using h
      refine create_inv I (C.once v rfl) ⟨by simp [PyObj.strong], ?_, by simp, ?_, by simp⟩
      · intro x hx
        obtain rfl : x = p := by simpa [pointers] using hx
        exact hnone _ v1
      · intro a n han
        obtain rfl : p = a := (show p = a ∧ 0 = n by simpa using han).1
        exact k1 (C.solver v pr rfl)
  | bind v w =>
    cases h1 : s.look w with
    | none => simp [LtState.step, h1]
    | some i =>
      simp only [LtState.step, h1]
      refine ⟨by simp, fun s' h => ?_⟩
      obtain rfl : s.assign v i = s' := by simpa using h
      refine vars_inv I ?_ (kept_assign (C.once v rfl) s.objs)
      intro e he
      rcases List.mem_cons.mp he with rfl | he
      · exact look_reach h1
      · exact .var (v := e.1) (List.mem_filter.mp he).1
  | del v =>
    cases h1 : s.look v with
    | none => simp [LtState.step, h1]
    | some i =>
      simp only [LtState.step, h1]
      refine ⟨by simp, fun s' h => ?_⟩
      obtain rfl : ({ s with vars := s.vars.filter fun e => e.1 != v } : LtState) = s' := by simpa using h
      refine vars_inv I (fun e he => .var (v := e.1) (List.mem_filter.mp he).1) ?_
      rintro ⟨w, j⟩ he
      obtain ⟨m1, m2⟩ := List.mem_filter.mp he
      refine List.mem_filter.mpr ⟨List.mem_filter.mpr ⟨m1, ?_⟩, m2⟩
      have : w ≠ v := by
        rintro rfl
        have := C.never w rfl
        simp [this] at m2
      simpa using this
  | solverProblem v sv =>
    cases h1 : s.solverArg sv with
    | none => simp [LtState.step, h1]
    | some x =>
      obtain ⟨i, p, n⟩ := x
      obtain ⟨l1, l2⟩ := solverArg_spec h1
      simp only [LtState.step, h1]
      refine ⟨by simp, fun s' h => ?_⟩
      obtain rfl : s.create v (.ref p i) = s' := by simpa using h
      refine create_inv I (C.once v rfl) ⟨?_, ?_, by simp, by simp, ?_⟩
      · intro j hj
        obtain rfl : j = i := by simpa [PyObj.strong] using hj
        exact look_reach l1
      · intro x hx
        obtain rfl : x = p := by simpa [pointers] using hx
        exact I.ver i _ l2 (look_reach l1) x (by simp [pointers])
      · intro t c htc
        obtain ⟨rfl, rfl⟩ : p = t ∧ i = c := by simpa using htc
        exact .inr (.inl ⟨p, n, l2, rfl⟩)
  | solverManifold v sv =>
    cases h1 : s.solverArg sv with
    | none => simp [LtState.step, h1]
    | some x =>
      obtain ⟨i, p, n⟩ := x
      obtain ⟨l1, l2⟩ := solverArg_spec h1
      have v1 : s.valid p = true := pointer_valid I l2 (look_reach l1) p (by simp [pointers])
      simp only [LtState.step, h1, v1, if_true]
      cases hm : s.version p.obj .manifold with
      | none => simp
      | some m =>
        refine ⟨by simp, fun s' h => ?_⟩
        obtain rfl : s.create v (.ref ⟨p.obj, .manifold, m⟩ i) = s' := by simpa using h
        refine create_inv I (C.once v rfl) ⟨?_, ?_, by simp, by simp, ?_⟩
        · intro j hj
          obtain rfl : j = i := by simpa [PyObj.strong] using hj
          exact look_reach l1
        · intro x hx
          obtain rfl : x = ⟨p.obj, .manifold, m⟩ := by simpa [pointers] using hx
          exact hm
        · intro t c htc
          obtain ⟨rfl, rfl⟩ : (⟨p.obj, .manifold, m⟩ : PyPtr) = t ∧ i = c := by simpa using htc
          exact .inr (.inl ⟨p, n, l2, rfl⟩)
  | solverResults v sv =>
    cases h1 : s.solverArg sv with
    | none => simp [LtState.step, h1]
    | some x =>
      obtain ⟨i, p, n⟩ := x
      obtain ⟨l1, l2⟩ := solverArg_spec h1
      by_cases hn : n = 0
      · simp [LtState.step, h1, hn]
      · simp only [LtState.step, h1, if_neg hn]
        refine ⟨by simp, fun s' h => ?_⟩
        obtain rfl : s.create v (.ref ⟨i, .results, n⟩ i) = s' := by simpa using h
        refine create_inv I (C.once v rfl) ⟨?_, ?_, by simp, by simp, ?_⟩
        · intro j hj
          obtain rfl : j = i := by simpa [PyObj.strong] using hj
          exact look_reach l1
        · intro x hx
          obtain rfl : x = ⟨i, .results, n⟩ := by simpa [pointers] using hx
          simp [LtState.version, l2, hn]
        · intro t c htc
          obtain ⟨rfl, rfl⟩ : (⟨i, .results, n⟩ : PyPtr) = t ∧ i = c := by simpa using htc
          exact .inl rfl
  | problemManifold v pr =>
    cases h0 : s.look pr with
    | none => simp [LtState.step, h0]
    | some i =>
      cases h1 : s.problemArg pr with
      | none => simp [LtState.step, h0, h1]
      | some p =>
        obtain ⟨v1, -⟩ := problemArg_spec I h1
        simp only [LtState.step, h0, h1, v1, if_true]
        cases hm : s.version p.obj .manifold with
        | none => simp
        | some m =>
          refine ⟨by simp, fun s' h => ?_⟩
          obtain rfl : s.create v (.ref ⟨p.obj, .manifold, m⟩ i) = s' := by simpa using h
          refine create_inv I (C.once v rfl) ⟨?_, ?_, by simp, by simp, ?_⟩
          · intro j hj
            obtain rfl : j = i := by simpa [PyObj.strong] using hj
            exact look_reach h0
          · intro x hx
            obtain rfl : x = ⟨p.obj, .manifold, m⟩ := by simpa [pointers] using hx
            exact hm
          · intro t c htc
            obtain ⟨rfl, rfl⟩ : (⟨p.obj, .manifold, m⟩ : PyPtr) = t ∧ i = c := by simpa using htc
            rw [LtState.problemArg, h0, Option.bind_some] at h1
            cases ho : s.objs[i]? with
            | none => rw [ho] at h1; simp at h1
            | some o =>
              rw [ho] at h1
              cases o with
              | problem a b =>
                obtain rfl : (⟨i, .whole, 0⟩ : PyPtr) = p := by simpa using h1
                exact .inl rfl
              | ref t' c' =>
                by_cases hs : t'.slot = .whole
                · obtain rfl : t' = p := by simpa [hs] using h1
                  exact .inr (.inr ⟨t', c', rfl, rfl⟩)
                · simp [hs] at h1
              | func => simp at h1
              | fd a b => simp at h1
              | space => simp at h1
              | solver a b => simp at h1
  | xopt v r =>
    cases h0 : s.look r with
    | none => simp [LtState.step, h0]
    | some i =>
      cases ho : s.objs[i]? with
      | none => simp [LtState.step, h0, ho]
      | some o =>
        cases o with
        | ref t c =>
          have v1 : s.valid t = true := pointer_valid I ho (look_reach h0) t (by simp [pointers])
          by_cases hs : t.slot = .results
          · simp only [LtState.step, h0, ho, hs, v1, if_true]
            refine ⟨by simp, fun s' h => ?_⟩
            obtain rfl : s.create v (.ref t i) = s' := by simpa using h
            refine create_inv I (C.once v rfl) ⟨?_, ?_, by simp, by simp, ?_⟩
            · intro j hj
              obtain rfl : j = i := by simpa [PyObj.strong] using hj
              exact look_reach h0
            · intro x hx
              obtain rfl : x = t := by simpa [pointers] using hx
              exact hnone _ v1
            · intro t' c' htc
              obtain ⟨rfl, rfl⟩ : t = t' ∧ i = c' := by simpa using htc
              exact .inr (.inr ⟨t, c, ho, rfl⟩)
          · simp [LtState.step, h0, ho, hs]
        | func => simp [LtState.step, h0, ho]
        | fd a b => simp [LtState.step, h0, ho]
        | space => simp [LtState.step, h0, ho]
        | solver a b => simp [LtState.step, h0, ho]
        | problem a b => simp [LtState.step, h0, ho]
  | setManifold pr sp =>
    cases h1 : s.problemArg pr with
    | none => simp [LtState.step, h1]
    | some p =>
      cases h2 : s.spaceArg sp with
      | none => simp [LtState.step, h1, h2]
      | some q =>
        obtain ⟨v1, -⟩ := problemArg_spec I h1
        obtain ⟨v2, -⟩ := spaceArg_spec I h2
        simp only [LtState.step, h1, h2, v1, v2, Bool.and_self, if_true]
        cases ho : s.objs[p.obj]? with
        | none => simp
        | some o =>
          cases o with
          | problem deps m =>
            refine ⟨by simp, fun s' h => ?_⟩
            obtain rfl : ({ s with objs := s.objs.set p.obj (.problem deps (m + 1)) } : LtState) = s' := by simpa using h
            refine set_inv (slot := .manifold) I ho rfl rfl (by simp) (by simp) (by simp) (by simp) (by simp) ?_
              (C.manifold pr sp p rfl h1)
            intro sl hsl
            have hil : p.obj < s.objs.length := (List.getElem?_eq_some_iff.mp ho).1
            cases sl with
            | whole => simp [LtState.version, hil]
            | manifold => exact absurd rfl hsl
            | results =>
              have e1 : (s.objs.set p.obj (.problem deps (m + 1)))[p.obj]? = some (.problem deps (m + 1)) := by simp [hil]
              simp only [LtState.version, ho, e1]
          | func => simp
          | fd a b => simp
          | space => simp
          | solver a b => simp
          | ref a b => simp
  | setup sv =>
    cases h1 : s.solverArg sv with
    | none => simp [LtState.step, h1]
    | some x =>
      obtain ⟨i, p, n⟩ := x
      obtain ⟨l1, l2⟩ := solverArg_spec h1
      have v1 : s.valid p = true := pointer_valid I l2 (look_reach l1) p (by simp [pointers])
      simp only [LtState.step, h1, v1, if_true]
      refine ⟨by simp, fun s' h => ?_⟩
      obtain rfl : ({ s with objs := s.objs.set i (.solver p (n + 1)) } : LtState) = s' := by simpa using h
      refine set_inv (slot := .results) I l2 rfl rfl (by simp) (by simp) (by simp) (by simp) (by simp) ?_
        (C.setup sv i p n rfl h1)
      intro sl hsl
      have hil : i < s.objs.length := (List.getElem?_eq_some_iff.mp l2).1
      cases sl with
      | whole => simp [LtState.version, hil]
      | results => exact absurd rfl hsl
      | manifold =>
        have e1 : (s.objs.set i (.solver p (n + 1)))[i]? = some (.solver p (n + 1)) := by simp [hil]
        simp only [LtState.version, l2, e1]
  | call v =>
    cases h0 : s.look v with
    | none => simp [LtState.step, h0]
    | some i =>
      have hr := look_reach h0
      simp only [LtState.step, h0, touch_ok I s.objs.length i (reach_lt I hr) hr, if_true]
      refine ⟨by simp, fun s' h => ?_⟩
      obtain rfl : s = s' := by simpa using h
      exact I

theorem empty_inv {keep : ℕ → Bool} : LtInv keep LtState.empty :=
  ⟨fun p o h => by simp [LtState.empty] at h, fun v i h => by simp [LtState.empty] at h,
   fun p o h => by simp [LtState.empty] at h, fun p o _ h => by simp [LtState.empty] at h,
   fun p o _ h => by simp [LtState.empty] at h, fun p o _ h => by simp [LtState.empty] at h⟩

theorem run_inv {keep : ℕ → Bool} (l : List LtStmt) : ∀ {s : LtState}, LtInv keep s → CarefulRun keep s l →
    s.run l ≠ .dangling ∧ ∀ s', s.run l = .ok s' → LtInv keep s' := by
  induction l with
  | nil =>
    intro s I _
    refine ⟨by simp [LtState.run], fun s' h => ?_⟩
    obtain rfl : s = s' := by simpa [LtState.run] using h
    exact I
  | cons st l ih =>
    intro s I h
    obtain ⟨C, h⟩ := h
    obtain ⟨h1, h2⟩ := step_inv I C
    cases hs : s.step st with
    | ok s1 =>
      rw [hs] at h
      simp only [LtState.run, hs]
      exact ih (h2 s1 hs) h
    | error =>
      rw [hs] at h
      simp only [LtState.run, hs]
      exact ih I h
    | dangling => exact absurd hs h1

/-! ### a check of the rules -/

/-- `Unreferenced` by computation -/
def unreferencedB (s : LtState) (i : ℕ) (slot : PySlot) : Bool :=
  (List.range s.objs.length).all fun p => match s.objs[p]? with
    | some o => !s.alive p || (pointers o).all fun q => q.obj != i || q.slot != slot
    | none => true

theorem unreferencedB_sound {s : LtState} {i : ℕ} {slot : PySlot} (h : unreferencedB s i slot = true) :
    Unreferenced s i slot := by
  intro p o ho ha q hq hqi hqs
  have hp : p < s.objs.length := (List.getElem?_eq_some_iff.mp ho).1
  have h1 := List.all_eq_true.mp h p (List.mem_range.mpr hp)
  rw [ho] at h1
  have h2 : ((pointers o).all fun q => q.obj != i || q.slot != slot) = true := by simpa [ha] using h1
  have h3 := List.all_eq_true.mp h2 q hq
  simp [hqi, hqs] at h3

/-- `Careful` by computation -/
def carefulB (keep : ℕ → Bool) (s : LtState) (st : LtStmt) : Bool :=
  (match assigned st with | some v => !keep v || (s.look v).isNone | none => true) &&
  match st with
  | .del v => !keep v
  | .newFd _ sp f => keep sp && keep f
  | .newSolver _ p => keep p
  | .setup v => (match s.solverArg v with | some (i, _, _) => unreferencedB s i .results | none => true)
  | .setManifold v _ => (match s.problemArg v with | some p => unreferencedB s p.obj .manifold | none => true)
  | _ => true

theorem carefulB_sound {keep : ℕ → Bool} {s : LtState} {st : LtStmt} (h : carefulB keep s st = true) :
    Careful keep s st := by
  unfold carefulB at h
  rw [Bool.and_eq_true] at h
  obtain ⟨h1, h2⟩ := h
  refine ⟨?_, ?_, ?_, ?_, ?_, ?_⟩
  · intro v hv hk
    rw [hv] at h1
    simpa [hk] using h1
  · rintro v rfl
    simpa using h2
  · rintro v sp f rfl
    simpa using h2
  · rintro v p rfl
    simpa using h2
  · rintro v i p n rfl hs
    simp only [hs] at h2
    exact unreferencedB_sound h2
  · rintro v sp p rfl hs
    simp only [hs] at h2
    exact unreferencedB_sound h2

/-- `CarefulRun` by computation -/
def carefulRunB (keep : ℕ → Bool) : LtState → List LtStmt → Bool
  | _, [] => true
  | s, st :: l => carefulB keep s st &&
    match s.step st with
    | .ok s' => carefulRunB keep s' l
    | .error => carefulRunB keep s l
    | .dangling => true

theorem carefulRunB_sound {keep : ℕ → Bool} (l : List LtStmt) : ∀ {s : LtState}, carefulRunB keep s l = true →
    CarefulRun keep s l := by
  induction l with
  | nil => intro _ _; trivial
  | cons st l ih =>
    intro s h
    rw [carefulRunB, Bool.and_eq_true] at h
    refine ⟨carefulB_sound h.1, ?_⟩
    have h2 := h.2
    cases hs : s.step st with
    | ok s' => rw [hs] at h2; exact ih h2
    | error => rw [hs] at h2; exact ih h2
    | dangling => trivial

end ProxNLP
