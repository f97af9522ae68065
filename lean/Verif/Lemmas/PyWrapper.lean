import Verif.Spec.PyWrapper

/-! Helper lemmas for `Props/PyWrapper.lean`: the memory is a function of the values. -/

set_option linter.unusedSectionVars false

namespace ProxNLP

open Spec

variable {V W : Type}

/-- the Python half of the value `k` -/
def pyOf (s : Values V W) (k : ℕ) (v : Value V W) : PyHalf V :=
  ⟨v.attrs, k, !v.inner, v.copyable, decide (some k ∈ s.vars ∨ (v.inner = true ∧ some k ∈ s.slots))⟩

/-- the C++ half of the value `k` -/
def cppOf (s : Values V W) (k : ℕ) (v : Value V W) : CppHalf W :=
  ⟨v.data, k, if v.inner then some k else none, if v.inner then decide (some k ∈ s.slots) else decide (some k ∈ s.vars)⟩

/-- the memory that represents the values -/
def heapOf (s : Values V W) : WrapHeap V W :=
  ⟨s.vals.mapIdx fun k v => pyOf s k v, s.vals.mapIdx fun k v => cppOf s k v, s.vars, s.slots⟩

@[simp] lemma heapOf_vars (s : Values V W) : (heapOf s).vars = s.vars := rfl
@[simp] lemma heapOf_slots (s : Values V W) : (heapOf s).slots = s.slots := rfl
@[simp] lemma heapOf_pys (s : Values V W) (k : ℕ) : (heapOf s).pys[k]? = (s.vals[k]?).map (pyOf s k) := by simp [heapOf]
@[simp] lemma heapOf_cpps (s : Values V W) (k : ℕ) : (heapOf s).cpps[k]? = (s.vals[k]?).map (cppOf s k) := by simp [heapOf]
@[simp] lemma heapOf_pys_length (s : Values V W) : (heapOf s).pys.length = s.vals.length := by simp [heapOf]
@[simp] lemma heapOf_cpps_length (s : Values V W) : (heapOf s).cpps.length = s.vals.length := by simp [heapOf]

/-- well-formed values -/
structure ValuesWF (s : Values V W) : Prop where
  varlt : ∀ k, some k ∈ s.vars → k < s.vals.length
  slotin : ∀ k, some k ∈ s.slots → ∃ v, s.vals[k]? = some v ∧ v.inner = true
  nodup : ∀ (i j k : ℕ), s.slots[i]? = some (some k) → s.slots[j]? = some (some k) → i = j

lemma heap_ext {h : WrapHeap V W} {s : Values V W} (h1 : h.vars = s.vars) (h2 : h.slots = s.slots)
    (h3 : ∀ k, h.pys[k]? = (s.vals[k]?).map (pyOf s k)) (h4 : ∀ k, h.cpps[k]? = (s.vals[k]?).map (cppOf s k)) : h = heapOf s := by
  obtain ⟨a, b, c, d⟩ := h
  simp only at h1 h2
  subst h1 h2
  have e1 : a = s.vals.mapIdx fun k v => pyOf s k v := List.ext_getElem? fun k => by simpa using h3 k
  have e2 : b = s.vals.mapIdx fun k v => cppOf s k v := List.ext_getElem? fun k => by simpa using h4 k
  rw [e1, e2]
  rfl

lemma mem_of_join {l : List (Option ℕ)} {i k : ℕ} (h : l[i]?.join = some k) : l[i]? = some (some k) := by
  cases e : l[i]? with
  | none => simp [e] at h
  | some a => simpa [e] using h

lemma mem_of_join' {l : List (Option ℕ)} {i k : ℕ} (h : l[i]?.join = some k) : some k ∈ l := List.mem_of_getElem? (mem_of_join h)

lemma mem_set_iff {l : List (Option ℕ)} {i : ℕ} {a b : Option ℕ} (h : l[i]? = some b) {k : ℕ} (hk : some k ≠ b) :
    some k ∈ l.set i a ↔ some k = a ∨ some k ∈ l := by
  have hi := (List.getElem?_eq_some_iff.1 h).1
  simp only [List.mem_iff_getElem?, List.getElem?_set]
  constructor
  · rintro ⟨j, hj⟩
    split_ifs at hj with h1
    · exact .inl (Option.some.inj hj).symm
    · exact .inr ⟨j, hj⟩
  · rintro (rfl | ⟨j, hj⟩)
    · exact ⟨i, by simp [hi]⟩
    · refine ⟨j, ?_⟩
      by_cases hij : i = j
      · subst hij
        rw [h] at hj
        exact absurd (Option.some.inj hj).symm hk
      · simp [hij, hj]

lemma not_mem_set {l : List (Option ℕ)} (hn : ∀ (i j k : ℕ), l[i]? = some (some k) → l[j]? = some (some k) → i = j) {i k : ℕ}
    (h : l[i]? = some (some k)) {a : Option ℕ} (ha : a ≠ some k) : some k ∉ l.set i a := by
  rw [List.mem_iff_getElem?]
  rintro ⟨j, hj⟩
  rw [List.getElem?_set] at hj
  split_ifs at hj with h1
  · exact ha (Option.some.inj hj)
  · exact h1 (hn i j k h hj)

lemma modify_ne {α : Type} {l : List α} {p k : ℕ} (h : k ≠ p) (f : α → α) : (l.modify p f)[k]? = l[k]? := by
  rw [List.getElem?_modify]
  simp [Ne.symm h]

lemma modify_eq {α : Type} {l : List α} {p : ℕ} (f : α → α) : (l.modify p f)[p]? = (l[p]?).map f := by
  rw [List.getElem?_modify]
  simp

lemma refs_zero (h : WrapHeap V W) (p : ℕ) :
    h.refs p = 0 ↔ some p ∉ h.vars ∧ ∀ (k : ℕ) (c : CppHalf W), h.cpps[k]? = some c → c.alive = true → c.copied ≠ some p := by
  simp only [WrapHeap.refs, Nat.add_eq_zero_iff, List.count_eq_zero, List.countP_eq_zero, Bool.and_eq_true, beq_iff_eq, not_and]
  constructor
  · rintro ⟨h1, h2⟩
    exact ⟨h1, fun k c hc ha => h2 c (List.mem_of_getElem? hc) ha⟩
  · rintro ⟨h1, h2⟩
    refine ⟨h1, fun c hc ha => ?_⟩
    obtain ⟨k, hk⟩ := List.mem_iff_getElem?.1 hc
    exact h2 k c hk ha

/-- Giving back a reference to `p` when only the flags of `p` may be out of date. -/
lemma release_eq {h : WrapHeap V W} {s : Values V W} {p : ℕ} {v : Value V W} (hv : s.vals[p]? = some v) (h1 : h.vars = s.vars)
    (h2 : h.slots = s.slots) (h3 : ∀ k, k ≠ p → h.pys[k]? = (s.vals[k]?).map (pyOf s k))
    (h4 : ∀ k, k ≠ p → h.cpps[k]? = (s.vals[k]?).map (cppOf s k)) (h5 : h.pys[p]? = some { pyOf s p v with alive := true })
    (h6 : h.cpps[p]? = some { cppOf s p v with alive := if v.inner then decide (some p ∈ s.slots) else true }) :
    h.release p = heapOf s := by
  have hz : h.refs p = 0 ↔ some p ∉ s.vars ∧ ¬ (v.inner = true ∧ some p ∈ s.slots) := by
    rw [refs_zero, h1]
    refine and_congr_right fun _ => ⟨?_, ?_⟩
    · rintro hx ⟨ha, hb⟩
      exact hx p _ h6 (by simp [ha, hb]) (by simp [cppOf, ha])
    · intro hx k c hc hal hcop
      by_cases hk : k = p
      · subst hk
        rw [h6] at hc
        obtain rfl := Option.some.inj hc
        by_cases hi : v.inner = true
        · simp only [hi, if_true, decide_eq_true_eq] at hal
          exact hx ⟨hi, hal⟩
        · simp [cppOf, hi] at hcop
      · rw [h4 k hk, Option.map_eq_some_iff] at hc
        obtain ⟨u, -, rfl⟩ := hc
        simp only [cppOf] at hcop
        split_ifs at hcop
        exact hk (Option.some.inj hcop)
  unfold WrapHeap.release
  by_cases hr : h.refs p = 0
  · rw [if_pos hr]
    obtain ⟨ha, hb⟩ := hz.1 hr
    simp only [h5]
    have hpy : ∀ k, (h.pys.modify p PyHalf.end)[k]? = (s.vals[k]?).map (pyOf s k) := by
      intro k
      by_cases hk : k = p
      · subst hk
        rw [modify_eq, h5, hv]
        simp [PyHalf.end, pyOf, ha]
        simpa using hb
      · rw [modify_ne hk, h3 k hk]
    refine heap_ext h1 h2 hpy fun k => ?_
    by_cases hi : v.inner = true
    · simp only [pyOf, hi, Bool.not_true, Bool.false_eq_true, if_false]
      by_cases hk : k = p
      · subst hk
        rw [h6, hv]
        simp [cppOf, hi]
      · exact h4 k hk
    · simp only [pyOf, hi, Bool.not_false, if_true]
      by_cases hk : k = p
      · subst hk
        rw [modify_eq, h6, hv]
        simp [cppOf, hi, CppHalf.end, ha]
      · rw [modify_ne hk, h4 k hk]
  · rw [if_neg hr]
    have hx : some p ∈ s.vars ∨ (v.inner = true ∧ some p ∈ s.slots) := by
      by_contra hc
      exact hr (hz.2 (not_or.1 hc))
    refine heap_ext h1 h2 (fun k => ?_) fun k => ?_
    · by_cases hk : k = p
      · subst hk
        rw [h5, hv]
        simp [pyOf, hx]
      · exact h3 k hk
    · by_cases hk : k = p
      · subst hk
        rw [h6, hv]
        by_cases hi : v.inner = true
        · simp [cppOf, hi]
        · have : some k ∈ s.vars := hx.resolve_right fun h => hi h.1
          simp [cppOf, hi, this]
      · exact h4 k hk

/-- The end of the object of a slot, when only the flags of this object are out of date. -/
lemma endCpp_eq {h : WrapHeap V W} {s : Values V W} {p : ℕ} {v : Value V W} (hv : s.vals[p]? = some v) (hi : v.inner = true)
    (hs : some p ∉ s.slots) (h1 : h.vars = s.vars) (h2 : h.slots = s.slots) (h3 : ∀ k, k ≠ p → h.pys[k]? = (s.vals[k]?).map (pyOf s k))
    (h4 : ∀ k, k ≠ p → h.cpps[k]? = (s.vals[k]?).map (cppOf s k)) (h5 : h.pys[p]? = some { pyOf s p v with alive := true })
    (h6 : h.cpps[p]? = some { cppOf s p v with alive := true }) : h.endCpp p = heapOf s := by
  have hc : (cppOf s p v).copied = some p := by simp [cppOf, hi]
  simp only [WrapHeap.endCpp, h6, hc]
  refine release_eq hv h1 h2 h3 (fun k hk => ?_) h5 ?_
  · simp only [modify_ne hk]
    exact h4 k hk
  · simp only [modify_eq, h6]
    simp [CppHalf.end, cppOf, hi, hs]

/-- the memory right after a copy, before the slots are changed -/
def cloned (s : Values V W) (x : Value V W) : WrapHeap V W :=
  { heapOf s with
    cpps := (heapOf s).cpps ++ [⟨x.data, s.vals.length, some s.vals.length, true⟩]
    pys := (heapOf s).pys ++ [⟨x.attrs, s.vals.length, false, x.copyable, true⟩] }

lemma clone_eq {s : Values V W} {c : ℕ} {x : Value V W} (hx : s.vals[c]? = some x)
    (ha : if x.inner then some c ∈ s.slots else some c ∈ s.vars) :
    (heapOf s).clone c = if x.copyable then some (some (cloned s x)) else some none := by
  have h1 : (cppOf s c x).alive = true := by
    by_cases hi : x.inner = true
    · simpa [cppOf, hi] using ha
    · simpa [cppOf, hi] using ha
  have h2 : (pyOf s c x).alive = true := by
    by_cases hi : x.inner = true
    · simp only [hi, if_true] at ha
      simp [pyOf, hi, ha]
    · have ha' : some c ∈ s.vars := by simpa [hi] using ha
      simp [pyOf, ha']
  have h3 : (cppOf s c x).self = c := rfl
  simp only [WrapHeap.clone, heapOf_cpps, hx, Option.map_some, h1, if_true, h3, heapOf_pys, h2]
  by_cases hc : x.copyable = true
  · simp [pyOf, hc, cloned, cppOf]
  · simp [pyOf, hc]

lemma cloned_pys (s : Values V W) (x : Value V W) (k : ℕ) (hk : k ≠ s.vals.length) : (cloned s x).pys[k]? = (s.vals[k]?).map (pyOf s k) := by
  simp only [cloned]
  rw [List.getElem?_append]
  by_cases h : k < (heapOf s).pys.length
  · rw [if_pos h, heapOf_pys]
  · rw [if_neg h]
    simp only [heapOf_pys_length] at h ⊢
    have : s.vals[k]? = none := List.getElem?_eq_none (by omega)
    rw [this, List.getElem?_eq_none (by simp; omega)]
    rfl

lemma cloned_cpps (s : Values V W) (x : Value V W) (k : ℕ) (hk : k ≠ s.vals.length) : (cloned s x).cpps[k]? = (s.vals[k]?).map (cppOf s k) := by
  simp only [cloned]
  rw [List.getElem?_append]
  by_cases h : k < (heapOf s).cpps.length
  · rw [if_pos h, heapOf_cpps]
  · rw [if_neg h]
    simp only [heapOf_cpps_length] at h ⊢
    have : s.vals[k]? = none := List.getElem?_eq_none (by omega)
    rw [this, List.getElem?_eq_none (by simp; omega)]
    rfl

lemma cloned_last (s : Values V W) (x : Value V W) : (cloned s x).pys[s.vals.length]? = some ⟨x.attrs, s.vals.length, false, x.copyable, true⟩ ∧
    (cloned s x).cpps[s.vals.length]? = some ⟨x.data, s.vals.length, some s.vals.length, true⟩ := by
  constructor
  · simp only [cloned]
    rw [List.getElem?_append_right (by simp)]
    simp
  · simp only [cloned]
    rw [List.getElem?_append_right (by simp)]
    simp

lemma dup_vals (s : Values V W) (x : Value V W) (k : ℕ) (hk : k ≠ s.vals.length) : (s.dup x).vals[k]? = s.vals[k]? := by
  simp only [Values.dup]
  rw [List.getElem?_append]
  by_cases h : k < s.vals.length
  · rw [if_pos h]
  · rw [if_neg h, List.getElem?_eq_none (by simp; omega), List.getElem?_eq_none (by omega)]

lemma dup_last (s : Values V W) (x : Value V W) : (s.dup x).vals[s.vals.length]? = some { x with inner := true } := by
  simp [Values.dup]

/-- a copy in a new slot -/
lemma add_eq {s : Values V W} {x : Value V W} : ({ cloned s x with slots := (cloned s x).slots ++ [some (heapOf s).cpps.length] } : WrapHeap V W) =
    heapOf { s.dup x with slots := s.slots ++ [some s.vals.length] } := by
  refine heap_ext rfl (by simp [cloned]) (fun k => ?_) fun k => ?_
  · by_cases hk : k = s.vals.length
    · subst hk
      simp only [(cloned_last s x).1, dup_last]
      simp [pyOf]
    · simp only [cloned_pys s x k hk, dup_vals s x k hk]
      refine congrArg (fun f => Option.map f _) (funext fun v => ?_)
      simp [pyOf, hk, Values.dup]
  · by_cases hk : k = s.vals.length
    · subst hk
      simp only [(cloned_last s x).2, dup_last]
      simp [cppOf]
    · simp only [cloned_cpps s x k hk, dup_vals s x k hk]
      refine congrArg (fun f => Option.map f _) (funext fun v => ?_)
      simp only [cppOf, List.mem_append, List.mem_singleton, Option.some.injEq, hk, or_false]
      rfl

/-- a copy in an old slot -/
lemma replace_eq {s : Values V W} (hw : ValuesWF s) {x : Value V W} {t c : ℕ} (ht : s.slots[t]? = some (some c)) :
    ({ cloned s x with slots := (cloned s x).slots.set t (some (heapOf s).cpps.length) } : WrapHeap V W).endCpp c =
      heapOf { s.dup x with slots := s.slots.set t (some s.vals.length) } := by
  obtain ⟨v, hv, hi⟩ := hw.slotin c (List.mem_of_getElem? ht)
  have hc : c < s.vals.length := (List.getElem?_eq_some_iff.1 hv).1
  have hne : c ≠ s.vals.length := Nat.ne_of_lt hc
  have hout : some c ∉ s.slots.set t (some s.vals.length) := not_mem_set hw.nodup ht (by simpa using Ne.symm hne)
  have hmem : ∀ k, k ≠ c → k ≠ s.vals.length → (some k ∈ s.slots.set t (some s.vals.length) ↔ some k ∈ s.slots) := by
    intro k h1 h2
    rw [mem_set_iff ht (by simpa using h1)]
    simp [h2]
  have hn : some s.vals.length ∈ s.slots.set t (some s.vals.length) := List.mem_set (List.getElem?_eq_some_iff.1 ht).1 _
  refine endCpp_eq (v := v) (by simpa only [dup_vals s x c hne] using hv) hi hout rfl (by simp [cloned]) (fun k hk => ?_) (fun k hk => ?_)
    ?_ ?_
  · by_cases hkn : k = s.vals.length
    · subst hkn
      simp only [(cloned_last s x).1, dup_last]
      simp [pyOf, hn]
    · simp only [cloned_pys s x k hkn, dup_vals s x k hkn]
      refine congrArg (fun f => Option.map f _) (funext fun v => ?_)
      simp [pyOf, hmem k hk hkn, Values.dup]
  · by_cases hkn : k = s.vals.length
    · subst hkn
      simp only [(cloned_last s x).2, dup_last]
      simp [cppOf, hn]
    · simp only [cloned_cpps s x k hkn, dup_vals s x k hkn]
      refine congrArg (fun f => Option.map f _) (funext fun v => ?_)
      simp only [cppOf, hmem k hk hkn]
      rfl
  · simp only [cloned_pys s x c hne, hv, Option.map_some]
    simp [pyOf, hi, List.mem_of_getElem? ht]
  · simp only [cloned_cpps s x c hne, hv, Option.map_some]
    simp [cppOf, hi, List.mem_of_getElem? ht]

lemma wf_add {s : Values V W} (hw : ValuesWF s) (x : Value V W) : ValuesWF { s.dup x with slots := s.slots ++ [some s.vals.length] } := by
  refine ⟨fun k hk => ?_, fun k hk => ?_, fun i j k hi hj => ?_⟩
  · have := hw.varlt k hk
    simp only [Values.dup, List.length_append]
    omega
  · simp only [List.mem_append, List.mem_singleton, Option.some.injEq] at hk
    rcases hk with hk | rfl
    · obtain ⟨v, hv, h⟩ := hw.slotin k hk
      exact ⟨v, by rw [dup_vals s x k (Nat.ne_of_lt (List.getElem?_eq_some_iff.1 hv).1)]; exact hv, h⟩
    · exact ⟨_, dup_last s x, rfl⟩
  · have key : ∀ i : ℕ, (s.slots ++ [some s.vals.length])[i]? = some (some k) → (s.slots[i]? = some (some k) ∧ k < s.vals.length) ∨
        (i = s.slots.length ∧ k = s.vals.length) := by
      intro i hi
      by_cases h : i < s.slots.length
      · rw [List.getElem?_append_left h] at hi
        obtain ⟨v, hv, -⟩ := hw.slotin k (List.mem_of_getElem? hi)
        exact .inl ⟨hi, (List.getElem?_eq_some_iff.1 hv).1⟩
      · have hlt := (List.getElem?_eq_some_iff.1 hi).1
        have e : i = s.slots.length := by simp at hlt; omega
        subst e
        simp at hi
        exact .inr ⟨rfl, hi.symm⟩
    rcases key i hi with ⟨a, b⟩ | ⟨a, b⟩ <;> rcases key j hj with ⟨c, d⟩ | ⟨c, d⟩
    · exact hw.nodup i j k a c
    · omega
    · omega
    · omega

lemma wf_replace {s : Values V W} (hw : ValuesWF s) (x : Value V W) (t : ℕ) :
    ValuesWF { s.dup x with slots := s.slots.set t (some s.vals.length) } := by
  refine ⟨fun k hk => ?_, fun k hk => ?_, fun i j k hi hj => ?_⟩
  · have := hw.varlt k hk
    simp only [Values.dup, List.length_append]
    omega
  · rcases List.mem_or_eq_of_mem_set hk with hk | hk
    · obtain ⟨v, hv, h⟩ := hw.slotin k hk
      exact ⟨v, by rw [dup_vals s x k (Nat.ne_of_lt (List.getElem?_eq_some_iff.1 hv).1)]; exact hv, h⟩
    · obtain rfl := Option.some.inj hk
      exact ⟨_, dup_last s x, rfl⟩
  · have key : ∀ i : ℕ, (s.slots.set t (some s.vals.length))[i]? = some (some k) → (s.slots[i]? = some (some k) ∧ k < s.vals.length) ∨
        (i = t ∧ k = s.vals.length) := by
      intro i hi
      rw [List.getElem?_set] at hi
      split_ifs at hi with h1 h2
      · simp at hi
        exact .inr ⟨h1.symm, hi.symm⟩
      · obtain ⟨v, hv, -⟩ := hw.slotin k (List.mem_of_getElem? hi)
        exact .inl ⟨hi, (List.getElem?_eq_some_iff.1 hv).1⟩
    rcases key i hi with ⟨a, b⟩ | ⟨a, b⟩ <;> rcases key j hj with ⟨c, d⟩ | ⟨c, d⟩
    · exact hw.nodup i j k a c
    · omega
    · omega
    · omega

lemma half_eq {s : Values V W} (hw : ValuesWF s) {k : ℕ} (hk : some k ∈ s.vars ∨ some k ∈ s.slots) :
    (heapOf s).half k = (s.exists? k).map fun x => (pyOf s k x, cppOf s k x) := by
  have hlt : k < s.vals.length := by
    rcases hk with h | h
    · exact hw.varlt k h
    · obtain ⟨v, hv, -⟩ := hw.slotin k h
      exact (List.getElem?_eq_some_iff.1 hv).1
  obtain ⟨x, hx⟩ : ∃ x, s.vals[k]? = some x := ⟨_, List.getElem?_eq_getElem hlt⟩
  have hal : (pyOf s k x).alive = true := by
    rcases hk with h | h
    · simp [pyOf, h]
    · obtain ⟨v, hv, hi⟩ := hw.slotin k h
      obtain rfl := Option.some.inj (hx.symm.trans hv)
      simp [pyOf, h, hi]
  have hh : (pyOf s k x).held = k := rfl
  simp only [WrapHeap.half, heapOf_pys, hx, Option.map_some, hal, if_true, hh, heapOf_cpps, Values.exists?, Option.bind_some]
  by_cases hi : x.inner = true
  · by_cases hs : some k ∈ s.slots
    · simp [cppOf, hi, hs]
    · simp [cppOf, hi, hs]
  · have hv : some k ∈ s.vars := hk.resolve_right fun h => by
      obtain ⟨v, hv, hi'⟩ := hw.slotin k h
      obtain rfl := Option.some.inj (hx.symm.trans hv)
      exact hi hi'
    simp [cppOf, hi, hv]

lemma exists_val {s : Values V W} {k : ℕ} {x : Value V W} (h : s.exists? k = some x) :
    s.vals[k]? = some x ∧ (x.inner = false ∨ some k ∈ s.slots) := by
  simp only [Values.exists?, Option.bind_eq_some_iff] at h
  obtain ⟨v, hv, h⟩ := h
  split_ifs at h with hc
  obtain rfl := Option.some.inj h
  exact ⟨hv, hc⟩

lemma clone_exists {s : Values V W} {c : ℕ} {x : Value V W} (hx : s.exists? c = some x) (hm : some c ∈ s.vars ∨ some c ∈ s.slots)
    (hw : ValuesWF s) : (heapOf s).clone c = if x.copyable then some (some (cloned s x)) else some none := by
  obtain ⟨h1, h2⟩ := exists_val hx
  refine clone_eq h1 ?_
  by_cases hi : x.inner = true
  · rw [if_pos hi]
    exact h2.resolve_left (by simp [hi])
  · rw [if_neg hi]
    refine hm.resolve_right fun h => ?_
    obtain ⟨v, hv, hi'⟩ := hw.slotin c h
    obtain rfl := Option.some.inj (h1.symm.trans hv)
    exact hi hi'

lemma slot_exists {s : Values V W} (hw : ValuesWF s) {c : ℕ} (h : some c ∈ s.slots) : ∃ x, s.exists? c = some x ∧ x.inner = true := by
  obtain ⟨v, hv, hi⟩ := hw.slotin c h
  exact ⟨v, by simp [Values.exists?, hv, h], hi⟩

lemma step_sim {s : Values V W} (hw : ValuesWF s) (t : WrapStmt V W) (ht : ∀ i, t ≠ .relocate i) :
    (heapOf s).step t = (s.step t).map (fun r => (heapOf r.1, r.2)) ∧ ∀ r, s.step t = some r → ValuesWF r.1 := by
  cases t with
  | create v w c =>
    simp only [WrapHeap.step, Values.step, Option.map_some, Option.some.injEq]
    have hnv : some s.vals.length ∉ s.vars := fun h => Nat.lt_irrefl _ (hw.varlt _ h)
    constructor
    · refine congrArg₂ Prod.mk (heap_ext (by simp) rfl (fun k => ?_) fun k => ?_) rfl
      · rw [List.getElem?_append]
        by_cases hk : k < s.vals.length
        · have : k ≠ s.vals.length := by omega
          simp only [heapOf_pys_length, hk, if_true, heapOf_pys, List.getElem?_append_left hk]
          refine congrArg (fun f => Option.map f _) (funext fun v => ?_)
          simp [pyOf, this]
        · rw [if_neg (by simpa using hk), List.getElem?_append_right (by omega)]
          simp only [heapOf_pys_length]
          by_cases hk' : k = s.vals.length
          · subst hk'
            simp [pyOf]
          · rw [List.getElem?_eq_none (by simp; omega), List.getElem?_eq_none (by simp; omega)]
            rfl
      · rw [List.getElem?_append]
        by_cases hk : k < s.vals.length
        · have : k ≠ s.vals.length := by omega
          simp only [heapOf_cpps_length, hk, if_true, heapOf_cpps, List.getElem?_append_left hk]
          refine congrArg (fun f => Option.map f _) (funext fun v => ?_)
          simp [cppOf, this]
        · rw [if_neg (by simpa using hk), List.getElem?_append_right (by omega)]
          simp only [heapOf_cpps_length]
          by_cases hk' : k = s.vals.length
          · subst hk'
            simp [cppOf]
          · rw [List.getElem?_eq_none (by simp; omega), List.getElem?_eq_none (by simp; omega)]
            rfl
    · rintro r rfl
      refine ⟨fun k hk => ?_, fun k hk => ?_, hw.nodup⟩
      · simp only [List.mem_append, List.mem_singleton, Option.some.injEq] at hk
        simp only [List.length_append, List.length_singleton]
        rcases hk with hk | rfl
        · have := hw.varlt k hk
          omega
        · omega
      · obtain ⟨v, hv, h⟩ := hw.slotin k hk
        exact ⟨v, by simp only [List.getElem?_append_left (List.getElem?_eq_some_iff.1 hv).1]; exact hv, h⟩
  | share i =>
    simp only [WrapHeap.step, Values.step, heapOf_vars]
    cases hi : s.vars[i]?.join with
    | none =>
      refine ⟨rfl, ?_⟩
      rintro r hr
      obtain rfl := Option.some.inj hr
      exact hw
    | some p =>
      have hm := mem_of_join' hi
      have hmm : ∀ k, some k ∈ s.vars ++ [some p] ↔ some k ∈ s.vars := by
        intro k
        simp only [List.mem_append, List.mem_singleton, Option.some.injEq, or_iff_left_iff_imp]
        rintro rfl
        exact hm
      constructor
      · simp only [Option.map_some, Option.some.injEq]
        refine congrArg₂ Prod.mk (heap_ext rfl rfl (fun k => ?_) fun k => ?_) rfl
        · simp only [heapOf_pys]
          refine congrArg (fun f => Option.map f _) (funext fun v => ?_)
          simp only [pyOf, hmm]
        · simp only [heapOf_cpps]
          refine congrArg (fun f => Option.map f _) (funext fun v => ?_)
          simp only [cppOf, hmm]
      · rintro r hr
        obtain rfl := Option.some.inj hr
        exact ⟨fun k hk => hw.varlt k ((hmm k).1 hk), hw.slotin, hw.nodup⟩
  | drop i =>
    simp only [WrapHeap.step, Values.step, heapOf_vars]
    cases hi : s.vars[i]?.join with
    | none =>
      refine ⟨rfl, ?_⟩
      rintro r hr
      obtain rfl := Option.some.inj hr
      exact hw
    | some p =>
      have hm := mem_of_join' hi
      have hlt := hw.varlt p hm
      have hmm : ∀ k, k ≠ p → (some k ∈ s.vars.set i none ↔ some k ∈ s.vars) := by
        intro k hk
        rw [mem_set_iff (mem_of_join hi) (by simpa using hk)]
        simp
      obtain ⟨x, hx⟩ : ∃ x, s.vals[p]? = some x := ⟨_, List.getElem?_eq_getElem hlt⟩
      constructor
      · simp only [Option.map_some, Option.some.injEq]
        refine congrArg₂ Prod.mk (release_eq (v := x) hx rfl rfl (fun k hk => ?_) (fun k hk => ?_) ?_ ?_) rfl
        · simp only [heapOf_pys]
          refine congrArg (fun f => Option.map f _) (funext fun v => ?_)
          simp only [pyOf, hmm k hk]
        · simp only [heapOf_cpps]
          refine congrArg (fun f => Option.map f _) (funext fun v => ?_)
          simp only [cppOf, hmm k hk]
        · simp only [heapOf_pys, hx, Option.map_some]
          simp [pyOf, hm]
        · simp only [heapOf_cpps, hx, Option.map_some]
          simp [cppOf, hm]
      · rintro r hr
        obtain rfl := Option.some.inj hr
        exact ⟨fun k hk => hw.varlt k ((List.mem_or_eq_of_mem_set hk).resolve_right (by simp)), hw.slotin, hw.nodup⟩
  | setAttr i v =>
    simp only [WrapHeap.step, Values.step, heapOf_vars]
    cases hi : s.vars[i]?.join with
    | none =>
      refine ⟨rfl, ?_⟩
      rintro r hr
      obtain rfl := Option.some.inj hr
      exact hw
    | some p =>
      constructor
      · simp only [Option.map_some, Option.some.injEq]
        refine congrArg₂ Prod.mk (heap_ext rfl rfl (fun k => ?_) fun k => ?_) rfl
        · by_cases hk : k = p
          · subst hk
            simp only [modify_eq, heapOf_pys, Option.map_map]
            refine congrArg (fun f => Option.map f _) (funext fun v => ?_)
            simp [pyOf]
          · simp only [modify_ne hk, heapOf_pys]
            rfl
        · by_cases hk : k = p
          · subst hk
            simp only [modify_eq, heapOf_cpps, Option.map_map]
            refine congrArg (fun f => Option.map f _) (funext fun v => ?_)
            simp [cppOf]
          · simp only [modify_ne hk, heapOf_cpps]
            rfl
      · rintro r hr
        obtain rfl := Option.some.inj hr
        refine ⟨fun k hk => by simpa using hw.varlt k hk, fun k hk => ?_, hw.nodup⟩
        obtain ⟨x, hx, h⟩ := hw.slotin k hk
        by_cases hk : k = p
        · subst hk
          exact ⟨{ x with attrs := v }, by simp [hx], h⟩
        · exact ⟨x, by simp only [modify_ne hk, hx], h⟩
  | setData i w =>
    simp only [WrapHeap.step, Values.step, heapOf_vars]
    cases hi : s.vars[i]?.join with
    | none =>
      refine ⟨rfl, ?_⟩
      rintro r hr
      obtain rfl := Option.some.inj hr
      exact hw
    | some p =>
      simp only [half_eq hw (.inl (mem_of_join' hi))]
      cases he : s.exists? p with
      | none => simp
      | some x =>
        constructor
        · simp only [Option.map_some, Option.bind_some, Option.some.injEq]
          refine congrArg₂ Prod.mk (heap_ext rfl rfl (fun k => ?_) fun k => ?_) rfl
          · by_cases hk : k = p
            · subst hk
              simp only [modify_eq, heapOf_pys, Option.map_map]
              refine congrArg (fun f => Option.map f _) (funext fun v => ?_)
              simp [pyOf]
            · simp only [modify_ne hk, heapOf_pys]
              rfl
          · have : (pyOf s p x).held = p := rfl
            by_cases hk : k = p
            · subst hk
              simp only [this, modify_eq, heapOf_cpps, Option.map_map]
              refine congrArg (fun f => Option.map f _) (funext fun v => ?_)
              simp [cppOf]
            · simp only [this, modify_ne hk, heapOf_cpps]
              rfl
        · rintro r hr
          obtain rfl := Option.some.inj hr
          refine ⟨fun k hk => by simpa using hw.varlt k hk, fun k hk => ?_, hw.nodup⟩
          obtain ⟨x, hx, h⟩ := hw.slotin k hk
          by_cases hk : k = p
          · subst hk
            exact ⟨{ x with data := w }, by simp [hx], h⟩
          · exact ⟨x, by simp only [modify_ne hk, hx], h⟩
  | read i =>
    simp only [WrapHeap.step, Values.step, heapOf_vars]
    cases hi : s.vars[i]?.join with
    | none =>
      refine ⟨rfl, ?_⟩
      rintro r hr
      obtain rfl := Option.some.inj hr
      exact hw
    | some p =>
      simp only [half_eq hw (.inl (mem_of_join' hi))]
      cases he : s.exists? p with
      | none => simp
      | some x =>
        refine ⟨rfl, ?_⟩
        rintro r hr
        obtain rfl := Option.some.inj hr
        exact hw
  | store i =>
    simp only [WrapHeap.step, Values.step, heapOf_vars]
    cases hi : s.vars[i]?.join with
    | none =>
      refine ⟨rfl, ?_⟩
      rintro r hr
      obtain rfl := Option.some.inj hr
      exact hw
    | some p =>
      have hm := mem_of_join' hi
      simp only [half_eq hw (.inl hm)]
      cases he : s.exists? p with
      | none => simp
      | some x =>
        have hh : (pyOf s p x).held = p := rfl
        simp only [Option.map_some, Option.bind_some, hh, clone_exists he (.inl hm) hw]
        by_cases hc : x.copyable = true
        · simp only [hc, if_true, Option.bind_some, Option.map_some, add_eq, true_and]
          rintro r hr
          obtain rfl := Option.some.inj hr
          exact wf_add hw x
        · simp only [hc, Bool.false_eq_true, if_false, Option.bind_some, Option.map_some, true_and]
          rintro r hr
          obtain rfl := Option.some.inj hr
          exact hw
  | put t i =>
    simp only [WrapHeap.step, Values.step, heapOf_vars, heapOf_slots]
    cases hi : s.vars[i]?.join with
    | none =>
      refine ⟨rfl, ?_⟩
      rintro r hr
      obtain rfl := Option.some.inj hr
      exact hw
    | some p =>
      cases hs : s.slots[t]?.join with
      | none =>
        refine ⟨rfl, ?_⟩
        rintro r hr
        obtain rfl := Option.some.inj hr
        exact hw
      | some c =>
        have hm := mem_of_join' hi
        simp only [half_eq hw (.inl hm)]
        cases he : s.exists? p with
        | none => simp
        | some x =>
          have hh : (pyOf s p x).held = p := rfl
          simp only [Option.map_some, Option.bind_some, hh, clone_exists he (.inl hm) hw]
          by_cases hc : x.copyable = true
          · simp only [hc, if_true, Option.bind_some, Option.map_some, replace_eq hw (mem_of_join hs), true_and]
            rintro r hr
            obtain rfl := Option.some.inj hr
            exact wf_replace hw x t
          · simp only [hc, Bool.false_eq_true, if_false, Option.bind_some, Option.map_some, true_and]
            rintro r hr
            obtain rfl := Option.some.inj hr
            exact hw
  | copy t =>
    simp only [WrapHeap.step, Values.step, heapOf_slots]
    cases hs : s.slots[t]?.join with
    | none =>
      refine ⟨rfl, ?_⟩
      rintro r hr
      obtain rfl := Option.some.inj hr
      exact hw
    | some c =>
      have hm := mem_of_join' hs
      obtain ⟨x, he, -⟩ := slot_exists hw hm
      simp only [he, Option.bind_some, clone_exists he (.inr hm) hw]
      by_cases hc : x.copyable = true
      · simp only [hc, if_true, Option.bind_some, Option.map_some, add_eq, true_and]
        rintro r hr
        obtain rfl := Option.some.inj hr
        exact wf_add hw x
      · simp only [hc, Bool.false_eq_true, if_false, Option.bind_some, Option.map_some, true_and]
        rintro r hr
        obtain rfl := Option.some.inj hr
        exact hw
  | assign t u =>
    simp only [WrapHeap.step, Values.step, heapOf_slots]
    cases hs : s.slots[t]?.join with
    | none =>
      refine ⟨rfl, ?_⟩
      rintro r hr
      obtain rfl := Option.some.inj hr
      exact hw
    | some d =>
      cases hu : s.slots[u]?.join with
      | none =>
        refine ⟨rfl, ?_⟩
        rintro r hr
        obtain rfl := Option.some.inj hr
        exact hw
      | some c =>
        by_cases htu : t = u
        · simp only [htu, if_true, Option.map_some, true_and]
          rintro r hr
          obtain rfl := Option.some.inj hr
          exact hw
        · have hm := mem_of_join' hu
          obtain ⟨x, he, -⟩ := slot_exists hw hm
          simp only [htu, if_false, he, Option.bind_some, clone_exists he (.inr hm) hw]
          by_cases hc : x.copyable = true
          · simp only [hc, if_true, Option.bind_some, Option.map_some, replace_eq hw (mem_of_join hs), true_and]
            rintro r hr
            obtain rfl := Option.some.inj hr
            exact wf_replace hw x t
          · simp only [hc, Bool.false_eq_true, if_false, Option.bind_some, Option.map_some, true_and]
            rintro r hr
            obtain rfl := Option.some.inj hr
            exact hw
  | destroy t =>
    simp only [WrapHeap.step, Values.step, heapOf_slots]
    cases hs : s.slots[t]?.join with
    | none =>
      refine ⟨rfl, ?_⟩
      rintro r hr
      obtain rfl := Option.some.inj hr
      exact hw
    | some c =>
      have hm := mem_of_join' hs
      obtain ⟨v, hv, hin⟩ := hw.slotin c hm
      have hmm : ∀ k, k ≠ c → (some k ∈ s.slots.set t none ↔ some k ∈ s.slots) := by
        intro k hk
        rw [mem_set_iff (mem_of_join hs) (by simpa using hk)]
        simp
      constructor
      · simp only [Option.map_some, Option.some.injEq]
        refine congrArg₂ Prod.mk (endCpp_eq (v := v) hv hin (not_mem_set hw.nodup (mem_of_join hs) (by simp)) rfl rfl (fun k hk => ?_)
          (fun k hk => ?_) ?_ ?_) rfl
        · simp only [heapOf_pys]
          refine congrArg (fun f => Option.map f _) (funext fun v => ?_)
          simp only [pyOf, hmm k hk]
        · simp only [heapOf_cpps]
          refine congrArg (fun f => Option.map f _) (funext fun v => ?_)
          simp only [cppOf, hmm k hk]
        · simp only [heapOf_pys, hv, Option.map_some]
          simp [pyOf, hm, hin]
        · simp only [heapOf_cpps, hv, Option.map_some]
          simp [cppOf, hm, hin]
      · rintro r hr
        obtain rfl := Option.some.inj hr
        refine ⟨hw.varlt, fun k hk => hw.slotin k ((List.mem_or_eq_of_mem_set hk).resolve_right (by simp)), fun i j k hi hj => ?_⟩
        have key : ∀ i : ℕ, (s.slots.set t none)[i]? = some (some k) → s.slots[i]? = some (some k) := by
          intro i hi
          rw [List.getElem?_set] at hi
          split_ifs at hi with h1 h2
          · simp at hi
          · exact hi
        exact hw.nodup i j k (key i hi) (key j hj)
  | get t =>
    simp only [WrapHeap.step, Values.step, heapOf_slots]
    cases hs : s.slots[t]?.join with
    | none =>
      refine ⟨rfl, ?_⟩
      rintro r hr
      obtain rfl := Option.some.inj hr
      exact hw
    | some c =>
      have hm := mem_of_join' hs
      obtain ⟨v, hv, hin⟩ := hw.slotin c hm
      have hlt := (List.getElem?_eq_some_iff.1 hv).1
      have hal : (cppOf s c v).alive = true := by simp [cppOf, hin, hm]
      have hal' : (pyOf s c v).alive = true := by simp [pyOf, hin, hm]
      have hself : (cppOf s c v).self = c := rfl
      simp only [heapOf_cpps, hv, Option.map_some, Option.bind_some, hal, hself, heapOf_pys, Option.any_some, hal', Bool.and_self, if_true,
        Option.some.injEq]
      constructor
      · refine congrArg₂ Prod.mk (heap_ext rfl rfl (fun k => ?_) fun k => ?_) rfl
        · by_cases hk : k = c
          · subst hk
            simp only [heapOf_pys, hv, Option.map_some]
            simp [pyOf, hin, hm]
          · simp only [heapOf_pys]
            refine congrArg (fun f => Option.map f _) (funext fun v => ?_)
            simp [pyOf, hk]
        · by_cases hk : k = c
          · subst hk
            simp only [heapOf_cpps, hv, Option.map_some]
            simp [cppOf, hin]
          · simp only [heapOf_cpps]
            refine congrArg (fun f => Option.map f _) (funext fun v => ?_)
            simp [cppOf, hk]
      · rintro r rfl
        refine ⟨fun k hk => ?_, hw.slotin, hw.nodup⟩
        simp only [List.mem_append, List.mem_singleton, Option.some.injEq] at hk
        rcases hk with hk | rfl
        · exact hw.varlt k hk
        · exact hlt
  | call t =>
    simp only [WrapHeap.step, Values.step, heapOf_slots]
    cases hs : s.slots[t]?.join with
    | none =>
      refine ⟨rfl, ?_⟩
      rintro r hr
      obtain rfl := Option.some.inj hr
      exact hw
    | some c =>
      have hm := mem_of_join' hs
      obtain ⟨v, hv, hin⟩ := hw.slotin c hm
      obtain ⟨x, he, -⟩ := slot_exists hw hm
      have hal : (cppOf s c v).alive = true := by simp [cppOf, hin, hm]
      have hself : (cppOf s c v).self = c := rfl
      simp only [heapOf_cpps, hv, Option.map_some, Option.bind_some, hal, if_true, hself, half_eq hw (.inr hm), he]
      refine ⟨rfl, ?_⟩
      rintro r hr
      obtain rfl := Option.some.inj hr
      exact hw
  | relocate t => exact absurd rfl (ht t)

lemma run_sim (prog : List (WrapStmt V W)) : ∀ {s : Values V W}, ValuesWF s → NoRelocate prog →
    (heapOf s).run prog = (s.run prog).map (fun r => (heapOf r.1, r.2)) ∧ ∀ r, s.run prog = some r → ValuesWF r.1 := by
  induction prog with
  | nil =>
    intro s hw _
    refine ⟨rfl, ?_⟩
    rintro r hr
    obtain rfl := Option.some.inj hr
    exact hw
  | cons t rest ih =>
    intro s hw hn
    obtain ⟨h1, h2⟩ := step_sim hw t fun i e => hn i (e ▸ List.mem_cons_self)
    have hn' : NoRelocate rest := fun i h => hn i (List.mem_cons_of_mem _ h)
    simp only [WrapHeap.run, Values.run, h1]
    cases hs : s.step t with
    | none => simp
    | some r =>
      obtain ⟨i1, i2⟩ := ih (h2 r hs) hn'
      simp only [Option.map_some, Option.bind_some, i1]
      cases hr : r.1.run rest with
      | none => simp
      | some q =>
        refine ⟨rfl, ?_⟩
        rintro r' hr'
        obtain rfl := Option.some.inj hr'
        exact i2 q hr

lemma wf_empty : ValuesWF ({} : Values V W) := ⟨by simp, by simp, by simp⟩

lemma heapOf_empty : heapOf ({} : Values V W) = {} := rfl

/-- Every change a statement can make to the values. -/
inductive Change (s : Values V W) : WrapStmt V W → Values V W → Prop
  | none (t) : Change s t s
  | create (v w c) : Change s (.create v w c) { s with vals := s.vals ++ [⟨v, w, c, false⟩], vars := s.vars ++ [some s.vals.length] }
  | share (i k) (h : some k ∈ s.vars) : Change s (.share i) { s with vars := s.vars ++ [some k] }
  | drop (i) : Change s (.drop i) { s with vars := s.vars.set i none }
  | modify (t k f) (h : some k ∈ s.vars) (hf : ∀ x : Value V W, (f x).inner = x.inner) : Change s t { s with vals := s.vals.modify k f }
  | add (t x) : Change s t { s.dup x with slots := s.slots ++ [some s.vals.length] }
  | put (t i x) : Change s (.put t i) { s.dup x with slots := s.slots.set t (some s.vals.length) }
  | assign (t u x) : Change s (.assign t u) { s.dup x with slots := s.slots.set t (some s.vals.length) }
  | destroy (t) : Change s (.destroy t) { s with slots := s.slots.set t Option.none }
  | get (t k) (h : s.slots[t]? = some (some k)) : Change s (.get t) { s with vars := s.vars ++ [some k] }

lemma change_of_step {s : Values V W} {t : WrapStmt V W} {r : Values V W × WrapOut V W} (h : s.step t = some r) : Change s t r.1 := by
  cases t with
  | create v w c =>
    obtain rfl := Option.some.inj h
    exact .create v w c
  | share i =>
    simp only [Values.step] at h
    split at h <;> obtain rfl := Option.some.inj h
    · exact .share i _ (mem_of_join' ‹_›)
    · exact .none _
  | drop i =>
    simp only [Values.step] at h
    split at h <;> obtain rfl := Option.some.inj h
    · exact .drop i
    · exact .none _
  | setAttr i v =>
    simp only [Values.step] at h
    split at h <;> obtain rfl := Option.some.inj h
    · exact .modify _ _ _ (mem_of_join' ‹_›) fun _ => rfl
    · exact .none _
  | setData i w =>
    simp only [Values.step] at h
    split at h
    · simp only [Option.bind_eq_some_iff] at h
      obtain ⟨_, -, h⟩ := h
      obtain rfl := Option.some.inj h
      exact .modify _ _ _ (mem_of_join' ‹_›) fun _ => rfl
    · obtain rfl := Option.some.inj h
      exact .none _
  | read i =>
    simp only [Values.step] at h
    split at h
    · simp only [Option.bind_eq_some_iff] at h
      obtain ⟨_, -, h⟩ := h
      obtain rfl := Option.some.inj h
      exact .none _
    · obtain rfl := Option.some.inj h
      exact .none _
  | store i =>
    simp only [Values.step] at h
    split at h
    · simp only [Option.bind_eq_some_iff] at h
      obtain ⟨x, -, h⟩ := h
      split_ifs at h <;> obtain rfl := Option.some.inj h
      · exact .add _ x
      · exact .none _
    · obtain rfl := Option.some.inj h
      exact .none _
  | put t i =>
    simp only [Values.step] at h
    split at h
    · simp only [Option.bind_eq_some_iff] at h
      obtain ⟨x, -, h⟩ := h
      split_ifs at h <;> obtain rfl := Option.some.inj h
      · exact .put t i x
      · exact .none _
    · obtain rfl := Option.some.inj h
      exact .none _
  | copy t =>
    simp only [Values.step] at h
    split at h
    · simp only [Option.bind_eq_some_iff] at h
      obtain ⟨x, -, h⟩ := h
      split_ifs at h <;> obtain rfl := Option.some.inj h
      · exact .add _ x
      · exact .none _
    · obtain rfl := Option.some.inj h
      exact .none _
  | assign t u =>
    simp only [Values.step] at h
    split at h
    · split_ifs at h
      · obtain rfl := Option.some.inj h
        exact .none _
      · simp only [Option.bind_eq_some_iff] at h
        obtain ⟨x, -, h⟩ := h
        split_ifs at h <;> obtain rfl := Option.some.inj h
        · exact .assign t u x
        · exact .none _
    · obtain rfl := Option.some.inj h
      exact .none _
  | destroy t =>
    simp only [Values.step] at h
    split at h <;> obtain rfl := Option.some.inj h
    · exact .destroy t
    · exact .none _
  | get t =>
    simp only [Values.step] at h
    split at h <;> obtain rfl := Option.some.inj h
    · exact .get t _ (mem_of_join ‹_›)
    · exact .none _
  | call t =>
    simp only [Values.step] at h
    split at h
    · simp only [Option.bind_eq_some_iff] at h
      obtain ⟨_, -, h⟩ := h
      obtain rfl := Option.some.inj h
      exact .none _
    · obtain rfl := Option.some.inj h
      exact .none _
  | relocate t =>
    simp only [Values.step] at h
    split at h <;> obtain rfl := Option.some.inj h
    · exact .none _
    · exact .none _

/-- no variable refers to the value of the slot `t` -/
def Unshared (t : ℕ) (s : Values V W) : Prop := ∀ k, s.slots[t]? = some (some k) → some k ∉ s.vars

lemma slot_lt {s : Values V W} (hw : ValuesWF s) {t k : ℕ} (h : s.slots[t]? = some (some k)) : k < s.vals.length := by
  obtain ⟨v, hv, -⟩ := hw.slotin k (List.mem_of_getElem? h)
  exact (List.getElem?_eq_some_iff.1 hv).1

lemma unshared_step {s s' : Values V W} {a : WrapStmt V W} (hw : ValuesWF s) (hc : Change s a s') {t : ℕ} (hu : Unshared t s)
    (ha : a ≠ .get t) : Unshared t s' := by
  cases hc with
  | none => exact hu
  | create v w c =>
    intro k hk hm
    simp only [List.mem_append, List.mem_singleton, Option.some.injEq] at hm
    have := slot_lt hw hk
    rcases hm with hm | hm
    · exact hu k hk hm
    · omega
  | share i k' h =>
    intro k hk hm
    simp only [List.mem_append, List.mem_singleton, Option.some.injEq] at hm
    rcases hm with hm | rfl
    · exact hu k hk hm
    · exact hu k hk h
  | drop i => exact fun k hk hm => hu k hk ((List.mem_or_eq_of_mem_set hm).resolve_right (by simp))
  | modify _ k' f h hf => exact hu
  | add _ x =>
    intro k hk hm
    simp only [Values.dup] at hm
    simp only [List.getElem?_append] at hk
    split_ifs at hk with h1
    · exact hu k hk hm
    · have h0 := List.mem_of_getElem? hk
      simp only [List.mem_singleton, Option.some.injEq] at h0
      have := hw.varlt k hm
      omega
  | put t' i x =>
    intro k hk hm
    simp only [Values.dup] at hm
    simp only [List.getElem?_set] at hk
    have := hw.varlt k hm
    split_ifs at hk with h1
    · simp at hk
      omega
    · exact hu k hk hm
  | assign t' u x =>
    intro k hk hm
    simp only [Values.dup] at hm
    simp only [List.getElem?_set] at hk
    have := hw.varlt k hm
    split_ifs at hk with h1
    · simp at hk
      omega
    · exact hu k hk hm
  | destroy t' =>
    intro k hk hm
    simp only [List.getElem?_set] at hk
    split_ifs at hk with h1
    · simp at hk
    · exact hu k hk hm
  | get t' k' h =>
    intro k hk hm
    simp only [List.mem_append, List.mem_singleton, Option.some.injEq] at hm
    rcases hm with hm | rfl
    · exact hu k hk hm
    · exact ha (by rw [hw.nodup t' t k h hk])

lemma kept_step {s s' : Values V W} {a : WrapStmt V W} (hc : Change s a s') {t k : ℕ} {x : Value V W} (hu : Unshared t s)
    (ha : ¬ Touches t a) (ht : s.slots[t]? = some (some k)) (hx : s.vals[k]? = some x) :
    s'.slots[t]? = some (some k) ∧ s'.vals[k]? = some x := by
  have hlt := (List.getElem?_eq_some_iff.1 hx).1
  have hts := (List.getElem?_eq_some_iff.1 ht).1
  cases hc with
  | none => exact ⟨ht, hx⟩
  | create v w c => exact ⟨ht, by simp only [List.getElem?_append_left hlt, hx]⟩
  | share i k' h => exact ⟨ht, hx⟩
  | drop i => exact ⟨ht, hx⟩
  | modify _ k' f h hf =>
    have hne : k ≠ k' := by
      rintro rfl
      exact hu k ht h
    exact ⟨ht, by simp only [modify_ne hne, hx]⟩
  | add _ y => exact ⟨by simp only [List.getElem?_append_left hts, ht], by simp only [dup_vals s y k (Nat.ne_of_lt hlt), hx]⟩
  | put t' i y => exact ⟨by simp only [List.getElem?_set_ne (show t' ≠ t from ha), ht], by simp only [dup_vals s y k (Nat.ne_of_lt hlt), hx]⟩
  | assign t' u y => exact ⟨by simp only [List.getElem?_set_ne (show t' ≠ t from ha), ht], by simp only [dup_vals s y k (Nat.ne_of_lt hlt), hx]⟩
  | destroy t' => exact ⟨by simp only [List.getElem?_set_ne (show t' ≠ t from ha), ht], hx⟩
  | get t' k' h => exact ⟨ht, hx⟩

lemma unshared_run {t : ℕ} (prog : List (WrapStmt V W)) : ∀ {s : Values V W} {r}, ValuesWF s → NoRelocate prog → Unshared t s →
    WrapStmt.get t ∉ prog → s.run prog = some r → Unshared t r.1 := by
  induction prog with
  | nil =>
    intro s r hw _ hu _ hr
    obtain rfl := Option.some.inj hr
    exact hu
  | cons a rest ih =>
    intro s r hw hn hu hg hr
    simp only [Values.run, Option.bind_eq_some_iff] at hr
    obtain ⟨r1, h1, r2, h2, h3⟩ := hr
    obtain rfl := Option.some.inj h3
    exact ih (r := r2) ((step_sim hw a fun i e => hn i (e ▸ List.mem_cons_self)).2 r1 h1) (fun i h => hn i (List.mem_cons_of_mem _ h))
      (unshared_step hw (change_of_step h1) hu fun e => hg (e ▸ List.mem_cons_self)) (fun h => hg (List.mem_cons_of_mem _ h)) h2

lemma kept_run {t k : ℕ} {x : Value V W} (prog : List (WrapStmt V W)) : ∀ {s : Values V W} {r}, ValuesWF s → NoRelocate prog →
    Unshared t s → (∀ a ∈ prog, ¬ Touches t a) → s.slots[t]? = some (some k) → s.vals[k]? = some x → s.run prog = some r →
    r.1.slots[t]? = some (some k) ∧ r.1.vals[k]? = some x := by
  induction prog with
  | nil =>
    intro s r hw _ hu _ ht hx hr
    obtain rfl := Option.some.inj hr
    exact ⟨ht, hx⟩
  | cons a rest ih =>
    intro s r hw hn hu hg ht hx hr
    simp only [Values.run, Option.bind_eq_some_iff] at hr
    obtain ⟨r1, h1, r2, h2, h3⟩ := hr
    obtain rfl := Option.some.inj h3
    have ha := hg a List.mem_cons_self
    obtain ⟨k1, k2⟩ := kept_step (change_of_step h1) hu ha ht hx
    exact ih (r := r2) ((step_sim hw a fun i e => hn i (e ▸ List.mem_cons_self)).2 r1 h1) (fun i h => hn i (List.mem_cons_of_mem _ h))
      (unshared_step hw (change_of_step h1) hu fun e => ha (by rw [e]; exact rfl)) (fun b hb => hg b (List.mem_cons_of_mem _ hb)) k1 k2 h2

lemma values_run_append (a b : List (WrapStmt V W)) : ∀ s : Values V W,
    s.run (a ++ b) = (s.run a).bind fun r => (r.1.run b).map fun q => (q.1, r.2 ++ q.2) := by
  induction a with
  | nil => intro s; simp [Values.run]
  | cons t rest ih =>
    intro s
    simp only [List.cons_append, Values.run]
    cases s.step t with
    | none => rfl
    | some r =>
      simp only [Option.bind_some, ih]
      cases r.1.run rest with
      | none => rfl
      | some q =>
        simp only [Option.bind_some]
        cases q.1.run b with
        | none => rfl
        | some z => rfl

lemma values_run_length (a : List (WrapStmt V W)) : ∀ {s : Values V W} {r}, s.run a = some r → r.2.length = a.length := by
  induction a with
  | nil =>
    intro s r h
    obtain rfl := Option.some.inj h
    rfl
  | cons t rest ih =>
    intro s r h
    simp only [Values.run, Option.bind_eq_some_iff] at h
    obtain ⟨r1, h1, r2, h2, h3⟩ := h
    obtain rfl := Option.some.inj h3
    simp [ih h2]

/-- variables refer only to values that belong to Python -/
def OnlyOwn (s : Values V W) : Prop := ∀ k v, some k ∈ s.vars → s.vals[k]? = some v → v.inner = false

lemma own_step {s s' : Values V W} {a : WrapStmt V W} (hw : ValuesWF s) (hc : Change s a s') (ho : OnlyOwn s) (ha : ∀ t, a ≠ .get t) :
    OnlyOwn s' := by
  cases hc with
  | none => exact ho
  | create v w c =>
    intro k v hk hv
    simp only [List.mem_append, List.mem_singleton, Option.some.injEq] at hk
    rcases hk with hk | rfl
    · rw [List.getElem?_append_left (hw.varlt k hk)] at hv
      exact ho k v hk hv
    · simp at hv
      rw [← hv]
  | share i k' h =>
    intro k v hk hv
    simp only [List.mem_append, List.mem_singleton, Option.some.injEq] at hk
    rcases hk with hk | rfl
    · exact ho k v hk hv
    · exact ho k v h hv
  | drop i => exact fun k v hk hv => ho k v ((List.mem_or_eq_of_mem_set hk).resolve_right (by simp)) hv
  | modify _ k' f h hf =>
    intro k v hk hv
    by_cases e : k = k'
    · subst e
      simp only [modify_eq, Option.map_eq_some_iff] at hv
      obtain ⟨u, hu, rfl⟩ := hv
      rw [hf]
      exact ho k u hk hu
    · simp only [modify_ne e] at hv
      exact ho k v hk hv
  | add _ x =>
    intro k v hk hv
    simp only [dup_vals s x k (Nat.ne_of_lt (hw.varlt k hk))] at hv
    exact ho k v hk hv
  | put t' i x =>
    intro k v hk hv
    simp only [dup_vals s x k (Nat.ne_of_lt (hw.varlt k hk))] at hv
    exact ho k v hk hv
  | assign t' u x =>
    intro k v hk hv
    simp only [dup_vals s x k (Nat.ne_of_lt (hw.varlt k hk))] at hv
    exact ho k v hk hv
  | destroy t' => exact ho
  | get t' k' h => exact absurd rfl (ha t')

lemma own_defined {s : Values V W} (hw : ValuesWF s) (ho : OnlyOwn s) (a : WrapStmt V W) : ∃ r, s.step a = some r := by
  have hvar : ∀ {i k : ℕ}, s.vars[i]?.join = some k → ∃ x, s.exists? k = some x := by
    intro i k hk
    have hm := mem_of_join' hk
    obtain ⟨x, hx⟩ : ∃ x, s.vals[k]? = some x := ⟨_, List.getElem?_eq_getElem (hw.varlt k hm)⟩
    exact ⟨x, by simp [Values.exists?, hx, ho k x hm hx]⟩
  have hslot : ∀ {i k : ℕ}, s.slots[i]?.join = some k → ∃ x, s.exists? k = some x := by
    intro i k hk
    obtain ⟨x, hx, -⟩ := slot_exists hw (mem_of_join' hk)
    exact ⟨x, hx⟩
  have hif : ∀ (b : Bool) (p q : Values V W × WrapOut V W), ∃ r, (if b = true then some p else some q) = some r := by
    intro b p q
    cases b
    · exact ⟨q, rfl⟩
    · exact ⟨p, rfl⟩
  cases a <;> simp only [Values.step]
  case create => exact ⟨_, rfl⟩
  case share | drop | setAttr | destroy | get | relocate => split <;> exact ⟨_, rfl⟩
  case setData | read =>
    split
    · obtain ⟨x, hx⟩ := hvar ‹_›
      exact ⟨_, by rw [hx]; rfl⟩
    · exact ⟨_, rfl⟩
  case call =>
    split
    · obtain ⟨x, hx⟩ := hslot ‹_›
      exact ⟨_, by rw [hx]; rfl⟩
    · exact ⟨_, rfl⟩
  case store | put =>
    split
    · obtain ⟨x, hx⟩ := hvar (by assumption)
      rw [hx, Option.bind_some]
      exact hif _ _ _
    · exact ⟨_, rfl⟩
  case copy =>
    split
    · obtain ⟨x, hx⟩ := hslot ‹_›
      rw [hx, Option.bind_some]
      exact hif _ _ _
    · exact ⟨_, rfl⟩
  case assign t u =>
    split
    · split_ifs
      · exact ⟨_, rfl⟩
      · obtain ⟨x, hx⟩ := hslot (i := u) (by assumption)
        rw [hx, Option.bind_some]
        exact hif _ _ _
    · exact ⟨_, rfl⟩

lemma own_run (prog : List (WrapStmt V W)) : ∀ {s : Values V W}, ValuesWF s → OnlyOwn s → NoRelocate prog →
    (∀ t, WrapStmt.get t ∉ prog) → ∃ r, s.run prog = some r := by
  induction prog with
  | nil => exact fun _ _ _ _ => ⟨_, rfl⟩
  | cons a rest ih =>
    intro s hw ho hn hg
    obtain ⟨r, hr⟩ := own_defined hw ho a
    obtain ⟨q, hq⟩ := ih ((step_sim hw a fun i e => hn i (e ▸ List.mem_cons_self)).2 r hr)
      (own_step hw (change_of_step hr) ho fun t e => hg t (e ▸ List.mem_cons_self)) (fun i h => hn i (List.mem_cons_of_mem _ h))
      (fun t h => hg t (List.mem_cons_of_mem _ h))
    exact ⟨(q.1, r.2 :: q.2), by simp only [Values.run, hr, Option.bind_some, hq]⟩

end ProxNLP
