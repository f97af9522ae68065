import Verif.Spec.ResultsCopy
import Verif.Lemmas.Blocks
import Mathlib.Data.Rat.Defs
import Mathlib.Data.List.GetD
import Mathlib.Tactic.IntervalCases

/-!
C92: copies of the results.
-/

set_option linter.unusedSectionVars false
namespace ProxNLP

variable {K : Type} [Zero K]

/-! ### Views -/

/-- views of consecutive segments, recursively -/
def segViewsFrom (b : ℕ) : ℕ → List ℕ → List ResView
  | _, [] => []
  | off, n :: t => ⟨b, off, n⟩ :: segViewsFrom b (off + n) t

theorem segViewsFrom_eq (b off : ℕ) (sizes : List ℕ) :
    segViewsFrom b off sizes =
      (List.range sizes.length).map fun i => (⟨b, off + (sizes.take i).sum, sizes.getD i 0⟩ : ResView) := by
  induction sizes generalizing off with
  | nil => rfl
  | cons n t ih =>
    rw [segViewsFrom, ih, List.length_cons, List.range_succ_eq_map, List.map_cons, List.map_map]
    congr 1
    apply List.map_congr_left
    intro i _
    simp [Nat.add_assoc]

theorem segmentViews_eq (b : ℕ) (sizes : List ℕ) : segmentViews b sizes = segViewsFrom b 0 sizes := by
  rw [segViewsFrom_eq]
  unfold segmentViews
  apply List.map_congr_left
  intro i _
  rw [startIdx_eq, Nat.zero_add]

theorem buffer_some (s : ResMem K) (b : ℕ) (l : List K) : s.buffer b = some l ↔ s.heap[b]? = some (some l) := by
  unfold ResMem.buffer; rw [Option.join_eq_some_iff]

theorem obj_some (s : ResMem K) (k : ℕ) (o : ResObj) : s.obj k = some o ↔ s.objs[k]? = some (some o) := by
  unfold ResMem.obj; rw [Option.join_eq_some_iff]

/-- assigning the views of one object to those of another with the same stacked values changes nothing -/
theorem assignViews_same (s s' : ResMem K) (d r off : ℕ) (szs szr : List ℕ) (l : List K)
    (hd : s.buffer d = some l) (hr : s.buffer r = some l)
    (h : assignViews s (segViewsFrom d off szs) (segViewsFrom r off szr) = some s') : s' = s := by
  induction szs generalizing off szr with
  | nil =>
    cases szr with
    | nil => simp only [segViewsFrom, assignViews] at h; injection h with h; exact h.symm
    | cons a t => simp [segViewsFrom, assignViews] at h
  | cons a t ih =>
    cases szr with
    | nil => simp [segViewsFrom, assignViews] at h
    | cons a' t' =>
      simp only [segViewsFrom, assignViews, ResMem.readView, hr, Option.bind_some, Option.bind_eq_bind] at h
      by_cases hle : off + a' ≤ l.length
      · rw [if_pos hle, Option.bind_some] at h
        simp only [ResMem.writeView, hd, Option.bind_some] at h
        split at h
        · rename_i hc
          have hlen : ((l.drop off).take a').length = a' := by
            rw [List.length_take, List.length_drop]; omega
          have haa : a' = a := by rw [← hlen]; exact hc.2
          subst haa
          have hval : l.take off ++ (l.drop off).take a' ++ l.drop (off + a') = l := by
            rw [List.append_assoc, ← List.drop_drop, List.take_append_drop, List.take_append_drop]
          have hset : s.heap.set d (some l) = s.heap := by
            apply List.ext_getElem?
            intro k
            rw [List.getElem?_set]
            split
            · rename_i hk; subst hk
              rw [buffer_some] at hd
              have hlt := (List.getElem?_eq_some_iff.1 hd).1
              rw [if_pos hlt, hd]
            · rfl
          rw [hval, hset, Option.bind_some] at h
          exact ih _ _ h
        · simp at h
      · rw [if_neg hle] at h; simp at h

/-! ### Refinement -/

/-- the two buffers owned by an object -/
def ResObj.own (o : ResObj) : Bool → ℕ
  | true => o.data
  | false => o.x

/-- memory represents the values -/
structure ResInv (s : ResMem K) (vs : List (Option (Spec.ResVal K))) : Prop where
  len : s.objs.length = vs.length
  live : ∀ k o, s.obj k = some o → ∃ v, (vs[k]?).join = some v ∧ s.buffer o.data = some v.lams ∧
    s.buffer o.x = some v.x ∧
    (v.copied = false → o.views = segmentViews o.data v.sizes ∧ v.lams.length = v.sizes.sum)
  dead : ∀ k v, (vs[k]?).join = some v → ∃ o, s.obj k = some o
  inj : ∀ k k' o o' b b', s.obj k = some o → s.obj k' = some o' → o.own b = o'.own b' → k = k' ∧ b = b'

theorem buffer_set (s : ResMem K) (b b' : ℕ) (v : Option (List K)) (objs : List (Option ResObj)) (hne : b' ≠ b) :
    ({ heap := s.heap.set b v, objs := objs } : ResMem K).buffer b' = s.buffer b' := by
  unfold ResMem.buffer; simp only; rw [List.getElem?_set_ne hne.symm]

theorem buffer_set_self (s : ResMem K) (b : ℕ) (v l : List K) (objs : List (Option ResObj)) (h : s.buffer b = some l) :
    ({ heap := s.heap.set b (some v), objs := objs } : ResMem K).buffer b = some v := by
  rw [buffer_some] at h
  have hlt := (List.getElem?_eq_some_iff.1 h).1
  unfold ResMem.buffer; simp only; rw [List.getElem?_set_self hlt]; rfl

theorem buffer_append (s : ResMem K) (b : ℕ) (l : List K) (t : List (Option (List K))) (objs : List (Option ResObj))
    (h : s.buffer b = some l) : ({ heap := s.heap ++ t, objs := objs } : ResMem K).buffer b = some l := by
  rw [buffer_some] at h ⊢
  have hlt := (List.getElem?_eq_some_iff.1 h).1
  simp only; rw [List.getElem?_append_left hlt]; exact h

theorem buffer_new (s : ResMem K) (a b : List K) (objs : List (Option ResObj)) :
    ({ heap := s.heap ++ [some a, some b], objs := objs } : ResMem K).buffer s.heap.length = some a ∧
    ({ heap := s.heap ++ [some a, some b], objs := objs } : ResMem K).buffer (s.heap.length + 1) = some b := by
  constructor <;> (rw [buffer_some]; simp only; rw [List.getElem?_append_right (by omega)]; simp)

theorem buffer_lt (s : ResMem K) (b : ℕ) (l : List K) (h : s.buffer b = some l) : b < s.heap.length := by
  rw [buffer_some] at h; exact (List.getElem?_eq_some_iff.1 h).1

theorem ResInv.own_lt {s : ResMem K} {vs : List (Option (Spec.ResVal K))} (hi : ResInv s vs) (k : ℕ) (o : ResObj)
    (h : s.obj k = some o) (b : Bool) : o.own b < s.heap.length := by
  obtain ⟨v, _, h1, h2, _⟩ := hi.live k o h
  cases b
  · exact buffer_lt s _ _ h2
  · exact buffer_lt s _ _ h1

theorem getElem?_push {α : Type} (l : List α) (a : α) (k : ℕ) :
    (l ++ [a])[k]? = if k < l.length then l[k]? else if k = l.length then some a else none := by
  split
  · rename_i h; exact List.getElem?_append_left h
  · rename_i h
    split
    · rename_i h'; subst h'; simp
    · rename_i h'
      apply List.getElem?_eq_none
      rw [List.length_append, List.length_singleton]; omega

/-- a new object with two new buffers -/
theorem ResInv.push {s : ResMem K} {vs : List (Option (Spec.ResVal K))} (hi : ResInv s vs) (v : Spec.ResVal K)
    (views : List ResView)
    (hv : v.copied = false → views = segmentViews s.heap.length v.sizes ∧ v.lams.length = v.sizes.sum) :
    ResInv { heap := s.heap ++ [some v.lams, some v.x], objs := s.objs ++ [some ⟨s.heap.length, s.heap.length + 1, views⟩] }
      (vs ++ [some v]) := by
  have hobj : ∀ k, ({ heap := s.heap ++ [some v.lams, some v.x], objs := s.objs ++ [some ⟨s.heap.length, s.heap.length + 1, views⟩] } : ResMem K).obj k
      = if k < s.objs.length then s.obj k else if k = s.objs.length then some ⟨s.heap.length, s.heap.length + 1, views⟩ else none := by
    intro k; unfold ResMem.obj; simp only; rw [getElem?_push]
    split
    · rfl
    · split <;> rfl
  have hval : ∀ k, ((vs ++ [some v])[k]?).join = if k < s.objs.length then (vs[k]?).join else if k = s.objs.length then some v else none := by
    intro k; rw [getElem?_push, hi.len]
    split
    · rfl
    · split <;> rfl
  have hbig : ∀ k o, s.obj k = some o → k < s.objs.length := by
    intro k o h; rw [obj_some] at h; exact (List.getElem?_eq_some_iff.1 h).1
  refine ⟨by simp [hi.len], ?_, ?_, ?_⟩
  · intro k o ho
    rw [hobj] at ho
    rw [hval]
    by_cases hk : k < s.objs.length
    · rw [if_pos hk] at ho ⊢
      obtain ⟨w, a, b, c, d⟩ := hi.live k o ho
      exact ⟨w, a, buffer_append _ _ _ _ _ b, buffer_append _ _ _ _ _ c, d⟩
    · rw [if_neg hk] at ho ⊢
      by_cases hk' : k = s.objs.length
      · rw [if_pos hk'] at ho ⊢
        injection ho with ho; subst ho
        exact ⟨v, rfl, (buffer_new s _ _ _).1, (buffer_new s _ _ _).2, hv⟩
      · rw [if_neg hk'] at ho; cases ho
  · intro k w hw
    rw [hval] at hw
    rw [hobj]
    by_cases hk : k < s.objs.length
    · rw [if_pos hk] at hw ⊢; exact hi.dead k w hw
    · rw [if_neg hk] at hw ⊢
      by_cases hk' : k = s.objs.length
      · rw [if_pos hk'] at hw ⊢; exact ⟨_, rfl⟩
      · rw [if_neg hk'] at hw; cases hw
  · intro k k' o o' b b' ho ho' heq
    rw [hobj] at ho ho'
    have hnew : ∀ b, ResObj.own ⟨s.heap.length, s.heap.length + 1, views⟩ b ≥ s.heap.length := by
      intro b; cases b <;> simp [ResObj.own]
    by_cases hk : k < s.objs.length
    · rw [if_pos hk] at ho
      by_cases hk2 : k' < s.objs.length
      · rw [if_pos hk2] at ho'; exact hi.inj k k' o o' b b' ho ho' heq
      · rw [if_neg hk2] at ho'
        split at ho'
        · injection ho' with ho'; subst ho'
          have := hi.own_lt k o ho b; have := hnew b'; omega
        · cases ho'
    · rw [if_neg hk] at ho
      split at ho
      · rename_i hkk
        injection ho with ho; subst ho
        by_cases hk2 : k' < s.objs.length
        · rw [if_pos hk2] at ho'
          have := hi.own_lt k' o' ho' b'; have := hnew b; omega
        · rw [if_neg hk2] at ho'
          split at ho'
          · rename_i hkk'
            injection ho' with ho'; subst ho'
            refine ⟨by omega, ?_⟩
            cases b <;> cases b' <;> simp_all [ResObj.own]
          · cases ho'
      · cases ho

/-- changing the contents of the buffers of one object -/
theorem ResInv.update {s : ResMem K} {vs : List (Option (Spec.ResVal K))} (hi : ResInv s vs) (i : ℕ) (o : ResObj)
    (ho : s.obj i = some o) (v w : Spec.ResVal K) (hv : (vs[i]?).join = some v) (hw1 : w.sizes = v.sizes)
    (hw2 : w.copied = v.copied) (hlen : v.lams.length = w.lams.length) :
    ResInv { heap := (s.heap.set o.data (some w.lams)).set o.x (some w.x), objs := s.objs } (vs.set i (some w)) := by
  have hlt : i < vs.length := by rw [← hi.len]; rw [obj_some] at ho; exact (List.getElem?_eq_some_iff.1 ho).1
  have hne : o.data ≠ o.x := fun h => by have := (hi.inj i i o o true false ho ho h).2; cases this
  have hval : ∀ k, ((vs.set i (some w))[k]?).join = if k = i then some w else (vs[k]?).join := by
    intro k
    by_cases hk : k = i
    · subst hk; rw [if_pos rfl, List.getElem?_set_self hlt]; rfl
    · rw [if_neg hk, List.getElem?_set_ne (Ne.symm hk)]
  obtain ⟨v', a0, b0, c0, d0⟩ := hi.live i o ho
  have hvv : v' = v := by rw [hv] at a0; injection a0 with a0; exact a0.symm
  subst hvv
  refine ⟨by simp [hi.len], ?_, ?_, fun k k' o1 o2 b b' h1 h2 => hi.inj k k' o1 o2 b b' h1 h2⟩
  · intro k o1 h1
    have h1 : s.obj k = some o1 := h1
    rw [hval]
    by_cases hk : k = i
    · subst hk
      have : o1 = o := by rw [ho] at h1; injection h1 with h1; exact h1.symm
      subst this
      rw [if_pos rfl]
      have e1 : ({ heap := s.heap.set o1.data (some w.lams), objs := s.objs } : ResMem K).buffer o1.data = some w.lams :=
        buffer_set_self s _ _ _ _ b0
      have e2 : ({ heap := s.heap.set o1.data (some w.lams), objs := s.objs } : ResMem K).buffer o1.x = some v'.x := by
        rw [buffer_set s _ _ _ _ hne.symm]; exact c0
      refine ⟨w, rfl, ?_, buffer_set_self { heap := s.heap.set o1.data (some w.lams), objs := s.objs } _ _ _ _ e2, ?_⟩
      · rw [buffer_set { heap := s.heap.set o1.data (some w.lams), objs := s.objs } _ _ _ _ hne]; exact e1
      · intro hc
        rw [hw2] at hc
        rw [hw1, ← hlen]; exact d0 hc
    · rw [if_neg hk]
      obtain ⟨u, a, b, c, d⟩ := hi.live k o1 h1
      have n : ∀ p q : Bool, o1.own p ≠ o.own q := fun p q h => hk (hi.inj k i o1 o p q h1 ho h).1
      have n1 : o1.data ≠ o.x := n true false
      have n2 : o1.data ≠ o.data := n true true
      have n3 : o1.x ≠ o.x := n false false
      have n4 : o1.x ≠ o.data := n false true
      refine ⟨u, a, ?_, ?_, d⟩
      · rw [buffer_set { heap := s.heap.set o.data (some w.lams), objs := s.objs } _ _ _ _ n1,
          buffer_set s _ _ _ _ n2]; exact b
      · rw [buffer_set { heap := s.heap.set o.data (some w.lams), objs := s.objs } _ _ _ _ n3,
          buffer_set s _ _ _ _ n4]; exact c
  · intro k u hu
    rw [hval] at hu
    by_cases hk : k = i
    · subst hk; exact ⟨o, ho⟩
    · rw [if_neg hk] at hu; exact hi.dead k u hu

/-- destroying an object -/
theorem ResInv.drop {s : ResMem K} {vs : List (Option (Spec.ResVal K))} (hi : ResInv s vs) (i : ℕ) (o : ResObj)
    (ho : s.obj i = some o) :
    ResInv { heap := (s.heap.set o.data none).set o.x none, objs := s.objs.set i none } (vs.set i none) := by
  have hlt' : i < s.objs.length := by rw [obj_some] at ho; exact (List.getElem?_eq_some_iff.1 ho).1
  have hlt : i < vs.length := by rw [← hi.len]; exact hlt'
  have hobj : ∀ k, ({ heap := (s.heap.set o.data none).set o.x none, objs := s.objs.set i none } : ResMem K).obj k
      = if k = i then none else s.obj k := by
    intro k; unfold ResMem.obj; simp only
    by_cases hk : k = i
    · subst hk; rw [if_pos rfl, List.getElem?_set_self hlt']; rfl
    · rw [if_neg hk, List.getElem?_set_ne (Ne.symm hk)]
  have hval : ∀ k, ((vs.set i none)[k]?).join = if k = i then none else (vs[k]?).join := by
    intro k
    by_cases hk : k = i
    · subst hk; rw [if_pos rfl, List.getElem?_set_self hlt]; rfl
    · rw [if_neg hk, List.getElem?_set_ne (Ne.symm hk)]
  refine ⟨by simp [hi.len], ?_, ?_, ?_⟩
  · intro k o1 h1
    rw [hobj] at h1
    rw [hval]
    by_cases hk : k = i
    · rw [if_pos hk] at h1; cases h1
    · rw [if_neg hk] at h1 ⊢
      obtain ⟨u, a, b, c, d⟩ := hi.live k o1 h1
      have n : ∀ p q : Bool, o1.own p ≠ o.own q := fun p q h => hk (hi.inj k i o1 o p q h1 ho h).1
      have n1 : o1.data ≠ o.x := n true false
      have n2 : o1.data ≠ o.data := n true true
      have n3 : o1.x ≠ o.x := n false false
      have n4 : o1.x ≠ o.data := n false true
      refine ⟨u, a, ?_, ?_, d⟩
      · rw [buffer_set { heap := s.heap.set o.data none, objs := s.objs } _ _ _ _ n1,
          buffer_set s _ _ _ _ n2]; exact b
      · rw [buffer_set { heap := s.heap.set o.data none, objs := s.objs } _ _ _ _ n3,
          buffer_set s _ _ _ _ n4]; exact c
  · intro k u hu
    rw [hval] at hu
    rw [hobj]
    by_cases hk : k = i
    · rw [if_pos hk] at hu; cases hu
    · rw [if_neg hk] at hu ⊢; exact hi.dead k u hu
  · intro k k' o1 o2 b b' h1 h2
    rw [hobj] at h1 h2
    split at h1
    · cases h1
    · split at h2
      · cases h2
      · exact hi.inj k k' o1 o2 b b' h1 h2

/-- replacing an object by one with new buffers and adding the old one at the end -/
theorem ResInv.moved {s : ResMem K} {vs : List (Option (Spec.ResVal K))} (hi : ResInv s vs) (i : ℕ) (o : ResObj)
    (ho : s.obj i = some o) (v : Spec.ResVal K) (hv : (vs[i]?).join = some v) :
    ResInv { heap := s.heap ++ [some [], some []]
             objs := s.objs.set i (some ⟨s.heap.length, s.heap.length + 1, []⟩) ++ [some o] }
      (vs.set i (some ⟨[], [], [], v.copied⟩) ++ [some v]) := by
  have hlt' : i < s.objs.length := by rw [obj_some] at ho; exact (List.getElem?_eq_some_iff.1 ho).1
  have hlt : i < vs.length := by rw [← hi.len]; exact hlt'
  have hobj : ∀ k, ({ heap := s.heap ++ [some [], some []], objs := s.objs.set i (some ⟨s.heap.length, s.heap.length + 1, []⟩) ++ [some o] } : ResMem K).obj k
      = if k = i then some ⟨s.heap.length, s.heap.length + 1, []⟩ else if k < s.objs.length then s.obj k
        else if k = s.objs.length then some o else none := by
    intro k; unfold ResMem.obj; simp only; rw [getElem?_push, List.length_set]
    by_cases hk : k = i
    · subst hk; rw [if_pos hlt', if_pos rfl, List.getElem?_set_self hlt']; rfl
    · rw [if_neg hk, List.getElem?_set_ne (Ne.symm hk)]
      split
      · rfl
      · split <;> rfl
  have hval : ∀ k, ((vs.set i (some ⟨[], [], [], v.copied⟩) ++ [some v])[k]?).join = if k = i then some ⟨[], [], [], v.copied⟩
      else if k < s.objs.length then (vs[k]?).join else if k = s.objs.length then some v else none := by
    intro k; rw [getElem?_push, List.length_set, hi.len]
    by_cases hk : k = i
    · subst hk; rw [if_pos hlt, if_pos rfl, List.getElem?_set_self hlt]; rfl
    · rw [if_neg hk, List.getElem?_set_ne (Ne.symm hk)]
      split
      · rfl
      · split <;> rfl
  refine ⟨by simp [hi.len], ?_, ?_, ?_⟩
  · intro k o1 h1
    rw [hobj] at h1
    rw [hval]
    by_cases hk : k = i
    · rw [if_pos hk] at h1 ⊢
      injection h1 with h1; subst h1
      exact ⟨_, rfl, (buffer_new s _ _ _).1, (buffer_new s _ _ _).2, fun _ => ⟨rfl, rfl⟩⟩
    · rw [if_neg hk] at h1 ⊢
      by_cases hk2 : k < s.objs.length
      · rw [if_pos hk2] at h1 ⊢
        obtain ⟨u, a, b, c, d⟩ := hi.live k o1 h1
        exact ⟨u, a, buffer_append _ _ _ _ _ b, buffer_append _ _ _ _ _ c, d⟩
      · rw [if_neg hk2] at h1 ⊢
        split at h1
        · rename_i hk3
          rw [if_pos hk3]
          injection h1 with h1; subst h1
          obtain ⟨u, a, b, c, d⟩ := hi.live i o ho
          have : u = v := by rw [hv] at a; injection a with a; exact a.symm
          subst this
          exact ⟨_, rfl, buffer_append _ _ _ _ _ b, buffer_append _ _ _ _ _ c, d⟩
        · cases h1
  · intro k u hu
    rw [hval] at hu
    rw [hobj]
    by_cases hk : k = i
    · rw [if_pos hk]; exact ⟨_, rfl⟩
    · rw [if_neg hk] at hu ⊢
      by_cases hk2 : k < s.objs.length
      · rw [if_pos hk2] at hu ⊢; exact hi.dead k u hu
      · rw [if_neg hk2] at hu ⊢
        split at hu
        · rename_i hk3; rw [if_pos hk3]; exact ⟨_, rfl⟩
        · cases hu
  · have hnew : ∀ b, ResObj.own ⟨s.heap.length, s.heap.length + 1, []⟩ b ≥ s.heap.length := by
      intro b; cases b <;> simp [ResObj.own]
    -- where an object of the new state comes from
    have horig : ∀ k o1, (if k = i then some (⟨s.heap.length, s.heap.length + 1, []⟩ : ResObj) else if k < s.objs.length then s.obj k
        else if k = s.objs.length then some o else none) = some o1 →
        (k = i ∧ o1 = ⟨s.heap.length, s.heap.length + 1, []⟩) ∨ (k ≠ i ∧ k < s.objs.length ∧ s.obj k = some o1) ∨
          (k = s.objs.length ∧ o1 = o) := by
      intro k o1 h
      split at h
      · injection h with h; exact Or.inl ⟨by assumption, h.symm⟩
      · split at h
        · exact Or.inr (Or.inl ⟨by assumption, by assumption, h⟩)
        · split at h
          · injection h with h; exact Or.inr (Or.inr ⟨by assumption, h.symm⟩)
          · cases h
    intro k k' o1 o2 b b' h1 h2 heq
    rw [hobj] at h1 h2
    rcases horig k o1 h1 with ⟨a1, rfl⟩ | ⟨a1, a2, a3⟩ | ⟨a1, rfl⟩
    · rcases horig k' o2 h2 with ⟨c1, rfl⟩ | ⟨c1, c2, c3⟩ | ⟨c1, rfl⟩
      · refine ⟨by omega, ?_⟩
        cases b <;> cases b' <;> simp_all [ResObj.own]
      · have := hi.own_lt k' o2 c3 b'; have := hnew b; omega
      · have := hi.own_lt i o2 ho b'; have := hnew b; omega
    · rcases horig k' o2 h2 with ⟨c1, rfl⟩ | ⟨c1, c2, c3⟩ | ⟨c1, rfl⟩
      · have := hi.own_lt k o1 a3 b; have := hnew b'; omega
      · exact hi.inj k k' o1 o2 b b' a3 c3 heq
      · exact absurd (hi.inj k i o1 o2 b b' a3 ho heq).1 a1
    · rcases horig k' o2 h2 with ⟨c1, rfl⟩ | ⟨c1, c2, c3⟩ | ⟨c1, rfl⟩
      · have := hi.own_lt i o1 ho b; have := hnew b'; omega
      · exact absurd (hi.inj i k' o1 o2 b b' ho c3 heq).1 (Ne.symm c1)
      · exact ⟨by omega, (hi.inj i i _ _ b b' ho ho heq).2⟩

/-- one operation: values follow -/
theorem ResInv.step {s s' : ResMem K} {vs : List (Option (Spec.ResVal K))} (hi : ResInv s vs) (op : ResOp K)
    (h : s.step op = some s')
    (hok : ∀ i j, op = .assign i j → ∀ k v, k = i ∨ k = j → (vs[k]?).join = some v → v.copied = false) :
    ∃ vs', Spec.resStep vs op = some vs' ∧ ResInv s' vs' := by
  cases op with
  | construct sizes x0 =>
    simp only [ResMem.step, Option.some.injEq] at h
    subst h
    exact ⟨_, rfl, hi.push ⟨sizes, List.replicate sizes.sum 0, x0, false⟩ _ (fun _ => ⟨rfl, by simp⟩)⟩
  | copy i =>
    simp only [ResMem.step, Option.bind_eq_bind, Option.bind_eq_some_iff, Option.some.injEq] at h
    obtain ⟨o, ho, l, hl, x, hx, rfl⟩ := h
    obtain ⟨v, a, b, c, d⟩ := hi.live i o ho
    have e1 : l = v.lams := by rw [hl] at b; injection b
    have e2 : x = v.x := by rw [hx] at c; injection c
    subst e1; subst e2
    exact ⟨_, by simp only [Spec.resStep, a, Option.map_some], hi.push { v with copied := true } _ (fun h => by cases h)⟩
  | move i =>
    simp only [ResMem.step, Option.bind_eq_bind, Option.bind_eq_some_iff, Option.some.injEq] at h
    obtain ⟨o, ho, rfl⟩ := h
    obtain ⟨v, a, _⟩ := hi.live i o ho
    exact ⟨_, by simp only [Spec.resStep, a, Option.map_some], hi.moved i o ho v a⟩
  | assign i j =>
    simp only [ResMem.step, Option.bind_eq_bind, Option.bind_eq_some_iff] at h
    obtain ⟨d, hd, r, hr, s1, h1, s2, h2, h3⟩ := h
    obtain ⟨v, a, b, c, e⟩ := hi.live i d hd
    obtain ⟨w, a', b', c', e'⟩ := hi.live j r hr
    have hv := hok i j rfl i v (Or.inl rfl) a
    have hw := hok i j rfl j w (Or.inr rfl) a'
    obtain ⟨ev, el⟩ := e hv
    obtain ⟨ev', el'⟩ := e' hw
    simp only [assignBuffer, Option.bind_eq_bind, c, c', Option.bind_some] at h1
    split at h1
    · injection h1 with h1
      have bd : s1.buffer d.data = some v.lams := by
        rw [← h1, buffer_set s _ _ _ _ (fun h => by have := (hi.inj i i d d true false hd hd h).2; cases this)]; exact b
      have br : s1.buffer r.data = some w.lams := by
        rw [← h1, buffer_set s _ _ _ _ (fun h => by have := (hi.inj j i r d true false hr hd h).2; cases this)]; exact b'
      simp only [assignBuffer, Option.bind_eq_bind, bd, br, Option.bind_some] at h2
      split at h2
      · rename_i hlen
        injection h2 with h2
        have inv2 := hi.update i d hd v { v with lams := w.lams, x := w.x } a rfl rfl hlen
        have hs2 : s2 = { heap := (s.heap.set d.data (some w.lams)).set d.x (some w.x), objs := s.objs } := by
          rw [← h2, ← h1]
          simp only
          rw [List.set_comm _ _ (fun h => by have := (hi.inj i i d d true false hd hd h.symm).2; cases this)]
        rw [ev, ev', segmentViews_eq, segmentViews_eq] at h3
        have e1 : s2.buffer d.data = some w.lams := by rw [← h2]; exact buffer_set_self s1 _ _ _ _ bd
        have e2 : s2.buffer r.data = some w.lams := by
          by_cases hdr : r.data = d.data
          · rw [hdr]; exact e1
          · rw [← h2, buffer_set s1 _ _ _ _ hdr]; exact br
        have := assignViews_same s2 s' d.data r.data 0 _ _ w.lams e1 e2 h3
        subst this
        refine ⟨vs.set i (some { v with lams := w.lams, x := w.x }), ?_, ?_⟩
        · simp only [Spec.resStep, a, a', Option.bind_some, Option.map_some]
        · rw [hs2]; exact inv2
      · cases h2
    · cases h1
  | write i lams x =>
    simp only [ResMem.step, Option.bind_eq_bind, Option.bind_eq_some_iff] at h
    obtain ⟨o, ho, l, hl, x', hx, h⟩ := h
    obtain ⟨v, a, b, c, d⟩ := hi.live i o ho
    split at h
    · rename_i hc
      injection h with h; subst h
      have e1 : l = v.lams := by rw [hl] at b; injection b
      refine ⟨_, by simp only [Spec.resStep, a, Option.map_some], hi.update i o ho v { v with lams := lams, x := x } a rfl rfl ?_⟩
      rw [← e1]; exact hc.1
    · cases h
  | destroy i =>
    simp only [ResMem.step, Option.bind_eq_bind, Option.bind_eq_some_iff, Option.some.injEq] at h
    obtain ⟨o, ho, rfl⟩ := h
    obtain ⟨v, a, _⟩ := hi.live i o ho
    exact ⟨_, by simp only [Spec.resStep, a, Option.map_some], hi.drop i o ho⟩

theorem foldlM_append_some {σ α : Type} (f : σ → α → Option σ) (l : List α) (a : α) (s s' : σ) :
    (l ++ [a]).foldlM f s = some s' ↔ ∃ t, l.foldlM f s = some t ∧ f t a = some s' := by
  rw [List.foldlM_append]
  simp only [Option.bind_eq_bind, Option.bind_eq_some_iff, List.foldlM_cons, List.foldlM_nil]
  constructor
  · rintro ⟨t, h1, u, h2, h3⟩
    exact ⟨t, h1, by rw [h2]; exact h3⟩
  · rintro ⟨t, h1, h2⟩
    exact ⟨t, h1, s', h2, rfl⟩

theorem ResInv.run (ops : List (ResOp K)) (s : ResMem K) (h : ResMem.run ops = some s)
    (hok : Spec.NoCopyAssigned ops) : ∃ vs, Spec.resValues ops = some vs ∧ ResInv s vs := by
  induction ops using List.reverseRecOn generalizing s with
  | nil =>
    simp only [ResMem.run, List.foldlM_nil] at h
    injection h with h; subst h
    refine ⟨[], rfl, ⟨rfl, ?_, ?_, ?_⟩⟩
    · intro k o ho; simp [ResMem.obj] at ho
    · intro k v hv; simp at hv
    · intro k k' o o' b b' ho; simp [ResMem.obj] at ho
  | append_singleton ops op ih =>
    unfold ResMem.run at h
    rw [foldlM_append_some] at h
    obtain ⟨t, h1, h2⟩ := h
    obtain ⟨vs, hvs, hi⟩ := ih t h1 (by
      intro pre i j post he
      exact hok pre i j (post ++ [op]) (by rw [he]; simp))
    obtain ⟨vs', h3, h4⟩ := hi.step op h2 (fun i j he => hok ops i j [] (by rw [he]) vs hvs)
    exact ⟨vs', by unfold Spec.resValues; rw [foldlM_append_some]; exact ⟨vs, hvs, h3⟩, h4⟩

theorem mapM_eq_some_map {α β : Type} (f : α → Option β) (g : α → β) (l : List α) (h : ∀ a ∈ l, f a = some (g a)) :
    l.mapM f = some (l.map g) := by
  induction l with
  | nil => rfl
  | cons a t ih =>
    rw [List.mapM_cons, h a (by simp), ih (fun b hb => h b (by simp [hb]))]
    rfl

/-- **C92 (partial): results objects hold their own values.**  Full statement: after any program that constructs,
copies, moves, assigns, writes (solves) and destroys results objects, every live object shows, in all members, what it
would show if objects were plain values.  Here: for programs that never assign to or from a copy, the multipliers
vector and the point of every live object are those of the value semantics; and the per-constraint blocks too for
every object that was not made by copying.  Missing: the blocks of copies and assignments involving copies, for which
it is false (`C92_copy_blocks_false`, `C92_assign_false`, `C92_from_copy_false`). -/
theorem C92_values_partial (ops : List (ResOp K)) (s : ResMem K) (h : ResMem.run ops = some s)
    (hok : Spec.NoCopyAssigned ops) :
    ∃ vs, Spec.resValues ops = some vs ∧ (∀ k, (vs[k]?).join = none ↔ s.obj k = none) ∧
      ∀ k v, (vs[k]?).join = some v → s.lams k = some v.lams ∧ s.point k = some v.x ∧
        (v.copied = false → s.blocks k = some (Spec.blocksOf v.sizes v.lams)) := by
  obtain ⟨vs, hvs, hi⟩ := ResInv.run ops s h hok
  refine ⟨vs, hvs, fun k => ⟨fun hk => ?_, fun hk => ?_⟩, fun k v hv => ?_⟩
  · by_contra hne
    obtain ⟨o, ho⟩ := Option.ne_none_iff_exists'.1 hne
    obtain ⟨v, hv, _⟩ := hi.live k o ho
    rw [hv] at hk; cases hk
  · by_contra hne
    obtain ⟨v, hv⟩ := Option.ne_none_iff_exists'.1 hne
    obtain ⟨o, ho⟩ := hi.dead k v hv
    rw [ho] at hk; cases hk
  · obtain ⟨o, ho⟩ := hi.dead k v hv
    obtain ⟨w, a, b, c, d⟩ := hi.live k o ho
    have : w = v := by rw [hv] at a; injection a with a; exact a.symm
    subst this
    refine ⟨by simp only [ResMem.lams, ho, Option.bind_some, b], by simp only [ResMem.point, ho, Option.bind_some, c],
      fun hc => ?_⟩
    obtain ⟨e1, e2⟩ := d hc
    simp only [ResMem.blocks, ho, Option.bind_some, e1]
    unfold segmentViews Spec.blocksOf
    rw [mapM_eq_some_map _ (fun q : ResView => (w.lams.drop q.start).take q.len), List.map_map]
    · congr 1
      apply List.map_congr_left
      intro i _
      simp only [Function.comp_apply, startIdx_eq]
    · intro q hq
      rw [List.mem_map] at hq
      obtain ⟨i, hi', rfl⟩ := hq
      rw [List.mem_range] at hi'
      have hget : w.sizes[i]? = some (w.sizes.getD i 0) := by
        rw [List.getD_eq_getElem _ _ hi', List.getElem?_eq_getElem hi']
      have hle : startIdx w.sizes i + w.sizes.getD i 0 ≤ w.lams.length := by
        rw [e2, ← startIdx_succ w.sizes i _ hget]; exact startIdx_le_sum _ _
      simp only [ResMem.readView, b, Option.bind_some, if_pos hle]

/-! ### Witnesses -/

/-- two constraints of dimensions 1 and 2; solve; copy; solve again; copy of the copy; destroy -/
def Demo.resOps : List (ResOp ℚ) :=
  [.construct [1, 2] [0], .write 0 [1, 2, 3] [7], .copy 0, .write 0 [4, 5, 6] [8], .move 0, .construct [1, 2] [0],
    .assign 3 2, .destroy 2]

/-- the hypotheses of `C92_values_partial` hold for a program with all six operations -/
example : (∃ s, ResMem.run Demo.resOps = some s ∧ s.lams 1 = some [1, 2, 3] ∧ s.point 1 = some [7] ∧
    s.lams 3 = some [4, 5, 6] ∧ s.blocks 3 = some [[4], [5, 6]]) ∧ Spec.NoCopyAssigned Demo.resOps := by
  refine ⟨⟨_, rfl, by decide +kernel⟩, ?_⟩
  intro pre i j post he vs hvs k v hk hv
  have hlen : pre.length = 6 ∧ i = 3 ∧ j = 2 := by
    have h0 : Demo.resOps[pre.length]? = some (ResOp.assign i j) := by
      rw [he, List.getElem?_append_right le_rfl, Nat.sub_self, List.getElem?_cons_zero]
    have hlt : pre.length < 8 := by
      have := congrArg List.length he; simp [Demo.resOps] at this; omega
    clear he hvs
    generalize pre.length = q at h0 hlt
    interval_cases q <;> simp [Demo.resOps] at h0 ⊢
    exact ⟨h0.1.symm, h0.2.symm⟩
  obtain ⟨hl, rfl, rfl⟩ := hlen
  have hpre : pre = Demo.resOps.take 6 := by rw [he, ← hl, List.take_left']; rfl
  subst hpre
  have hvs' : (Spec.resValues (Demo.resOps.take 6)).map (fun vs => (vs[2]?.join.map (·.copied), vs[3]?.join.map (·.copied))) =
    some (some false, some false) := by decide +kernel
  rw [hvs] at hvs'
  simp only [Option.map_some, Option.some.injEq, Prod.mk.injEq] at hvs'
  rcases hk with rfl | rfl
  · rw [hv] at hvs'; simpa using hvs'.2
  · rw [hv] at hvs'; simpa using hvs'.1

/-- **The blocks of a copy are not a snapshot:** copy the results, solve again: `data_lams_opt` of the copy keeps its
values, the blocks `lams_opt` of the copy show the new multipliers; once the original is gone (destroyed, or replaced
by `setup()`) reading them is undefined. -/
theorem C92_copy_blocks_false :
    (∃ s, ResMem.run ([.construct [1, 2] [0], .write 0 [1, 2, 3] [7], .copy 0, .write 0 [4, 5, 6] [8]] : List (ResOp ℚ)) = some s ∧
      s.lams 1 = some [1, 2, 3] ∧ s.blocks 1 = some [[4], [5, 6]]) ∧
    (∃ s, ResMem.run ([.construct [1, 2] [0], .write 0 [1, 2, 3] [7], .copy 0, .destroy 0] : List (ResOp ℚ)) = some s ∧
      s.lams 1 = some [1, 2, 3] ∧ s.blocks 1 = none) := by
  exact ⟨⟨_, rfl, by decide +kernel⟩, ⟨_, rfl, by decide +kernel⟩⟩

/-- **Assigning to a copy overwrites the original:** `Results b(a); b = c;` leaves the multipliers of `c` in `a`. -/
theorem C92_assign_false :
    ∃ s, ResMem.run ([.construct [1, 2] [0], .write 0 [1, 2, 3] [7], .construct [1, 2] [0], .write 1 [4, 5, 6] [8],
        .copy 0, .assign 2 1] : List (ResOp ℚ)) = some s ∧
      s.lams 0 = some [4, 5, 6] ∧ s.point 0 = some [7] := ⟨_, rfl, by decide +kernel⟩

/-- **Assigning from a copy does not take its multipliers:** `Results b(a);` solve with `a` again; `c = b;` gives `c` the
point of the first solve and the multipliers of the second one. -/
theorem C92_from_copy_false :
    ∃ s, ResMem.run ([.construct [1, 2] [0], .write 0 [1, 2, 3] [7], .copy 0, .write 0 [4, 5, 6] [8],
        .construct [1, 2] [0], .assign 2 1] : List (ResOp ℚ)) = some s ∧
      s.lams 1 = some [1, 2, 3] ∧ s.point 2 = some [7] ∧ s.lams 2 = some [4, 5, 6] := ⟨_, rfl, by decide +kernel⟩

end ProxNLP
