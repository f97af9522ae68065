import Verif.Spec.ConEquality
import Verif.Props.Sharing
import Mathlib.Algebra.Field.Rat
import Mathlib.Algebra.Order.Ring.Rat
import Mathlib.Tactic.NormNum

/-!
# C126: what `==` between constraints means

For every program that runs without an exception, and every two constraints it can name.
-/

set_option linter.unusedSectionVars false

namespace ProxNLP

open Spec

variable {K : Type} [Field K]

/-- what is stored behind a name -/
private lemma conAt_of {hist : List (Stmt K)} {o : Objects K} (h : Objects.run {} hist = some o) {r : ConRef} {c f s : ℕ}
    {pre : List (Stmt K)} {v : UserSet K} (hr : StandsFor hist r c) (hc : Made makesCon hist c pre (.newConstraint f s))
    (hv : SetIs pre s v) : o.conAt r = some ⟨f, v⟩ := by
  have hcon := made_con h hc hv
  cases r with
  | own k => obtain rfl : k = c := hr; exact hcon
  | inProblem p i =>
    obtain ⟨pre', cost, cs, post, rfl, rfl, hi⟩ := hr
    obtain ⟨q, hq, e⟩ := prob_constraints h
    have := congrArg (fun l => l[i]?) e
    simp only [List.getElem?_map, hi, Option.map_some, hcon] at this
    cases hqi : q.constraints[i]? with
    | none => simp [hqi] at this
    | some u =>
      have hu : u = ⟨f, v⟩ := by simpa [hqi] using this
      simp [Objects.conAt, hq, hqi, hu]

private lemma conAt_from {hist : List (Stmt K)} {o : Objects K} (h : Objects.run {} hist = some o) {r : ConRef} {f : ℕ}
    (hr : MadeFrom hist r f) : ∃ y, o.conAt r = some y ∧ y.func = f := by
  obtain ⟨c, pre, s, h1, h2⟩ := hr
  obtain ⟨v, hv⟩ := made_con_from h h2
  exact ⟨_, conAt_of h h1 h2 hv, rfl⟩

private lemma standsFor_later {hist more : List (Stmt K)} {r : ConRef} {c : ℕ} (h : StandsFor hist r c) : StandsFor (hist ++ more) r c := by
  cases r with
  | own k => exact h
  | inProblem p i =>
    obtain ⟨pre, cost, cs, post, rfl, hp, hi⟩ := h
    refine ⟨pre, cost, cs, post ++ more, by simp, hp, ?_⟩
    have hlt : i < (cs ++ added p post).length := (List.getElem?_eq_some_iff.1 hi).1
    rw [show cs ++ added p (post ++ more) = (cs ++ added p post) ++ added p more by simp [added], List.getElem?_append_left hlt]
    exact hi

private lemma madeFrom_later {hist more : List (Stmt K)} {r : ConRef} {f : ℕ} (h : MadeFrom hist r f) : MadeFrom (hist ++ more) r f := by
  obtain ⟨c, pre, s, h1, post, rfl, h2, h3⟩ := h
  exact ⟨c, pre, s, standsFor_later h1, post ++ more, by simp, h2, h3⟩

/-- **C126, meaning of `==`**: two constraints are equal exactly when they were made from the same function object. Copying a
constraint into a problem, changing the function's parameters, or changing sets does not matter. -/
theorem C126_equal_iff {hist : List (Stmt K)} {o : Objects K} (h : Objects.run {} hist = some o) (a b : ConRef) (f g : ℕ)
    (ha : MadeFrom hist a f) (hb : MadeFrom hist b g) : o.conEq a b = some (decide (f = g)) := by
  obtain ⟨x, hx, rfl⟩ := conAt_from h ha
  obtain ⟨y, hy, rfl⟩ := conAt_from h hb
  simp only [Objects.conEq, hx, hy, Option.bind_some, Option.map_some, ConObj.same]
  rfl

/-- **C126, the answer is stable, and equal constraints have equal values**: whatever the program does later (`more`), equal constraints
stay equal, unequal ones unequal; the value of a constraint at a point is what its function maps the point to at that time; and equal
constraints give the same value (or the same size error) at every point. -/
theorem C126_equal_values {hist more : List (Stmt K)} {o o' : Objects K} (h : Objects.run {} hist = some o)
    (h' : o.run more = some o') (a b : ConRef) (f g : ℕ) (ha : MadeFrom hist a f) (hb : MadeFrom hist b g) :
    o'.conEq a b = o.conEq a b ∧ (∀ x y, o'.conValue a x = some y ↔ Maps (hist ++ more) f x y) ∧
      (o.conEq a b = some true → ∀ x, o'.conValue a x = o'.conValue b x) := by
  have h2 : Objects.run {} (hist ++ more) = some o' := by rw [run_append, h]; exact h'
  have e2 := C126_equal_iff h2 a b f g (madeFrom_later ha) (madeFrom_later hb)
  have e1 := C126_equal_iff h a b f g ha hb
  refine ⟨e2.trans e1.symm, fun x y => ?_, fun he x => ?_⟩
  · obtain ⟨u, hu, rfl⟩ := conAt_from h2 (madeFrom_later (more := more) ha)
    rw [← C117_functions h2, Objects.conValue, hu, Option.bind_some]
  obtain rfl : f = g := by simpa [e1] using he
  obtain ⟨u, hu, eu⟩ := conAt_from h2 (madeFrom_later (more := more) ha)
  obtain ⟨w, hw, ew⟩ := conAt_from h2 (madeFrom_later (more := more) hb)
  simp only [Objects.conValue, hu, hw, Option.bind_some, eu, ew]

/-- **C126, an equivalence**: `==` is reflexive, symmetric and transitive, and a constraint in a problem equals the one it was copied
from. -/
theorem C126_equivalence {hist : List (Stmt K)} {o : Objects K} (h : Objects.run {} hist = some o) (a b c : ConRef) (f g k : ℕ)
    (ha : MadeFrom hist a f) (hb : MadeFrom hist b g) (hc : MadeFrom hist c k) :
    o.conEq a a = some true ∧ o.conEq a b = o.conEq b a ∧ (o.conEq a b = some true → o.conEq b c = some true → o.conEq a c = some true) ∧
      ∀ p i n, a = .inProblem p i → ConstraintAt hist p i n → o.conEq a (.own n) = some true := by
  refine ⟨by simp [C126_equal_iff h a a f f ha ha], ?_, fun h1 h2 => ?_, fun p i n e hn => ?_⟩
  · rw [C126_equal_iff h a b f g ha hb, C126_equal_iff h b a g f hb ha]
    simp [eq_comm]
  · rw [C126_equal_iff h a b f g ha hb] at h1
    rw [C126_equal_iff h b c g k hb hc] at h2
    rw [C126_equal_iff h a c f k ha hc]
    simp_all
  · subst e
    obtain ⟨c', pre, s, h1, h2⟩ := ha
    obtain ⟨v, hv⟩ := made_con_from h h2
    have e1 := conAt_of h h1 h2 hv
    obtain ⟨pre', cost, cs, post, rfl, rfl, hi⟩ := hn
    obtain ⟨q, hq, e⟩ := prob_constraints h
    have := congrArg (fun l => l[i]?) e
    simp only [List.getElem?_map, hi, Option.map_some] at this
    have e3 : q.constraints[i]? = some ⟨f, v⟩ := by simpa [Objects.conAt, hq] using e1
    have e4 : o.conAt (.own n) = some ⟨f, v⟩ := by simpa [e3, Objects.conAt] using this.symm
    simp [Objects.conEq, e1, e4, ConObj.same]

/-- **C126, search in a list**: `c in list` says yes exactly when some constraint of the list was made from the same function object. -/
theorem C126_contains {hist : List (Stmt K)} {o : Objects K} (h : Objects.run {} hist = some o) (c : ConRef) (f : ℕ)
    (hc : MadeFrom hist c f) (l : List ConRef) (hl : ∀ r ∈ l, ∃ g, MadeFrom hist r g) :
    ∃ b, o.conIn c l = some b ∧ (b = true ↔ ∃ r ∈ l, MadeFrom hist r f) := by
  induction l with
  | nil => exact ⟨false, rfl, by simp⟩
  | cons r l ih =>
    obtain ⟨g, hg⟩ := hl r (by simp)
    obtain ⟨b, hb, hiff⟩ := ih fun r hr => hl r (by simp [hr])
    have e := C126_equal_iff h r c g f hg hc
    simp only [Objects.conIn, e, Option.bind_some]
    by_cases hgf : g = f
    · subst hgf
      exact ⟨true, by simp, by simp only [true_iff]; exact ⟨r, by simp, hg⟩⟩
    · refine ⟨b, by simpa [hgf] using hb, hiff.trans ⟨fun ⟨q, hq, hm⟩ => ⟨q, by simp [hq], hm⟩, fun ⟨q, hq, hm⟩ => ?_⟩⟩
      rcases List.mem_cons.1 hq with rfl | hq
      · refine absurd ?_ hgf
        have := C126_equal_iff h q q g f hg hm
        have e2 := C126_equal_iff h q q g g hg hg
        simpa [this] using e2
      · exact ⟨q, hq, hm⟩

/-- **C126, sets**: two names of sets are equal exactly when they name the same object; so a set stored in a constraint never equals
the set the constraint was made from, although it has the same contents. -/
theorem C126_stored_set_false {hist : List (Stmt K)} {o : Objects K} (h : Objects.run {} hist = some o) (r : ConRef) (c f s : ℕ)
    (pre : List (Stmt K)) (hr : StandsFor hist r c) (hc : Made makesCon hist c pre (.newConstraint f s)) (v : UserSet K)
    (hv : SetIs pre s v) (hs : o.setAt (.own s) = some v) :
    o.setAt (.stored r) = o.setAt (.own s) ∧ o.setEq (.stored r) (.own s) = some false ∧ o.setEq (.own s) (.own s) = some true := by
  have e : o.setAt (.stored r) = some v := by simp [Objects.setAt, conAt_of h hr hc hv]
  refine ⟨e.trans hs.symm, ?_, ?_⟩
  · simp [Objects.setEq, e, hs]
  · simp [Objects.setEq, hs]

namespace Demo

/-- `f(x) = x`, used for an equality and for an inequality constraint; `g` is a second function with the same matrix and offset; the
problem gets the equality only -/
def eqProg : List (Stmt ℚ) :=
  [.newLinear ⟨1, [[1]]⟩ [0], .newLinear ⟨1, [[1]]⟩ [0], .newSet .equality, .newSet .negOrthant, .newConstraint 0 0, .newConstraint 0 1,
    .newConstraint 1 0, .newCost 0 ⟨1, [[1]]⟩ [0] 0, .newProblem 0 [0]]

end Demo

/-- The hypotheses are met: the constraint in the problem, the inequality and the constraint on the other function. -/
example : (∃ o, Objects.run {} Demo.eqProg = some o) ∧ MadeFrom Demo.eqProg (.inProblem 0 0) 0 ∧ MadeFrom Demo.eqProg (.own 1) 0 ∧
    MadeFrom Demo.eqProg (.own 2) 1 :=
  ⟨⟨_, rfl⟩, ⟨0, Demo.eqProg.take 4, 0, ⟨Demo.eqProg.take 8, 0, [0], [], rfl, rfl, rfl⟩, _, rfl, rfl, rfl⟩,
    ⟨1, Demo.eqProg.take 5, 1, rfl, _, rfl, rfl, rfl⟩, ⟨2, Demo.eqProg.take 6, 0, rfl, _, rfl, rfl, rfl⟩⟩

/-- ... and those of the theorem about sets, for the box-free set `0` and the copy inside the problem. -/
example : ∃ o, Objects.run {} Demo.eqProg = some o ∧ StandsFor Demo.eqProg (.inProblem 0 0) 0 ∧
    Made makesCon Demo.eqProg 0 (Demo.eqProg.take 4) (.newConstraint 0 0) ∧ SetIs (Demo.eqProg.take 4) 0 .equality ∧
    o.setAt (.own 0) = some .equality :=
  ⟨_, rfl, ⟨Demo.eqProg.take 8, 0, [0], [], rfl, rfl, rfl⟩, ⟨_, rfl, rfl, rfl⟩,
    .plain _ (Demo.eqProg.take 2) (by simp) ⟨_, rfl, rfl, rfl⟩, rfl⟩

/-- **What a user may expect and does not get**: the equality `x = 0` and the inequality `x ≤ 0` on the same function compare *equal*, and
the search finds the inequality in the problem although it was never added, while `x = -1` satisfies one and not the other. On the
other hand the same equality on a second function object with the same coefficients compares unequal. -/
theorem C126_ignores_set_false : ∃ o, Objects.run {} Demo.eqProg = some o ∧
    o.conEq (.inProblem 0 0) (.own 1) = some true ∧ o.conIn (.own 1) [.inProblem 0 0] = some true ∧
    o.setAt (.stored (.inProblem 0 0)) = some .equality ∧ o.setAt (.stored (.own 1)) = some .negOrthant ∧
    o.conValue (.own 1) [-1] = some [-1] ∧ SetHolds (.negOrthant : UserSet ℚ) [-1] ∧ ¬ SetHolds (.equality : UserSet ℚ) [-1] ∧
    o.conEq (.own 0) (.own 2) = some false ∧ (∀ x, o.conValue (.own 0) x = o.conValue (.own 2) x) := by
  refine ⟨_, rfl, by decide +kernel, by decide +kernel, by decide +kernel, by decide +kernel, by decide +kernel, ?_, ?_,
    by decide +kernel, fun x => rfl⟩
  · simp [SetHolds]
  · simp [SetHolds]

end ProxNLP
