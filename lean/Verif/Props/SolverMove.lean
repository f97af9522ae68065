import Verif.Spec.SolverMove
import Mathlib.Tactic.Common
import Mathlib.Tactic.NormNum
import Mathlib.Data.Rat.Defs
import Mathlib.Algebra.Field.Rat

/-!
C95: a solver object uses its own dual penalty weight, whatever was done to it and to other solvers before.
-/

set_option linter.unusedSectionVars false

namespace ProxNLP

open Spec

variable {K : Type} [Field K]

/-- memory and values agree; objects that were constructed, not moved to, refer to their own weight -/
def moveRel (s : SolverMem K) (v : SolverValues K) : Prop :=
  s.length = v.length ∧ ∀ i : ℕ, match s[i]?, v[i]? with
    | none, none => True
    | some none, some none => True
    | some (some o), some (some (b, r, m)) => o.beta = b ∧ o.ready = r ∧ (m = false → o.betaOf = i)
    | _, _ => False

theorem moveRel_set {s : SolverMem K} {v : SolverValues K} (h : moveRel s v) (i : ℕ) (x : Option (SolverObj K))
    (y : Option (K × Bool × Bool))
    (hxy : match x, y with
      | none, none => True
      | some o, some (b, r, m) => o.beta = b ∧ o.ready = r ∧ (m = false → o.betaOf = i)
      | _, _ => False) : moveRel (s.set i x) (v.set i y) := by
  refine ⟨by simp [h.1], fun j => ?_⟩
  by_cases hj : j = i
  · subst hj
    by_cases hl : j < s.length
    · rw [List.getElem?_set_self hl, List.getElem?_set_self (h.1 ▸ hl)]
      rcases x with _ | o <;> rcases y with _ | ⟨b, r, m⟩ <;> simpa using hxy
    · rw [List.getElem?_eq_none (by simpa using hl), List.getElem?_eq_none (by simpa [← h.1] using hl)]
      trivial
  · rw [List.getElem?_set_ne (Ne.symm hj), List.getElem?_set_ne (Ne.symm hj)]
    exact h.2 j

theorem moveRel_append {s : SolverMem K} {v : SolverValues K} (h : moveRel s v) (o : SolverObj K) (b : K) (r m : Bool)
    (h1 : o.beta = b) (h2 : o.ready = r) (h3 : m = false → o.betaOf = s.length) :
    moveRel (s ++ [some o]) (v ++ [some (b, r, m)]) := by
  refine ⟨by simp [h.1], fun j => ?_⟩
  rcases Nat.lt_trichotomy j s.length with hj | hj | hj
  · rw [List.getElem?_append_left hj, List.getElem?_append_left (h.1 ▸ hj)]
    exact h.2 j
  · subst hj
    rw [List.getElem?_append_right (Nat.le_refl _), List.getElem?_append_right (by rw [h.1]), Nat.sub_self, h.1, Nat.sub_self]
    exact ⟨h1, h2, h.1 ▸ h3⟩
  · rw [List.getElem?_eq_none (by simp; omega), List.getElem?_eq_none (by simp [← h.1]; omega)]
    trivial

theorem moveRel_step {s : SolverMem K} {v : SolverValues K} (h : moveRel s v) (op : SolverOp K) :
    match s.step op, solverStep v op with
    | none, none => True
    | some s', some v' => moveRel s' v'
    | _, _ => False := by
  have hget : ∀ i : ℕ, (s[i]? = none ∧ v[i]? = none) ∨ (s[i]? = some none ∧ v[i]? = some none) ∨
      ∃ o b r m, s[i]? = some (some o) ∧ v[i]? = some (some (b, r, m)) ∧ o.beta = b ∧ o.ready = r ∧
        (m = false → o.betaOf = i) := by
    intro i
    have := h.2 i
    rcases hs : s[i]? with _ | _ | o <;> rcases hv : v[i]? with _ | _ | ⟨b, r, m⟩ <;> rw [hs, hv] at this <;>
      simp_all
  cases op with
  | construct => exact moveRel_append h _ _ _ _ rfl rfl fun _ => rfl
  | move i =>
    rcases hget i with ⟨a, b⟩ | ⟨a, b⟩ | ⟨o, b, r, m, a, c, d⟩
    · simp [SolverMem.step, solverStep, a, b]
    · simp [SolverMem.step, solverStep, a, b]
    · simp only [SolverMem.step, solverStep, a, c]
      have hset : moveRel (s.set i (some { o with ready := false })) (v.set i (some (b, false, m))) :=
        moveRel_set h i _ _ ⟨d.1, rfl, d.2.2⟩
      exact moveRel_append hset _ _ _ _ d.1 d.2.1 (by simp)
  | setup i =>
    rcases hget i with ⟨a, b⟩ | ⟨a, b⟩ | ⟨o, b, r, m, a, c, d⟩
    · simp [SolverMem.step, solverStep, a, b]
    · simp [SolverMem.step, solverStep, a, b]
    · simp only [SolverMem.step, solverStep, a, c]
      exact moveRel_set h i _ _ ⟨d.1, rfl, d.2.2⟩
  | setBeta i x =>
    rcases hget i with ⟨a, b⟩ | ⟨a, b⟩ | ⟨o, b, r, m, a, c, d⟩
    · simp [SolverMem.step, solverStep, a, b]
    · simp [SolverMem.step, solverStep, a, b]
    · simp only [SolverMem.step, solverStep, a, c]
      exact moveRel_set h i _ _ ⟨rfl, d.2.1, d.2.2⟩
  | destroy i =>
    rcases hget i with ⟨a, b⟩ | ⟨a, b⟩ | ⟨o, b, r, m, a, c, d⟩
    · simp [SolverMem.step, solverStep, a, b]
    · simp [SolverMem.step, solverStep, a, b]
    · simp only [SolverMem.step, solverStep, a, c]
      exact moveRel_set h i none none trivial

theorem moveRel_run (l : List (SolverOp K)) : ∀ {s : SolverMem K} {v : SolverValues K}, moveRel s v →
    ∀ s', s.run l = some s' → ∃ v', solverRun v l = some v' ∧ moveRel s' v' := by
  induction l with
  | nil =>
    intro s v h s' hs
    obtain rfl : s = s' := by simpa [SolverMem.run] using hs
    exact ⟨v, rfl, h⟩
  | cons op l ih =>
    intro s v h s' hs
    have hstep := moveRel_step h op
    rcases h1 : s.step op with _ | s1
    · simp [SolverMem.run, h1] at hs
    · rcases h2 : solverStep v op with _ | v1
      · rw [h1, h2] at hstep; exact hstep.elim
      · rw [h1, h2] at hstep
        simp only [SolverMem.run, h1, Option.bind_some] at hs
        simp only [solverRun, h2, Option.bind_some]
        exact ih hstep s' hs

/-- **Solvers that were not moved use their own weight:** after any program on any number of solvers, moves and
destructions of other solvers included, a solver obtained from the constructor computes the merit gradient with the
weight last set on it; so does the multiplier estimate of every solver. -/
theorem C95_own_weight_partial (prog : List (SolverOp K)) (s : SolverMem K) (h : SolverMem.run [] prog = some s) :
    ∃ v, Spec.solverRun [] prog = some v ∧
      (∀ i mu lam lamPdal, (∀ b r, v[i]? ≠ some (some (b, r, true))) →
        s.dualGradient i mu lam lamPdal = Spec.dualGradientOf v[i]? mu lam lamPdal) ∧
      ∀ i muInv b m, v[i]? = some (some (b, true, m)) → s.pdalFactor i muInv = .value (muInv / b) := by
  obtain ⟨v, hv, hrel⟩ := moveRel_run prog (s := []) (v := []) ⟨rfl, fun i => by simp⟩ s h
  refine ⟨v, hv, fun i mu lam lamPdal hm => ?_, fun i muInv b m hb => ?_⟩
  · have := hrel.2 i
    rcases hs : s[i]? with _ | _ | o <;> rcases hv : v[i]? with _ | _ | ⟨b, r, m⟩ <;> rw [hs, hv] at this
    · simp [SolverMem.dualGradient, hs, dualGradientOf]
    all_goals first | exact this.elim | skip
    · simp [SolverMem.dualGradient, hs, dualGradientOf]
    · cases m with
      | true => exact absurd hv (hm b r)
      | false =>
        obtain ⟨h1, h2, h3⟩ := this
        rw [SolverMem.dualGradient, hs, dualGradientOf]
        simp only [h3 rfl, hs, h1, h2]
  · have := hrel.2 i
    rw [hb] at this
    rcases hs : s[i]? with _ | _ | o <;> rw [hs] at this
    · exact this.elim
    · exact this.elim
    · simp [SolverMem.pdalFactor, hs, this.1, this.2.1]

/-- the hypotheses hold for a program with all five operations; its solvers 0 and 2 were not moved to -/
example : ∃ s v, SolverMem.run [] ([.construct, .setup 0, .setBeta 0 3, .move 0, .construct, .setup 0, .setup 2, .setBeta 2 5,
      .destroy 1] : List (SolverOp ℚ)) = some s ∧
    Spec.solverRun [] ([.construct, .setup 0, .setBeta 0 3, .move 0, .construct, .setup 0, .setup 2, .setBeta 2 5,
      .destroy 1] : List (SolverOp ℚ)) = some v ∧
    v = [some (3, true, false), none, some (5, true, false)] ∧ s.dualGradient 2 1 1 0 = .value 5 :=
  ⟨_, _, rfl, rfl, by decide +kernel, by decide +kernel⟩

/-- **A moved solver uses the weight of the object it was moved from:** after `t(std::move(s)); t.setDualPenalty(b)` the
merit gradient of `t` still uses the weight stored in `s`, while its multiplier estimates use `b`. -/
theorem C95_stale_false : ∃ s : SolverMem ℚ,
    SolverMem.run [] [.construct, .move 0, .setup 1, .setBeta 1 2] = some s ∧
    s.pdalFactor 1 1 = .value (1 / 2) ∧ s.dualGradient 1 1 1 0 = .value (1 / 2) ∧
    Spec.solverRun [] ([.construct, .move 0, .setup 1, .setBeta 1 2] : List (SolverOp ℚ)) =
      some [some (1 / 2, false, false), some (2, true, true)] :=
  ⟨_, rfl, by decide +kernel⟩

/-- **and reads freed memory once that object is gone,** as when a `std::vector` of solvers grows: the old elements are
moved from, then destroyed.  For every solver moved this way, whatever its weight and the settings. -/
theorem C95_dangling_false (b mu lam lamPdal : K) : ∃ s : SolverMem K,
    SolverMem.run [] [.construct, .setup 0, .setBeta 0 b, .move 0, .destroy 0] = some s ∧
    s.dualGradient 1 mu lam lamPdal = .undefined :=
  ⟨_, rfl, rfl⟩

end ProxNLP
