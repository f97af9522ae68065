/-
C108: calls made in order never leave the memory they were given.

The reader needs `Spec/Shapes.lean` (what a call in order is, from the calls alone) and the
outcome type of the model: `ok`, an exception, or `undefined`.
-/
import Verif.Lemmas.Shapes

set_option linter.unusedSectionVars false

namespace ProxNLP

/-- **C108.**  For every problem and every history of calls in order (constraints added at any
time, `setup()` called again after the last of them, solves started at points of the right
length, with any starting multipliers), whatever the numbers decide inside the solves, no call
throws, indexes outside its memory, combines vectors of different lengths, or leaves a dangling
view; and whenever the solver is set up for the present constraints, the results have exactly one
live view for each of them. -/
theorem C108_safe (nx ndx : ℕ) (nrs : List ℕ) (h : List UserOp)
    (ho : (Spec.UserView.start nx ndx nrs).inOrder h) :
    ∃ t, (SShape.new (PShape.new nx ndx nrs)).ops h = .ok t ∧
      (((Spec.UserView.start nx ndx nrs).afterAll h).ready = true →
        ∃ w r, t.store = some (w, r) ∧
          Spec.ResultsFit nx ((Spec.UserView.start nx ndx nrs).afterAll h).nrs r) := by
  obtain ⟨t, ht, hi⟩ := shapeInv_ops (shapeInv_start nx ndx nrs) ho
  refine ⟨t, ht, ?_⟩
  intro hr
  obtain ⟨old, f, -, h2, h3⟩ := hi.some (hi.ready hr)
  have hold := h2.1 hr
  have hnx : ∀ (h : List UserOp) (v : Spec.UserView), (v.afterAll h).nx = v.nx := by
    intro h
    induction h with
    | nil => intro v; rfl
    | cons o os ih =>
      intro v
      show ((v.after o).afterAll os).nx = v.nx
      rw [ih]
      cases o <;> rfl
  refine ⟨_, _, h3, ?_⟩
  rw [hnx, hold]
  exact stdR_fits _ _

/-- Nothing at all is reallocated by a solve in order: every vector, matrix and view is after it
what it was before. -/
theorem C108_solve_keeps_shapes (nx ndx : ℕ) (nrs : List ℕ) (h : List UserOp)
    (ho : (Spec.UserView.start nx ndx nrs).inOrder h) (x0 lams0 : ℕ) (evs : List SolveEv)
    (ha : ((Spec.UserView.start nx ndx nrs).afterAll h).allowed (.solve x0 lams0 evs)) :
    ∃ t, (SShape.new (PShape.new nx ndx nrs)).ops h = .ok t ∧ t.solve x0 lams0 evs = .ok t := by
  obtain ⟨t, ht, hi⟩ := shapeInv_ops (shapeInv_start nx ndx nrs) ho
  exact ⟨t, ht, shape_solve_ok hi ha.1 ha.2.1 ha.2.2⟩

/-- What a solve that does at least one pass gives after a history of calls in order, in every
case: it throws when `setup()` was never called; it is undefined when a constraint was added
after the last `setup()` or when the starting point has the wrong length; it throws when BFGS is
selected and no `setup()` ran with it selected; and it succeeds otherwise.  The length of the
starting multipliers does not matter. -/
theorem C108_exact (nx ndx : ℕ) (nrs : List ℕ) (h : List UserOp)
    (ho : (Spec.UserView.start nx ndx nrs).inOrder h) (x0 lams0 : ℕ) (c : PassChoice)
    (evs : List SolveEv) :
    ∃ t, (SShape.new (PShape.new nx ndx nrs)).ops h = .ok t ∧
      let v := (Spec.UserView.start nx ndx nrs).afterAll h
      t.solve x0 lams0 (.pass c :: evs) =
        if v.everSetup = false then .error .thrown
        else if v.ready = false ∨ x0 ≠ v.nx then .error .undefined
        else if v.bfgs = true ∧ v.strategy = false then .error .thrown
        else .ok t := by
  obtain ⟨t, ht, hi⟩ := shapeInv_ops (shapeInv_start nx ndx nrs) ho
  refine ⟨t, ht, ?_⟩
  simp only
  generalize (Spec.UserView.start nx ndx nrs).afterAll h = v at hi ⊢
  rcases hes : v.everSetup with _ | _
  · rw [if_pos rfl]
    unfold SShape.solve
    rw [hi.none hes]
  · rw [if_neg (by simp)]
    obtain ⟨old, f, h1, h2, h3⟩ := hi.some hes
    by_cases hbad : v.ready = false ∨ x0 ≠ v.nx
    · rw [if_pos hbad]
      have hst : x0 ≠ v.nx ∨ old.length < v.nrs.length := by
        rcases hbad with hr | hx
        · right
          rcases Nat.lt_or_ge old.length v.nrs.length with hlt | hge
          · exact hlt
          · have := h2.2 (h1.eq_of_length_le hge)
            rw [hr] at this
            cases this
        · exact Or.inl hx
      have key : ∀ (q : ProxShape) (w : WShape) (r : RShape), w.cstr = stdStk old →
          r.xOpt = x0 → runShape t.p t.hess t.bfgs (q, w, r) (.pass c :: evs)
            = .error .undefined := by
        intro q w r hw hr
        unfold runShape evShape
        rw [hi.prob]
        have hp := pass_stale (nx := v.nx) (ndx := v.ndx) (l := v.nrs) (q := q) (useB := t.hess)
          (b := t.bfgs) (c := c) hw (by rw [hr]; exact hst)
        simp only [hp]
        rfl
      unfold SShape.solve
      rw [h3]
      simp only [bind, Except.bind]
      split_ifs
      · rw [key _ _ _ rfl rfl]
      · rw [key _ _ _ rfl rfl]
    · rw [if_neg hbad]
      simp only [not_or, Bool.not_eq_false, ne_eq, not_not] at hbad
      by_cases hb : v.bfgs = true ∧ v.strategy = false
      · rw [if_pos hb]
        have hold := h2.1 hbad.1
        subst hold
        obtain ⟨-, rfl⟩ := hbad
        have hh : t.hess = true := by rw [hi.hess]; exact hb.1
        have hbn := hi.nostrat hb.2
        have key : ∀ (w : WShape) (r : RShape), w = stdW v.nx v.ndx v.nrs f →
            r = stdR v.nx v.nrs → runShape t.p t.hess t.bfgs (t.prox, w, r) (.pass c :: evs)
            = .error .thrown := by
          intro w r hw hr
          subst hw; subst hr
          unfold runShape evShape
          rw [hi.prob, hi.prox, hh, hbn]
          simp only [pass_nostrategy]
          rfl
        unfold SShape.solve
        rw [h3]
        simp only [bind, Except.bind]
        split_ifs with hl
        · have hl : lams0 = v.nrs.sum := hl
          rw [key]
          · subst hl; simp [stdW]
          · subst hl; simp [stdR]
        · rw [key]
          · rfl
          · rfl
      · rw [if_neg hb]
        refine shape_solve_ok hi hbad.1 hbad.2 ?_
        intro hbf
        rcases hs : v.strategy with _ | _
        · exact absurd ⟨hbf, hs⟩ hb
        · rfl

/-- `setup()` itself, after a history of calls in order: it throws exactly when BFGS is selected
on a manifold whose tangent space has another dimension than its points. -/
theorem C108_setup_exact (nx ndx : ℕ) (nrs : List ℕ) (h : List UserOp)
    (ho : (Spec.UserView.start nx ndx nrs).inOrder h) :
    ∃ t, (SShape.new (PShape.new nx ndx nrs)).ops h = .ok t ∧
      let v := (Spec.UserView.start nx ndx nrs).afterAll h
      (v.bfgs = true ∧ v.ndx ≠ v.nx → t.setup = .error .thrown) ∧
      (¬ (v.bfgs = true ∧ v.ndx ≠ v.nx) → ∃ t', t.setup = .ok t') := by
  obtain ⟨t, ht, hi⟩ := shapeInv_ops (shapeInv_start nx ndx nrs) ho
  refine ⟨t, ht, ?_⟩
  simp only
  generalize (Spec.UserView.start nx ndx nrs).afterAll h = v at hi ⊢
  rw [setup_eq hi, hi.hess]
  constructor
  · rintro ⟨h1, h2⟩
    rw [if_pos h1, if_neg h2]
  · intro hn
    by_cases h1 : v.bfgs = true
    · rw [if_pos h1, if_pos (by by_contra h2; exact hn ⟨h1, h2⟩)]
      exact ⟨_, rfl⟩
    · rw [if_neg h1]
      exact ⟨_, rfl⟩

/-- Starting multipliers given block by block: a wrong number of blocks throws, and the right
number with a block of a wrong length is undefined (the lengths of the blocks are not checked),
whatever the rest of the call. -/
theorem C108_blocks_exact (nx ndx : ℕ) (nrs : List ℕ) (h : List UserOp)
    (ho : (Spec.UserView.start nx ndx nrs).inOrder h) (x0 : ℕ) (lams0 : List ℕ)
    (evs : List SolveEv) :
    ∃ t, (SShape.new (PShape.new nx ndx nrs)).ops h = .ok t ∧
      let v := (Spec.UserView.start nx ndx nrs).afterAll h
      t.solveBlocks x0 lams0 evs =
        if lams0.length ≠ v.nrs.length then .error .thrown
        else if lams0 ≠ v.nrs then .error .undefined
        else t.solve x0 v.nrs.sum evs := by
  obtain ⟨t, ht, hi⟩ := shapeInv_ops (shapeInv_start nx ndx nrs) ho
  refine ⟨t, ht, ?_⟩
  simp only
  generalize (Spec.UserView.start nx ndx nrs).afterAll h = v at hi ⊢
  have hp : t.p.nrs = v.nrs := by rw [hi.prob]; rfl
  have htot : t.p.total = v.nrs.sum := by rw [hi.prob]; rfl
  unfold SShape.solveBlocks
  by_cases hl : lams0.length = v.nrs.length
  · rw [if_neg (by rw [hp, hl]; simp), if_neg (by simpa using hl)]
    by_cases he : lams0 = v.nrs
    · rw [if_neg (by simpa using he)]
      refine (chk_bind ?_).trans ?_
      · intro i hi'
        rw [hp] at hi'
        rw [htot, hi.prob]
        refine segOk_new _ _ _ hi' ?_
        intro v' hv
        simp only [List.mem_cons, List.not_mem_nil, or_false] at hv
        rw [hv, he]
      · rw [htot]
    · rw [if_pos he]
      rw [chk_neg]
      · rfl
      · intro hall
        apply he
        apply List.ext_getElem?
        intro i
        by_cases hi' : i < v.nrs.length
        · have h1 := hall i (by rw [hp]; exact hi')
          rw [hi.prob] at h1
          unfold PShape.segOk at h1
          rw [block_new, List.getElem?_eq_getElem hi'] at h1
          simp only [Option.map_some, List.all_cons, List.all_nil, Bool.and_true,
            Bool.and_eq_true, decide_eq_true_eq] at h1
          rw [h1.2, List.getElem?_eq_getElem hi']
        · rw [List.getElem?_eq_none (by omega), List.getElem?_eq_none (by omega)]
  · rw [if_pos (by rw [hp]; exact fun h => hl h.symm), if_pos hl]

/-! ### Writing the public members of the problem directly -/

/-- Appending to the public vector `constraints_` instead of calling `addConstraint` leaves the
cached dimensions behind, and `setup()` itself then reads outside them. -/
theorem C108_append_false (nx ndx : ℕ) (nrs : List ℕ) (nr : ℕ) (more : List ℕ) :
    (SShape.new (PShape.new nx ndx nrs)).ops
      [.editConstraints (nrs ++ nr :: more), .setup] = .error .undefined := by
  have h : ({ PShape.new nx ndx nrs with nrs := nrs ++ nr :: more } : PShape).ldltSize
      = .error .undefined := by
    unfold PShape.ldltSize
    rw [mapM_error (e := .undefined)]
    · rfl
    · refine ⟨nrs.length, List.mem_range.2 (by simp), ?_⟩
      have : (PShape.new nx ndx nrs).ncs[nrs.length]? = none :=
        List.getElem?_eq_none (Nat.le_refl _)
      simp only [this]
    · intro i _
      cases hc : ({ PShape.new nx ndx nrs with nrs := nrs ++ nr :: more } : PShape).ncs[i]? with
      | none => exact Or.inl rfl
      | some n => exact Or.inr ⟨n, rfl⟩
  have hs : ({ SShape.new (PShape.new nx ndx nrs) with
      p := { PShape.new nx ndx nrs with nrs := nrs ++ nr :: more } } : SShape).setup
      = .error .undefined := by
    unfold SShape.setup WShape.new
    simp only [h]
    rfl
  unfold SShape.ops
  show (SShape.ops _ [UserOp.setup]) = _
  unfold SShape.ops
  show (({ SShape.new (PShape.new nx ndx nrs) with
      p := { PShape.new nx ndx nrs with nrs := nrs ++ nr :: more } } : SShape).setup >>= _) = _
  rw [hs]
  rfl

namespace Demo

/-- A pass that does everything: proximal term, primal-dual system, function Hessians, two
inertia turns, three refinement turns, two line-search trials. -/
def fullPass : PassChoice := ⟨true, true, false, some (2, 3, 2)⟩

/-- Two constraints, of dimensions 1 and 2, on a manifold with 3-dimensional points and
2-dimensional tangent spaces. -/
def shapeHistory : List UserOp :=
  [.addConstraint 2, .useLdlt true, .setup, .solve 3 0 [.pass fullPass, .outer .newton, .pass fullPass],
   .addConstraint 0, .setup, .solveBlocks 3 [1, 2, 0] [.pass fullPass, .outer .reject]]

end Demo

open Demo in
/-- The hypotheses are met by a history with two setups, two solves and constraints added in
between. -/
example : (Spec.UserView.start 3 2 [1]).inOrder shapeHistory := by
  simp [shapeHistory, Spec.UserView.inOrder, Spec.UserView.allowed, Spec.UserView.after,
    Spec.UserView.start]

open Demo in
example : ((SShape.new (PShape.new 3 2 [1])).ops shapeHistory).toOption.map
    (fun t => t.store.map (fun s => (s.1.kkt, s.2.lams))) =
    some (some ((5, 5), ⟨3, [(0, 1), (1, 2), (3, 0)], true⟩)) := by decide +kernel

open Demo in
/-- A constraint added after `setup()`: the next solve is undefined. -/
theorem C108_added_after_setup_false :
    (SShape.new (PShape.new 3 2 [1])).ops
      [.setup, .addConstraint 2, .solve 3 3 [.pass fullPass]] = .error .undefined := by
  decide +kernel

open Demo in
/-- A constraint taken out of the public vector `constraints_` after `setup()`: the merit
function still loops over the number of blocks of the workspace. -/
theorem C108_removed_after_setup_false :
    (SShape.new (PShape.new 3 2 [1, 2])).ops
      [.setup, .editConstraints [1], .solve 3 3 [.pass fullPass]] = .error .undefined := by
  decide +kernel

open Demo in
/-- Calling `setup()` after it is not enough: the cached total dimension is still 3, and the KKT
matrix, sized from the cache, disagrees with a linear solver of fixed size, whose size is the sum
over the constraints present.  A linear solver that follows the matrix gets away with it, and
carries two multipliers of no constraint. -/
theorem C108_removed_before_setup_false :
    (SShape.new (PShape.new 3 2 [1, 2])).ops
      [.useLdlt true, .editConstraints [1], .setup, .solve 3 3 [.pass fullPass]]
        = .error .undefined ∧
    ((SShape.new (PShape.new 3 2 [1, 2])).ops
      [.useLdlt false, .editConstraints [1], .setup, .solve 3 3 [.pass fullPass]]).toOption.map
        (fun t => t.store.map (fun s => (s.1.fac, s.2.lams))) =
      some (some (5, ⟨3, [(0, 1)], true⟩)) := by
  constructor <;> decide +kernel

open Demo in
/-- A manifold of other dimensions assigned to the problem after the solver was built: `setup()`
succeeds, but the proximal penalty keeps the old manifold, and the first pass with it is
undefined, although the solver was set up and the starting point has the new length. -/
theorem C108_manifold_false :
    (∃ t, (SShape.new (PShape.new 3 3 [1])).ops [.setManifold 4 4, .setup] = .ok t ∧ t.p.nx = 4 ∧ t.p.ndx = 4) ∧
    (SShape.new (PShape.new 3 3 [1])).ops
      [.setManifold 4 4, .setup, .solve 4 1 [.pass fullPass]] = .error .undefined := by
  refine ⟨?_, by decide +kernel⟩
  have h : ((SShape.new (PShape.new 3 3 [1])).ops [.setManifold 4 4, .setup]).toOption.map (fun t => (t.p.nx, t.p.ndx)) =
      some (4, 4) := by
    decide +kernel
  cases hc : (SShape.new (PShape.new 3 3 [1])).ops [.setManifold 4 4, .setup] with
  | ok t =>
    rw [hc] at h
    exact ⟨t, rfl, by simpa [Except.toOption] using h⟩
  | error e => rw [hc] at h; cases h

open Demo in
/-- Even with the proximal term off, the line search calls the penalty. -/
theorem C108_manifold_norho_false :
    (SShape.new (PShape.new 3 3 [1])).ops
      [.setManifold 4 4, .setup, .solve 4 1 [.pass ⟨false, false, false, some (1, 0, 1)⟩]]
      = .error .undefined := by
  decide +kernel

end ProxNLP
