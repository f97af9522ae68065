import Verif.Lemmas.Lifetimes

/-!
C94: which Python programs never touch a destroyed object.
-/

namespace ProxNLP

namespace Demo

/-- A function `make()` that builds a problem with a finite-difference constraint, then a solver, keeps space (0),
function (1), and problem (3) for good, drops the helper (2), sets the solver (4) up, solves, reads results (5) and point
(6), drops the solver and still uses point and results; then a second solver (4) is set up twice. -/
def pyProgram : List LtStmt :=
  [.newSpace 0, .newFunc 1, .newFd 2 0 1, .newProblem 3 0 [2], .del 2, .newSolver 4 3, .call 4, .setup 4, .call 4,
   .solverResults 5 4, .xopt 6 5, .solverProblem 7 4, .del 4, .call 6, .call 5, .call 7,
   .newSolver 4 3, .setup 4, .setup 4, .call 4, .problemManifold 8 3, .call 8, .del 8, .setManifold 3 0, .call 4, .setup 9]

/-- its variables 0, 1, 3 -/
def pyKeep (v : ℕ) : Bool := v == 0 || v == 1 || v == 3

end Demo

/-- **Careful programs touch nothing that was destroyed:** whatever the statements of a program, in whatever order,
exceptions included: if what it passes to finite-difference helpers and solvers stays in variables that are assigned
once, if it does not set a solver up again while it holds results of it, and does not assign the manifold of a problem
while it holds the old one, then no statement touches a destroyed object. -/
theorem C94_careful_partial (keep : ℕ → Bool) (prog : List LtStmt) (h : Spec.CarefulRun keep LtState.empty prog) :
    LtState.empty.run prog ≠ .dangling := (run_inv prog empty_inv h).1

/-- the hypothesis holds for a program that uses every kind of object -/
example : Spec.CarefulRun Demo.pyKeep LtState.empty Demo.pyProgram :=
  carefulRunB_sound _ (by decide +kernel)

/-- every statement but the last is executed without exception: ten objects are created, the solver is set up twice -/
example : ∃ s, LtState.empty.run Demo.pyProgram = .ok s ∧ s.objs.length = 10 ∧ s.objs[8]? = some (.solver ⟨3, .whole, 0⟩ 2) :=
  ⟨_, rfl, by decide +kernel⟩

/-- **The solver does not keep its problem alive:** `solver = ProxNLPSolver(make_problem()); solver.setup()`. -/
theorem C94_temporary_problem_false :
    LtState.empty.run [.newSpace 0, .newFunc 1, .newProblem 2 0 [1], .newSolver 3 2, .del 2, .setup 3] = .dangling ∧
    LtState.empty.run [.newSpace 0, .newFunc 1, .newProblem 2 0 [1], .newSolver 3 2, .del 2, .solverProblem 4 3, .call 4]
      = .dangling := by decide +kernel

/-- **The finite-difference helper does not keep its arguments alive,** even when the helper itself is kept alive by a
problem: `Problem(space, FiniteDifferenceHelper(space, MyFunction(), eps))`, then a solve. -/
theorem C94_temporary_function_false :
    LtState.empty.run [.newSpace 0, .newFunc 1, .newFd 2 0 1, .del 1, .call 2] = .dangling ∧
    LtState.empty.run [.newSpace 0, .newFunc 1, .newFd 2 0 1, .newProblem 3 0 [2], .del 1, .del 2, .newSolver 4 3,
      .setup 4, .call 4] = .dangling := by decide +kernel

/-- **`setup()` invalidates results held by the program:** `r = solver.results; x = r.xopt; solver.setup(); r; x`. -/
theorem C94_setup_again_false :
    let pre : List LtStmt := [.newSpace 0, .newFunc 1, .newProblem 2 0 [1], .newSolver 3 2, .setup 3, .call 3,
      .solverResults 4 3, .xopt 5 4, .setup 3]
    (∃ s, LtState.empty.run pre = .ok s) ∧
    LtState.empty.run (pre ++ [.call 4]) = .dangling ∧ LtState.empty.run (pre ++ [.call 5]) = .dangling :=
  ⟨⟨_, rfl⟩, by decide +kernel⟩

/-- **Assigning `problem.manifold` invalidates the manifold read before:** `m = problem.manifold; problem.manifold = m2;
m.nx`.  The same for the manifold read from a solver. -/
theorem C94_manifold_false :
    LtState.empty.run [.newSpace 0, .newFunc 1, .newProblem 2 0 [1], .problemManifold 3 2, .setManifold 2 0, .call 3]
      = .dangling ∧
    LtState.empty.run [.newSpace 0, .newFunc 1, .newProblem 2 0 [1], .newSolver 3 2, .solverManifold 4 3, .setManifold 2 0,
      .call 4] = .dangling := by decide +kernel

/-- Results and points taken from a solver outlive the variable of the solver: whatever the program before, if it was
careful, then a point read from the results of the solver can be used after the solver variable is gone. -/
theorem C94_results_outlive_solver (keep : ℕ → Bool) (prog : List LtStmt) (sv r x : ℕ)
    (h : Spec.CarefulRun keep LtState.empty prog) (hsv : keep sv = false) (hr : keep r = false) (hx : keep x = false) :
    LtState.empty.run (prog ++ [.solverResults r sv, .xopt x r, .del r, .del sv, .call x]) ≠ .dangling := by
  have happ : ∀ (l l' : List LtStmt) (s : LtState), Spec.CarefulRun keep s l →
      (∀ s', LtInv keep s' → Spec.CarefulRun keep s' l') → LtInv keep s → Spec.CarefulRun keep s (l ++ l') := by
    intro l
    induction l with
    | nil => intro l' s _ h I; exact h s I
    | cons st l ih =>
      intro l' s hc h I
      obtain ⟨C, hc⟩ := hc
      refine ⟨C, ?_⟩
      obtain ⟨h1, h2⟩ := step_inv I C
      cases hs : s.step st with
      | ok s1 => rw [hs] at hc; exact ih l' s1 hc h (h2 s1 hs)
      | error => rw [hs] at hc; exact ih l' s hc h I
      | dangling => trivial
  refine C94_careful_partial keep _ (happ _ _ _ h ?_ empty_inv)
  have htriv : ∀ (st : LtStmt), (st = .solverResults r sv ∨ st = .xopt x r ∨ st = .del r ∨ st = .del sv ∨ st = .call x) →
      ∀ s, Spec.Careful keep s st := by
    rintro st (rfl | rfl | rfl | rfl | rfl) s <;>
      refine ⟨?_, ?_, ?_, ?_, ?_, ?_⟩ <;> simp_all [Spec.assigned]
  have hall : ∀ (l : List LtStmt), (∀ st ∈ l, st = .solverResults r sv ∨ st = .xopt x r ∨ st = .del r ∨ st = .del sv ∨
      st = .call x) → ∀ s, Spec.CarefulRun keep s l := by
    intro l
    induction l with
    | nil => intro _ _; trivial
    | cons st l ih =>
      intro hl s
      refine ⟨htriv st (hl st (by simp)) s, ?_⟩
      cases s.step st with
      | ok s' => exact ih (fun a ha => hl a (by simp [ha])) s'
      | error => exact ih (fun a ha => hl a (by simp [ha])) s
      | dangling => trivial
  intro s' _
  exact hall _ (by simp) s'

end ProxNLP
