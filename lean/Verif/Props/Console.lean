import Verif.Lemmas.Console
import Verif.Props.Solver

/-!
C96: console output follows the verbosity setting.
-/

set_option linter.unusedSectionVars false
namespace ProxNLP

variable {X K H : Type} {n m : ℕ} [Field K] [LinearOrder K] [IsStrictOrderedRing K]

/-- **A verbose solve prints the table of its iterations,** provided no earlier `solve` of this solver was quiet: after
any history of calls, titles, one row per accepted step, numbered 1, 2, ..., `num_iters`, with the merit values the
callbacks see and non-decreasing outer iteration numbers, titles again before every 25th row, then the message for the
returned flag. -/
theorem C96_table_partial (P : Ctx X K H n m) (S : Settings K) (h0 : H) (v0 : Bool) (ops : List (ConsoleOp X K))
    (hq : Spec.neverQuiet v0 ops = true) (hv : Spec.verboseAfter v0 ops = true) (x0 : X) (k : ℕ) (lams0 : Fin k → K)
    (st' : St X K H m)
    (hok : solve P S ((ConsoleSt.fresh P S h0 v0).run P S h0 ops).st x0 k lams0 = .ok st') :
    ∃ (snaps : List (Snap X K m)) (als : List ℕ),
      (((ConsoleSt.fresh P S h0 v0).run P S h0 ops).step P S h0 (.solve x0 k lams0)).2 =
        [.header] ++ Spec.table ((snaps.zip als).map fun s => (s.1.numIters + 1, s.2, s.1.merit)) ++
          Spec.message st'.converged ++ [.newline] ∧
      snaps.length = st'.numIters ∧ snaps.map (fun s => s.numIters) = List.range st'.numIters ∧
      als.length = st'.numIters ∧ als.Pairwise (· ≤ ·) ∧ (∀ a ∈ als, 1 ≤ a ∧ a ≤ st'.alIters + 1) ∧
      st'.trace = snaps.flatMap (fun s => st'.callbacks.map fun cb => (cb, s)) ++
        st'.callbacks.map fun cb => (cb, st'.snap) := by
  obtain ⟨ha, hvb⟩ := active_run P S h0 ops (ConsoleSt.fresh P S h0 v0)
  generalize (ConsoleSt.fresh P S h0 v0).run P S h0 ops = c at *
  have ha' : c.active = true := by rw [ha]; simp [ConsoleSt.fresh, hq]
  have hv' : c.verbose = true := by rw [hvb]; exact hv
  rw [solve] at hok
  by_cases hs : c.st.hasSetup = false
  · rw [if_pos hs] at hok; cases hok
  rw [if_neg hs] at hok
  cases ho : outerLoop P S (initSolve S c.st x0 k lams0) with
  | error e => rw [ho] at hok; cases hok
  | ok s1 =>
    rw [ho] at hok
    obtain rfl : invokeCallbacks s1 = st' := by simpa using hok
    obtain ⟨snaps, als, h1, h2, h3, h4, h5, h6, h7, -, h9⟩ := outerLines_spec P S _ _ ho
    obtain ⟨-, -, i3, -, i1, i2, -⟩ := initSolve_outerLog S c.st x0 k lams0
    rw [i1, Nat.zero_add] at h3
    rw [i1] at h5
    rw [i2] at h7
    rw [i3] at h2
    refine ⟨snaps, als, ?_, h3.symm, ?_, ?_, h6, ?_, ?_⟩
    · simp only [ConsoleSt.step, solveLines, ha', hv', loggerAfter, if_true]
      rw [if_neg hs, ho, h1]
      simp only [logStart, if_true, invokeCallbacks, List.append_assoc]
      congr 2
    · show _ = List.range s1.numIters
      rw [h5, h3, List.range_eq_range']
    · show _ = s1.numIters
      rw [h4, h3]
    · intro a hA
      have := h7 a hA
      show _ ∧ _ ≤ s1.alIters + 1
      omega
    · show s1.trace ++ _ = _
      rw [h2, ← h9]
      rfl

/-- **A quiet solve prints no table,** nor does any solve after it: after a history in which some `solve` was called while
`verbose` was `QUIET`, or when `verbose` is `QUIET` now, only the message of the returned flag and a line feed are
printed. -/
theorem C96_quiet_partial (P : Ctx X K H n m) (S : Settings K) (h0 : H) (v0 : Bool) (ops : List (ConsoleOp X K))
    (hq : Spec.neverQuiet v0 ops = false ∨ Spec.verboseAfter v0 ops = false) (x0 : X) (k : ℕ) (lams0 : Fin k → K) :
    (((ConsoleSt.fresh P S h0 v0).run P S h0 ops).step P S h0 (.solve x0 k lams0)).2 =
      match solve P S ((ConsoleSt.fresh P S h0 v0).run P S h0 ops).st x0 k lams0 with
      | .ok st' => Spec.message st'.converged ++ [.newline]
      | .error _ => [] := by
  obtain ⟨ha, hvb⟩ := active_run P S h0 ops (ConsoleSt.fresh P S h0 v0)
  generalize (ConsoleSt.fresh P S h0 v0).run P S h0 ops = c at *
  have hl : loggerAfter c.verbose c.active = false := by
    rw [loggerAfter, ha, hvb]
    rcases hq with h | h
    · simp [ConsoleSt.fresh, h]
    · rw [show (ConsoleSt.fresh P S h0 v0 : ConsoleSt X K H m).verbose = v0 from rfl, h]; simp
  simp only [ConsoleSt.step, solveLines, hl, logStart, outerLines_inactive, Bool.false_eq_true, if_false, List.nil_append]
  rw [solve]
  by_cases hs : c.st.hasSetup = false
  · rw [if_pos hs, if_pos hs]
  · rw [if_neg hs, if_neg hs]
    cases ho : outerLoop P S (initSolve S c.st x0 k lams0) with
    | error e => rfl
    | ok s1 => rfl

/-- the hypotheses of `C96_table_partial` hold for a solve with 30 iterations -/
example : (∃ st', solve Demo.linProblem (Demo.settings (1 / 1000) 1 .newton 30 10)
      ((ConsoleSt.fresh Demo.linProblem (Demo.settings (1 / 1000) 1 .newton 30 10) () true).run Demo.linProblem
        (Demo.settings (1 / 1000) 1 .newton 30 10) () [.setup]).st 0 0 Fin.elim0 = .ok st' ∧ st'.numIters = 30) ∧
    Spec.neverQuiet true ([.setup] : List (ConsoleOp ℚ ℚ)) = true ∧
    Spec.verboseAfter true ([.setup] : List (ConsoleOp ℚ ℚ)) = true := by
  refine ⟨?_, rfl, rfl⟩
  obtain ⟨st', h, hp⟩ := checkSolve_sound Demo.linProblem (Demo.settings (1 / 1000) 1 .newton 30 10) 40
    (Demo.ready Demo.linProblem (Demo.settings (1 / 1000) 1 .newton 30 10)) 0 0 Fin.elim0
    (fun s => decide (s.numIters = 30)) (by decide +kernel)
  exact ⟨st', h, of_decide_eq_true hp⟩

/-- **No quiet solve is silent:** whatever the problem, the settings and the history, a `solve` that returns prints
something although `verbose` is `QUIET`. -/
theorem C96_quiet_false (P : Ctx X K H n m) (S : Settings K) (c : ConsoleSt X K H m) (h0 : H)
    (x0 : X) (k : ℕ) (lams0 : Fin k → K) (st' : St X K H m) (hok : solve P S c.st x0 k lams0 = .ok st') :
    Line.newline ∈ (({ c with verbose := false } : ConsoleSt X K H m).step P S h0 (.solve x0 k lams0)).2 := by
  rw [solve] at hok
  simp only [ConsoleSt.step, solveLines]
  by_cases hs : c.st.hasSetup = false
  · rw [if_pos hs] at hok; cases hok
  · rw [if_neg hs] at hok
    rw [if_neg hs]
    cases ho : outerLoop P S (initSolve S c.st x0 k lams0) with
    | error e => rw [ho] at hok; cases hok
    | ok s1 => simp

/-- **Raising the verbosity after a quiet solve has no effect:** build a solver (quiet is the default), solve, set
`verbose = VERBOSE`, solve again: no titles, no rows, for every problem and all settings. -/
theorem C96_reenable_false (P : Ctx X K H n m) (S : Settings K) (h0 : H) (x1 x2 : X) (k1 k2 : ℕ) (l1 : Fin k1 → K)
    (l2 : Fin k2 → K) :
    let ops : List (ConsoleOp X K) := [.setup, .solve x1 k1 l1, .setVerbose true]
    ((ConsoleSt.fresh P S h0 false).run P S h0 ops).verbose = true ∧
    ∀ a ∈ (((ConsoleSt.fresh P S h0 false).run P S h0 ops).step P S h0 (.solve x2 k2 l2)).2,
      a ≠ Line.header ∧ ∀ i j v, a ≠ .row i j v := by
  intro ops
  refine ⟨rfl, ?_⟩
  rw [C96_quiet_partial P S h0 false ops (.inl rfl)]
  cases solve P S ((ConsoleSt.fresh P S h0 false).run P S h0 ops).st x2 k2 l2 with
  | error e => simp
  | ok st' =>
    intro a h
    cases hc : st'.converged <;> simp [hc, Spec.message] at h
    · subst h; simp
    · rcases h with rfl | rfl <;> simp
    · rcases h with rfl | rfl <;> simp

end ProxNLP
