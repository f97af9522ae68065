import Verif.Spec.Console
import Verif.Lemmas.SolverOuter

/-!
Helper lemmas for C96: what the loops print.
-/

set_option linter.unusedSectionVars false
namespace ProxNLP

variable {X K H : Type} {n m : ℕ} [Field K] [LinearOrder K] [IsStrictOrderedRing K]

/-- rows of snapshots, in outer iteration `a` -/
abbrev snapRows (a : ℕ) (snaps : List (Snap X K m)) : List (ℕ × ℕ × K) := snaps.map fun s => (s.numIters + 1, a, s.merit)

theorem snapRows_zip (a : ℕ) (snaps : List (Snap X K m)) :
    snapRows a snaps = (snaps.zip (List.replicate snaps.length a)).map fun s => (s.1.numIters + 1, s.2, s.1.merit) := by
  induction snaps with
  | nil => rfl
  | cons s l ih => simp only [List.map_cons, List.length_cons, List.replicate_succ, List.zip_cons_cons, ih]

theorem pairwise_replicate (k a : ℕ) : (List.replicate k a).Pairwise (· ≤ ·) := by
  simp [List.pairwise_replicate]

theorem innerLines_spec (P : Ctx X K H n m) (S : Settings K) (st st' : St X K H m) (h : innerLoop P S st = .ok st') :
    ∃ snaps : List (Snap X K m),
      innerLines P S true st = Spec.table (snapRows (st.alIters + 1) snaps) ∧
      st'.trace = st.trace ++ snaps.flatMap (fun s => st.callbacks.map fun cb => (cb, s)) ∧
      st'.numIters = st.numIters + snaps.length ∧
      snaps.map (fun s => s.numIters) = List.range' st.numIters snaps.length := by
  refine innerLoop_ind P S (R := fun st st' => ∃ snaps : List (Snap X K m),
      innerLines P S true st = Spec.table (snapRows (st.alIters + 1) snaps) ∧
      st'.trace = st.trace ++ snaps.flatMap (fun s => st.callbacks.map fun cb => (cb, s)) ∧
      st'.numIters = st.numIters + snaps.length ∧
      snaps.map (fun s => s.numIters) = List.range' st.numIters snaps.length) ?_ ?_ ?_ st st' h
  · intro st ev hev hs
    refine ⟨[], ?_, by simp [afterEval], by simp [afterEval], by simp⟩
    rw [innerLines]
    simp only [show evalAt P S st.mu st.setMu st.rho st.target st.xOpt st.lamsOpt st.lamsPrev = some ev from hev]
    rw [if_pos hs]; rfl
  · intro st ev o hev hs ho hm
    refine ⟨[⟨o.x, o.lam, o.merit, st.numIters⟩], ?_, by simp [acceptStep, invokeCallbacks, afterEval], by simp, by simp⟩
    rw [innerLines]
    simp only [show evalAt P S st.mu st.setMu st.rho st.target st.xOpt st.lamsOpt st.lamsPrev = some ev from hev]
    rw [if_neg hs]
    simp only [ho]
    rw [if_pos hm]
    simp [Spec.table, logRow, logStart, acceptStep, invokeCallbacks]
  · rintro st st' ev o hev hs ho hm hin ⟨snaps, h1, h2, h3, h4⟩
    refine ⟨⟨o.x, o.lam, o.merit, st.numIters⟩ :: snaps, ?_, ?_, ?_, ?_⟩
    · rw [innerLines]
      simp only [show evalAt P S st.mu st.setMu st.rho st.target st.xOpt st.lamsOpt st.lamsPrev = some ev from hev]
      rw [if_neg hs]
      simp only [ho]
      rw [if_neg (not_le.mpr hm)]
      rw [show ({ acceptStep (afterEval P st ev) o with numIters := st.numIters + 1 } : St X K H m) = nextIter P st ev o from rfl,
        h1]
      simp [Spec.table, logRow, logStart, acceptStep, invokeCallbacks, afterEval]
    · rw [h2]; simp [acceptStep, invokeCallbacks, afterEval]
    · rw [h3]; simp; omega
    · simp only [List.map_cons, h4, List.length_cons, List.range'_succ]

theorem outerLines_spec (P : Ctx X K H n m) (S : Settings K) (st st' : St X K H m) (h : outerLoop P S st = .ok st') :
    ∃ (snaps : List (Snap X K m)) (als : List ℕ),
      outerLines P S true st = Spec.table ((snaps.zip als).map fun s => (s.1.numIters + 1, s.2, s.1.merit)) ∧
      st'.trace = st.trace ++ snaps.flatMap (fun s => st.callbacks.map fun cb => (cb, s)) ∧
      st'.numIters = st.numIters + snaps.length ∧ als.length = snaps.length ∧
      snaps.map (fun s => s.numIters) = List.range' st.numIters snaps.length ∧
      als.Pairwise (· ≤ ·) ∧ (∀ a ∈ als, st.alIters + 1 ≤ a ∧ a ≤ st'.alIters + 1) ∧
      st.alIters ≤ st'.alIters ∧ st'.callbacks = st.callbacks := by
  refine outerLoop_ind P S (R := fun st st' => ∃ (snaps : List (Snap X K m)) (als : List ℕ),
      outerLines P S true st = Spec.table ((snaps.zip als).map fun s => (s.1.numIters + 1, s.2, s.1.merit)) ∧
      st'.trace = st.trace ++ snaps.flatMap (fun s => st.callbacks.map fun cb => (cb, s)) ∧
      st'.numIters = st.numIters + snaps.length ∧ als.length = snaps.length ∧
      snaps.map (fun s => s.numIters) = List.range' st.numIters snaps.length ∧
      als.Pairwise (· ≤ ·) ∧ (∀ a ∈ als, st.alIters + 1 ≤ a ∧ a ≤ st'.alIters + 1) ∧
      st.alIters ≤ st'.alIters ∧ st'.callbacks = st.callbacks) ?_ ?_ ?_ st st' h
  · intro st hc
    refine ⟨[], [], ?_, by simp, by simp, rfl, by simp, by simp, by simp, le_rfl, rfl⟩
    rw [outerLines, if_neg hc]; rfl
  · intro st st1 hn ha hin ht
    have hf := innerLoop_frame P S _ _ hin
    obtain ⟨snaps, h1, h2, h3, h4⟩ := innerLines_spec P S _ _ hin
    have eal : (afterInner S st1).alIters = st.alIters := by rw [afterInner_alIters, hf.alIters]; rfl
    refine ⟨snaps, List.replicate snaps.length (st.alIters + 1), ?_, ?_, ?_, by simp, h4, ?_, ?_, ?_, ?_⟩
    · rw [outerLines, if_pos ⟨hn, ha⟩]
      simp only [hin]
      rw [if_pos ht, List.append_nil, h1]
      congr 1
      exact snapRows_zip _ _
    · show (afterInner S st1).trace = _
      rw [afterInner_trace, h2]; rfl
    · show (afterInner S st1).numIters = _
      rw [afterInner_numIters, h3]; rfl
    · exact pairwise_replicate _ _
    · intro a h
      obtain ⟨-, rfl⟩ := List.mem_replicate.mp h
      show _ ∧ _ ≤ (afterInner S st1).alIters + 1
      omega
    · show st.alIters ≤ (afterInner S st1).alIters
      omega
    · show (afterInner S st1).callbacks = _
      rw [afterInner_callbacks, hf.callbacks]; rfl
  · rintro st st1 st' hn ha hin ht hout ⟨snaps', als', g1, g2, g3, g4, g5, g6, g7, g8, g9⟩
    have hf := innerLoop_frame P S _ _ hin
    obtain ⟨snaps, h1, h2, h3, h4⟩ := innerLines_spec P S _ _ hin
    have eal : (nextOuter S st st1).alIters = st.alIters + 1 := rfl
    have ecb : (nextOuter S st st1).callbacks = st.callbacks := by
      show (afterInner S st1).callbacks = _
      rw [afterInner_callbacks, hf.callbacks]; rfl
    have etr : (nextOuter S st st1).trace = st1.trace := afterInner_trace S st1
    have eni : (nextOuter S st st1).numIters = st1.numIters := afterInner_numIters S st1
    rw [eal] at g7 g8
    refine ⟨snaps ++ snaps', List.replicate snaps.length (st.alIters + 1) ++ als', ?_, ?_, ?_, ?_, ?_, ?_, ?_, by omega, ?_⟩
    · rw [outerLines, if_pos ⟨hn, ha⟩]
      simp only [hin]
      rw [if_neg ht, h1]
      rw [show ({ setProxParameter (afterInner S st1) ((afterInner S st1).rho * S.rhoUpdateFactor) with
        alIters := st.alIters + 1 } : St X K H m) = nextOuter S st st1 from rfl, g1, List.zip_append (by simp),
        List.map_append, Spec.table, Spec.table, Spec.table, List.flatMap_append]
      congr 2
      exact snapRows_zip _ _
    · rw [g2, ecb, etr, h2, List.flatMap_append, List.append_assoc]; rfl
    · rw [g3, eni, h3, List.length_append, Nat.add_assoc]; rfl
    · simp [g4]
    · rw [List.map_append, h4, g5, eni, h3, List.length_append]
      exact List.range'_append_1 ..
    · rw [List.pairwise_append]
      refine ⟨pairwise_replicate _ _, g6, fun a ha b hb => ?_⟩
      obtain ⟨-, rfl⟩ := List.mem_replicate.mp ha
      have := g7 b hb
      omega
    · intro a h
      rcases List.mem_append.mp h with h | h
      · obtain ⟨-, rfl⟩ := List.mem_replicate.mp h
        omega
      · have := g7 a h
        omega
    · rw [g9, ecb]

/-- with an inactive logger the loops print nothing -/
theorem innerLines_inactive (P : Ctx X K H n m) (S : Settings K) (st : St X K H m) : innerLines P S false st = [] := by
  generalize hk : S.maxIters - st.numIters = k
  induction k using Nat.strong_induction_on generalizing st with
  | _ k ih =>
    rw [innerLines]
    cases hev : evalAt P S st.mu st.setMu st.rho st.target st.xOpt st.lamsOpt st.lamsPrev with
    | none => rfl
    | some ev =>
      simp only
      by_cases h1 : ev.innerCrit ≤ st.innerTol ∨ ev.outerCrit ≤ S.targetTol
      · rw [if_pos h1]
      · rw [if_neg h1]
        cases ho : P.step (stepIn (afterEval P st ev) ev) with
        | error e => rfl
        | ok o =>
          simp only [logRow, Bool.false_eq_true, if_false, List.nil_append]
          by_cases h2 : st.numIters + 1 ≥ S.maxIters
          · rw [if_pos h2]
          · rw [if_neg h2]
            exact ih _ (by simp only; omega) _ rfl

theorem outerLines_inactive (P : Ctx X K H n m) (S : Settings K) (st : St X K H m) : outerLines P S false st = [] := by
  generalize hk : S.maxAlIters - st.alIters = k
  induction k using Nat.strong_induction_on generalizing st with
  | _ k ih =>
    rw [outerLines]
    by_cases h1 : st.numIters < S.maxIters ∧ st.alIters < S.maxAlIters
    · rw [if_pos h1, innerLines_inactive, List.nil_append]
      cases hin : innerLoop P S (startOuter P st) with
      | error e => rfl
      | ok st1 =>
        simp only
        by_cases h2 : max (afterInner S st1).prim (afterInner S st1).dual < S.targetTol
        · rw [if_pos h2]
        · rw [if_neg h2]
          exact ih _ (by simp only; omega) _ rfl
    · rw [if_neg h1]

theorem active_run (P : Ctx X K H n m) (S : Settings K) (h0 : H) (ops : List (ConsoleOp X K)) :
    ∀ c : ConsoleSt X K H m, (c.run P S h0 ops).active = (c.active && Spec.neverQuiet c.verbose ops) ∧
      (c.run P S h0 ops).verbose = Spec.verboseAfter c.verbose ops := by
  induction ops with
  | nil => intro c; simp [ConsoleSt.run, Spec.neverQuiet, Spec.verboseAfter]
  | cons op ops ih =>
    intro c
    obtain ⟨h1, h2⟩ := ih (c.step P S h0 op).1
    rw [ConsoleSt.run, h1, h2]
    cases op with
    | setVerbose b => exact ⟨rfl, rfl⟩
    | setup => exact ⟨rfl, rfl⟩
    | solve x0 k l =>
      refine ⟨?_, rfl⟩
      simp only [ConsoleSt.step, loggerAfter, Spec.neverQuiet]
      cases c.verbose <;> cases c.active <;> simp

end ProxNLP
