import Verif.Props.Solver
import Verif.Props.Step
import Verif.Model.Backends
import Verif.Lemmas.Blocks
import Verif.Lemmas.Sets
import Verif.Spec.Reported
import Verif.Spec.Blocks

/-!
C91: the reported objective value, constraint violations and active set.
-/

set_option linter.unusedSectionVars false
namespace ProxNLP

variable {X K H : Type} {n m : ℕ} [Field K] [LinearOrder K] [IsStrictOrderedRing K]

/-- the reported quantities are those of the point `xOpt`: constraint values `c`, evaluated with multipliers `lam`,
multipliers `prev` of the outer iteration, and penalty `mu` -/
structure Evaluated (P : Ctx X K H n m) (st : St X K H m) (mu : K) (lam prev : Fin m → K) (f : K)
    (c : Fin m → K) : Prop where
  eval : P.eval st.xOpt = some (f, c)
  value : st.value = f
  rows : ∀ i, st.rowErr i = c i - P.sets.projection mu (fun j => c j + mu * lam j) i
  plus : ∀ i, st.lamsPlus i = (1 / mu) * P.sets.normal mu (fun j => c j + mu * prev j) i
  active : st.active = P.sets.active mu (fun j => c j + mu * prev j)
  dual : st.dual = inftyNorm (fun j => P.grad st.xOpt j + ∑ i, P.jac st.xOpt i j * lam i)

theorem evaluated_afterEval (P : Ctx X K H n m) (S : Settings K) (st : St X K H m) (ev : EvalOut K n m)
    (hset : st.setMu = st.mu) (hev : evalSt P S st = some ev) :
    ∃ f c, Evaluated P (afterEval P st ev) st.mu st.lamsOpt st.lamsPrev f c := by
  unfold evalSt evalAt at hev
  rw [Option.map_eq_some_iff] at hev
  obtain ⟨⟨f, c⟩, hf, he⟩ := hev
  subst he
  rw [hset]
  refine ⟨f, c, hf, rfl, ?_, ?_, ?_, rfl⟩
  · intro i; simp only [afterEval, primErr, hset]
  · intro i; rfl
  · simp only [afterEval, hset]

theorem inner_evaluated (P : Ctx X K H n m) (S : Settings K) (st st' : St X K H m)
    (h : innerLoop P S st = .ok st') (hset : st.setMu = st.mu) :
    (∃ f c, Evaluated P st' st'.mu st'.lamsOpt st'.lamsPrev f c) ∨
      st'.converged = .maxIters ∧ S.maxIters ≤ st'.numIters ∧ S.targetTol < max st'.prim st'.dual := by
  refine innerLoop_ind P S (R := fun st st' => st.setMu = st.mu →
    (∃ f c, Evaluated P st' st'.mu st'.lamsOpt st'.lamsPrev f c) ∨
      st'.converged = .maxIters ∧ S.maxIters ≤ st'.numIters ∧ S.targetTol < max st'.prim st'.dual)
    ?_ ?_ ?_ st st' h hset
  · intro st ev hev _ hs; exact Or.inl (evaluated_afterEval P S st ev hs hev)
  · intro st ev o _ ht _ hm _
    simp only [stopTest, not_or, not_le] at ht
    exact Or.inr ⟨rfl, hm, ht.2⟩
  · intro st st' ev o _ _ _ _ _ ih hs; exact ih hs

theorem inner_prim (P : Ctx X K H n m) (S : Settings K) (st st' : St X K H m)
    (h : innerLoop P S st = .ok st') : st'.prim = inftyNorm st'.rowErr := by
  refine innerLoop_ind P S (R := fun _ st' => st'.prim = inftyNorm st'.rowErr) ?_ ?_ ?_ st st' h
  all_goals
    first
    | (intro st st' ev o _ _ _ _ _ ih; exact ih)
    | skip
  all_goals
    first
    | (intro st ev hev _
       unfold evalSt evalAt at hev
       rw [Option.map_eq_some_iff] at hev
       obtain ⟨⟨f, c⟩, _, he⟩ := hev
       subst he
       rfl)
    | (intro st ev o hev _ _ _
       unfold evalSt evalAt at hev
       rw [Option.map_eq_some_iff] at hev
       obtain ⟨⟨f, c⟩, _, he⟩ := hev
       subst he
       rfl)

/-- what `afterInner` does to the reported quantities -/
theorem afterInner_reported (S : Settings K) (st : St X K H m) :
    (afterInner S st).value = st.value ∧ (afterInner S st).rowErr = st.rowErr ∧
    (afterInner S st).active = st.active ∧ (afterInner S st).lamsPlus = st.lamsPlus ∧
    (S.mode = .newton → (afterInner S st).lamsOpt = st.lamsOpt) ∧
    (S.mode = .primal → st.prim < st.primTol → (afterInner S st).lamsOpt = st.lamsPlus) := by
  unfold afterInner; simp only; split
  · refine ⟨rfl, rfl, rfl, rfl, ?_, ?_⟩
    · intro h; simp only [updateToleranceSuccess, tolerancePostUpdate, acceptMultipliers, h]
    · intro h _; simp only [updateToleranceSuccess, tolerancePostUpdate, acceptMultipliers, h]
  · rename_i hlt
    unfold updatePenalty; simp only
    split <;> exact ⟨rfl, rfl, rfl, rfl, fun _ => rfl, fun _ h => absurd h hlt⟩

theorem Evaluated.congr {P : Ctx X K H n m} {st st' : St X K H m} {mu : K} {lam prev : Fin m → K} {f : K}
    {c : Fin m → K} (h : Evaluated P st mu lam prev f c) (hx : st'.xOpt = st.xOpt) (hv : st'.value = st.value)
    (hr : st'.rowErr = st.rowErr) (ha : st'.active = st.active) (hp : st'.lamsPlus = st.lamsPlus)
    (hd : st'.dual = st.dual) : Evaluated P st' mu lam prev f c where
  eval := by rw [hx]; exact h.eval
  value := by rw [hv]; exact h.value
  rows := by rw [hr]; exact h.rows
  plus := by rw [hp]; exact h.plus
  active := by rw [ha]; exact h.active
  dual := by rw [hd, hx]; exact h.dual

/-- reported state after at least one outer iteration, unless stopped by the step budget -/
structure Reported (P : Ctx X K H n m) (S : Settings K) (st' : St X K H m) : Prop where
  ev : st'.converged ≠ .maxIters → ∃ lam prev f c, Evaluated P st' st'.resMu lam prev f c ∧
    (S.mode = .newton → lam = st'.lamsOpt) ∧
    (S.mode = .primal → st'.converged = .success → st'.lamsOpt = st'.lamsPlus)
  prim : st'.prim = inftyNorm st'.rowErr

theorem outer_reported (P : Ctx X K H n m) (S : Settings K) (st st' : St X K H m)
    (h : outerLoop P S st = .ok st') (hi : OuterInv S st)
    (hn : Reported P S st ∨ (st.converged = .uninit ∧ st.numIters < S.maxIters ∧ st.alIters < S.maxAlIters))
    (hns : st.converged ≠ .success) :
    Reported P S st' := by
  refine outerLoop_ind P S (R := fun st st' => OuterInv S st →
    (Reported P S st ∨ (st.converged = .uninit ∧ st.numIters < S.maxIters ∧ st.alIters < S.maxAlIters)) →
      st.converged ≠ .success → Reported P S st') ?_ ?_ ?_ st st' h hi hn hns
  · intro st hb _ hn _
    rcases hn with h | h
    · exact h
    · exact absurd h.2 hb
  · intro st st1 _ _ hin ht hi _ hns
    have hf := innerLoop_frame P S _ _ hin
    obtain ⟨r1, r2, r3, r4, r5, r6⟩ := afterInner_reported S st1
    have hmax := ht
    rw [afterInner_prim, afterInner_dual] at hmax
    refine ⟨fun _ => ?_, ?_⟩
    · rcases inner_evaluated P S _ _ hin hi.setMu with ⟨f, c, he⟩ | ⟨_, _, hgt⟩
      · refine ⟨st1.lamsOpt, st1.lamsPrev, f, c, ?_, fun hm => (r5 hm).symm, fun hm _ => ?_⟩
        · have hmu : (afterInner S st1).resMu = st1.mu := by
            rw [afterInner_resMu, hf.resMu]; exact hf.mu.symm
          show Evaluated P { afterInner S st1 with converged := .success } (afterInner S st1).resMu _ _ _ _
          rw [hmu]
          exact he.congr (afterInner_xOpt S st1) r1 r2 r3 r4 (afterInner_dual S st1)
        · show (afterInner S st1).lamsOpt = (afterInner S st1).lamsPlus
          rw [r4]
          refine r6 hm ?_
          have : st1.primTol = st.primTol := hf.primTol
          rw [this]
          exact lt_of_lt_of_le (lt_of_le_of_lt (le_max_left _ _) hmax) hi.primTol
      · exact absurd hmax (not_lt.2 hgt.le)
    · show (afterInner S st1).prim = inftyNorm (afterInner S st1).rowErr
      rw [afterInner_prim, r2]
      exact inner_prim P S _ _ hin
  · intro st st1 st' _ _ hin ht _ ih hi hn hns
    have hf := innerLoop_frame P S _ _ hin
    obtain ⟨r1, r2, r3, r4, r5, r6⟩ := afterInner_reported S st1
    have hconv : (nextOuter S st st1).converged = st1.converged := afterInner_converged S st1
    have hcs : st1.converged ≠ .success := by
      rcases innerLoop_exit P S _ _ hin with ⟨h1, _⟩ | ⟨h1, _⟩
      · rw [h1]; exact hns
      · rw [h1]; simp
    refine ih (nextOuter_inv P S st st1 hi hin) (Or.inl ⟨fun hc => ?_, ?_⟩) (by rw [hconv]; exact hcs)
    · rw [hconv] at hc
      rcases inner_evaluated P S _ _ hin hi.setMu with ⟨f, c, he⟩ | ⟨hm, _⟩
      · refine ⟨st1.lamsOpt, st1.lamsPrev, f, c, ?_, fun hm => (r5 hm).symm, fun _ hc' => ?_⟩
        · have hmu : (nextOuter S st st1).resMu = st1.mu := by
            show (afterInner S st1).resMu = _
            rw [afterInner_resMu, hf.resMu]; exact hf.mu.symm
          rw [hmu]
          exact he.congr (afterInner_xOpt S st1) r1 r2 r3 r4 (afterInner_dual S st1)
        · rw [hconv] at hc'; exact absurd hc' hcs
      · exact absurd hm hc
    · show (afterInner S st1).prim = inftyNorm (afterInner S st1).rowErr
      rw [afterInner_prim, r2]
      exact inner_prim P S _ _ hin

theorem solve_reported (P : Ctx X K H n m) (S : Settings K) (st st' : St X K H m) (x0 : X) (k : ℕ)
    (lams0 : Fin k → K) (h : solve P S st x0 k lams0 = .ok st') (h1 : 0 < S.maxIters) (h2 : 0 < S.maxAlIters) :
    Reported P S st' := by
  obtain ⟨_, stf, hf, rfl⟩ := solve_ok P S st x0 k lams0 st' h
  have hconv : (initSolve S st x0 k lams0).converged = .uninit := by unfold initSolve; rfl
  have hit : (initSolve S st x0 k lams0).numIters = 0 := by unfold initSolve; rfl
  have hal : (initSolve S st x0 k lams0).alIters = 0 := by unfold initSolve; rfl
  have hr := outer_reported P S _ stf hf (initSolve_inv S st x0 k lams0)
    (Or.inr ⟨hconv, by rw [hit]; exact h1, by rw [hal]; exact h2⟩) (by rw [hconv]; simp)
  refine ⟨fun hc => ?_, hr.prim⟩
  obtain ⟨lam, prev, f, c, he, a, b⟩ := hr.ev hc
  exact ⟨lam, prev, f, c, he.congr rfl rfl rfl rfl rfl rfl, a, b⟩

/-- **C91 (partial): the reported value and violations are those of the returned point.**  Full statement: whenever
`solve` returns, the reported objective value, constraint violations and active set are those of the returned point
and multipliers.  Here: every return that is not due to the step budget, with room for at least one outer iteration;
the multipliers are the returned ones in mode NEWTON (the default).  Missing: returns with MAX_ITERS_REACHED, for
which it is false (`C91_stale_false`), and the violations at the returned multipliers in the other modes (see
`C13_success_certifies_false`). -/
theorem C91_returned_point_partial (P : Ctx X K H n m) (S : Settings K) (st st' : St X K H m) (x0 : X) (k : ℕ)
    (lams0 : Fin k → K) (h : solve P S st x0 k lams0 = .ok st') (h1 : 0 < S.maxIters) (h2 : 0 < S.maxAlIters)
    (hflag : st'.converged ≠ .maxIters) :
    ∃ f c lam, P.eval st'.xOpt = some (f, c) ∧ st'.value = f ∧
      (∀ i, st'.rowErr i = c i - P.sets.projection st'.resMu (fun j => c j + st'.resMu * lam j) i) ∧
      st'.dual = inftyNorm (fun j => P.grad st'.xOpt j + ∑ i, P.jac st'.xOpt i j * lam i) ∧
      (S.mode = .newton → lam = st'.lamsOpt) := by
  obtain ⟨lam, prev, f, c, he, a, _⟩ := (solve_reported P S st st' x0 k lams0 h h1 h2).ev hflag
  exact ⟨f, c, lam, he.eval, he.value, he.rows, he.dual, a⟩

/-- one row: the normal-cone part of a shifted value, divided by the penalty, against the activity flag -/
theorem activeMeans_row (s : LeafSet K) (mu : K) (hmu : 0 < mu) (i : ℕ) (z : K)
    (hbox : ∀ lo hi, s = .box lo hi → lo i ≤ hi i) :
    Spec.ActiveMeans s (s.activeAt mu i z) ((1 / mu) * s.normalAt mu i z) := by
  have hinv : 0 < 1 / mu := by positivity
  cases s with
  | equality => rfl
  | negOrthant =>
    simp only [Spec.ActiveMeans, LeafSet.activeAt, LeafSet.normalAt, decide_eq_true_eq]
    refine ⟨mul_nonneg hinv.le (le_max_right _ _), ?_⟩
    rw [mul_pos_iff_of_pos_left hinv, lt_max_iff]
    simp
  | box lo hi =>
    simp only [Spec.ActiveMeans, LeafSet.activeAt, LeafSet.normalAt, Bool.or_eq_true, decide_eq_true_eq]
    have hb := hbox lo hi rfl
    rw [ne_eq, mul_eq_zero, not_or]
    constructor
    · intro h
      refine ⟨hinv.ne', ?_⟩
      rcases h with h | h
      · rw [min_eq_right h.le, max_eq_left hb]; intro h0; linarith
      · rw [min_eq_left (h.le.trans hb), max_eq_right h.le]; intro h0; linarith
    · rintro ⟨_, h⟩
      by_contra hn
      push Not at hn
      exact h (by rw [min_eq_left hn.1, max_eq_left hn.2, sub_self])
  | l1 =>
    simp only [Spec.ActiveMeans, LeafSet.activeAt, LeafSet.normalAt, decide_eq_false_iff_not, not_le]
    by_cases hz : |z| ≤ mu
    · rw [max_eq_right (by linarith), mul_zero, sub_zero, abs_mul, abs_of_pos hinv]
      refine ⟨?_, fun h => absurd hz (not_le.2 h)⟩
      rw [one_div, inv_mul_le_iff₀ hmu]; simpa using hz
    · have hz := not_le.1 hz
      rw [max_eq_left (by linarith)]
      have key : |1 / mu * (z - signK z * (|z| - mu))| = 1 := by
        rcases lt_trichotomy z 0 with hn | hn | hn
        · have hs : signK z = -1 := by unfold signK; rw [if_neg hn.not_gt, if_pos hn]
          rw [hs, abs_of_neg hn, show (1 / mu * (z - -1 * (-z - mu))) = -1 by field_simp; ring, abs_neg, abs_one]
        · rw [hn, abs_zero] at hz; exact absurd hz hmu.not_gt
        · have hs : signK z = 1 := by unfold signK; rw [if_pos hn]
          rw [hs, abs_of_pos hn, show (1 / mu * (z - 1 * (z - mu))) = 1 by field_simp; ring, abs_one]
      exact ⟨key.le, fun _ => key⟩

/-- penalties stay positive -/
theorem outer_mu_pos (P : Ctx X K H n m) (S : Settings K) (st st' : St X K H m) (h : outerLoop P S st = .ok st')
    (hlow : 0 < S.muLower) (hinit : 0 < S.muInit) (hmu : 0 < st.mu)
    (hres : (st.numIters < S.maxIters ∧ st.alIters < S.maxAlIters) ∨ 0 < st.resMu) : 0 < st'.resMu := by
  refine outerLoop_ind P S (R := fun st st' => 0 < st.mu →
    ((st.numIters < S.maxIters ∧ st.alIters < S.maxAlIters) ∨ 0 < st.resMu) → 0 < st'.resMu) ?_ ?_ ?_ st st' h hmu hres
  · intro st hb _ hr
    rcases hr with hr | hr
    · exact absurd hr hb
    · exact hr
  · intro st st1 _ _ hin _ hmu _
    show 0 < (afterInner S st1).resMu
    rw [afterInner_resMu, (innerLoop_frame P S _ _ hin).resMu]; exact hmu
  · intro st st1 st' _ _ hin _ _ ih hmu _
    have hf := innerLoop_frame P S _ _ hin
    refine ih ?_ (Or.inr ?_)
    · show 0 < (afterInner S st1).mu
      rw [afterInner_mu]
      split
      · rw [hf.mu]; exact hmu
      · split
        · exact hinit
        · exact lt_of_lt_of_le hlow (le_max_right _ _)
    · show 0 < (afterInner S st1).resMu
      rw [afterInner_resMu, hf.resMu]; exact hmu

theorem solve_mu_pos (P : Ctx X K H n m) (S : Settings K) (st st' : St X K H m) (x0 : X) (k : ℕ)
    (lams0 : Fin k → K) (h : solve P S st x0 k lams0 = .ok st') (h1 : 0 < S.maxIters) (h2 : 0 < S.maxAlIters)
    (hlow : 0 < S.muLower) (hinit : 0 < S.muInit) : 0 < st'.resMu := by
  obtain ⟨_, stf, hf, rfl⟩ := solve_ok P S st x0 k lams0 st' h
  have hmu : (initSolve S st x0 k lams0).mu = S.muInit := (initSolve_outerLog S st x0 k lams0).2.2.2.2.2.2.2.1 
  exact outer_mu_pos P S _ stf hf hlow hinit (by rw [hmu]; exact hinit)
    (Or.inl ⟨by unfold initSolve; exact h1, by unfold initSolve; exact h2⟩)

/-- **C91: the reported active set is that of the first-order multiplier estimate.**  On every return that is not due
to the step budget (constraints built from the library's sets), each entry of the reported active set agrees with the
multiplier estimate `lams_plus` of the solver's workspace: equality rows are active; inequality rows are active exactly
when the estimate is positive; bound rows exactly when it is not zero; for the L1 penalty it is `±1` where inactive.
In mode PRIMAL a run that reports SUCCESS returns these very multipliers. -/
theorem C91_active_set_partial (P : Ctx X K H n m) (S : Settings K) (st st' : St X K H m) (x0 : X) (k : ℕ)
    (lams0 : Fin k → K) (leaf : Fin m → LeafSet K × ℕ) (hP : P.sets = StackedSet.ofLeaves leaf)
    (hbox : ∀ i lo hi, (leaf i).1 = .box lo hi → lo (leaf i).2 ≤ hi (leaf i).2)
    (hlow : 0 < S.muLower) (hinit : 0 < S.muInit)
    (h : solve P S st x0 k lams0 = .ok st') (h1 : 0 < S.maxIters) (h2 : 0 < S.maxAlIters)
    (hflag : st'.converged ≠ .maxIters) :
    (∀ i, Spec.ActiveMeans (leaf i).1 (st'.active i) (st'.lamsPlus i)) ∧
    (S.mode = .primal → st'.converged = .success →
      ∀ i, Spec.ActiveMeans (leaf i).1 (st'.active i) (st'.lamsOpt i)) := by
  obtain ⟨lam, prev, f, c, he, _, b⟩ := (solve_reported P S st st' x0 k lams0 h h1 h2).ev hflag
  have hmu := solve_mu_pos P S st st' x0 k lams0 h h1 h2 hlow hinit
  have key : ∀ i, Spec.ActiveMeans (leaf i).1 (st'.active i) (st'.lamsPlus i) := by
    intro i
    rw [he.plus i, he.active, hP]
    exact activeMeans_row _ _ hmu _ _ (hbox i)
  exact ⟨key, fun hm hs i => by rw [b hm hs]; exact key i⟩

/-! ### Violations per constraint -/

theorem constraintViolation_eq (sizes : List ℕ) (st : St X K H sizes.sum) (i d : ℕ) (hd : sizes[i]? = some d) :
    ∃ b : Fin d → K, Spec.IsBlock st.rowErr (Spec.offset sizes i) b ∧ constraintViolation sizes st i = some (inftyNorm b) := by
  have hle : startIdx sizes i + d ≤ sizes.sum := by
    rw [← startIdx_succ sizes i d hd]; exact startIdx_le_sum sizes _
  refine ⟨_, ?_, by unfold constraintViolation; rw [hd, Option.bind_eq_bind, Option.bind_some, readBlock_eq_some _ _ _ hle]; rfl⟩
  intro j
  have : Spec.offset sizes i = startIdx sizes i := (startIdx_eq sizes i).symm
  exact ⟨by rw [this]; omega, by simp only [this]⟩

theorem activeSetOf_eq (sizes : List ℕ) (st : St X K H sizes.sum) (i d : ℕ) (hd : sizes[i]? = some d) :
    ∃ b : Fin d → Bool, Spec.IsBlock st.active (Spec.offset sizes i) b ∧ activeSetOf sizes st i = some ⟨d, b⟩ := by
  have hle : startIdx sizes i + d ≤ sizes.sum := by
    rw [← startIdx_succ sizes i d hd]; exact startIdx_le_sum sizes _
  refine ⟨_, ?_, by unfold activeSetOf; rw [hd, Option.bind_eq_bind, Option.bind_some, readBlock_eq_some _ _ _ hle]; rfl⟩
  intro j
  have : Spec.offset sizes i = startIdx sizes i := (startIdx_eq sizes i).symm
  exact ⟨by rw [this]; omega, by simp only [this]⟩

/-- **C91: one violation per constraint, and the reported infeasibility is their maximum.**  After every return of
`solve` (whatever the flag, with room for one outer iteration): constraint `i` has a reported violation, it is the
max-norm of the constraint's segment of the errors (its active set is the same segment of the flags), and the reported primal infeasibility is the largest of the
violations (0 if there is none).  Hence SUCCESS puts every violation under the target tolerance. -/
theorem C91_violations (sizes : List ℕ) (P : Ctx X K H n sizes.sum) (S : Settings K) (st st' : St X K H sizes.sum)
    (x0 : X) (k : ℕ) (lams0 : Fin k → K) (h : solve P S st x0 k lams0 = .ok st') (h1 : 0 < S.maxIters)
    (h2 : 0 < S.maxAlIters) :
    (∀ i, i < sizes.length ↔ ∃ v, constraintViolation sizes st' i = some v) ∧
    (∀ i d, sizes[i]? = some d → ∃ b : Fin d → K, Spec.IsBlock st'.rowErr (Spec.offset sizes i) b ∧
      constraintViolation sizes st' i = some (inftyNorm b)) ∧
    (∀ i d, sizes[i]? = some d → ∃ b : Fin d → Bool, Spec.IsBlock st'.active (Spec.offset sizes i) b ∧
      activeSetOf sizes st' i = some ⟨d, b⟩) ∧
    (∀ t, st'.prim ≤ t ↔ 0 ≤ t ∧ ∀ i v, constraintViolation sizes st' i = some v → v ≤ t) ∧
    (st'.converged = .success → ∀ i v, constraintViolation sizes st' i = some v → v < S.targetTol) := by
  have hprim := (solve_reported P S st st' x0 k lams0 h h1 h2).prim
  have hnone : ∀ i, sizes[i]? = none → constraintViolation sizes st' i = none := by
    intro i hi; unfold constraintViolation; rw [hi]; rfl
  have hmax : ∀ t, st'.prim ≤ t ↔ 0 ≤ t ∧ ∀ i v, constraintViolation sizes st' i = some v → v ≤ t := by
    intro t
    rw [hprim, inftyNorm_le_iff]
    refine and_congr_right fun ht => ⟨?_, ?_⟩
    · intro hall i v hv
      cases hd : sizes[i]? with
      | none => rw [hnone i hd] at hv; cases hv
      | some d =>
        obtain ⟨b, hb, hv'⟩ := constraintViolation_eq sizes st' i d hd
        rw [hv'] at hv; injection hv with hv; subst hv
        rw [inftyNorm_le_iff]
        refine ⟨ht, fun j => ?_⟩
        obtain ⟨hj, hj'⟩ := hb j
        rw [← hj']; exact hall _
    · intro hall r
      obtain ⟨i, d, hd, hlo, hhi⟩ := exists_block sizes r.1 r.2
      obtain ⟨b, hb, hv'⟩ := constraintViolation_eq sizes st' i d hd
      have hle := hall i _ hv'
      rw [inftyNorm_le_iff] at hle
      rw [startIdx_eq] at hlo hhi
      obtain ⟨hj, hj'⟩ := hb ⟨r.1 - Spec.offset sizes i, by unfold Spec.offset; omega⟩
      have hr : (⟨Spec.offset sizes i + (r.1 - Spec.offset sizes i), hj⟩ : Fin sizes.sum) = r := by
        apply Fin.ext; show Spec.offset sizes i + (r.1 - Spec.offset sizes i) = r.1; unfold Spec.offset; omega
      rw [hr] at hj'
      rw [hj']; exact hle.2 _
  refine ⟨fun i => ⟨fun hi => ?_, ?_⟩, fun i d hd => constraintViolation_eq sizes st' i d hd,
    fun i d hd => activeSetOf_eq sizes st' i d hd, hmax, fun hs i v hv => ?_⟩
  · obtain ⟨b, _, hv⟩ := constraintViolation_eq sizes st' i _ (List.getElem?_eq_getElem hi)
    exact ⟨_, hv⟩
  · rintro ⟨v, hv⟩
    by_contra hlt
    rw [hnone i (List.getElem?_eq_none (by omega))] at hv; cases hv
  · have hlt := (C15_flag_truth_partial P S st st' x0 k lams0 h).1 hs
    exact lt_of_le_of_lt (((hmax st'.prim).1 le_rfl).2 i v hv) (lt_of_le_of_lt (le_max_left _ _) hlt)

/-! ### Witnesses -/

/-- **C91 is false for MAX_ITERS_REACHED:** the reported value is that of the point before the last step: minimising
`x` with unit steps and a budget of 5 returns `x = -5` and the value `-4`. -/
theorem C91_stale_false :
    ∃ st', solve Demo.linProblem (Demo.settings (1 / 2) (1 / 100) .newton 5 10)
        (Demo.ready Demo.linProblem (Demo.settings (1 / 2) (1 / 100) .newton 5 10)) 0 0 Fin.elim0 = .ok st' ∧
      st'.converged = .maxIters ∧ st'.xOpt = -5 ∧ st'.value = -4 ∧
      Demo.linProblem.eval st'.xOpt = some (-5, Fin.elim0) := by
  obtain ⟨st', h, hp⟩ := checkSolve_sound Demo.linProblem (Demo.settings (1 / 2) (1 / 100) .newton 5 10) 30
    (Demo.ready Demo.linProblem (Demo.settings (1 / 2) (1 / 100) .newton 5 10)) 0 0 Fin.elim0
    (fun s => decide (s.converged = .maxIters ∧ s.xOpt = -5 ∧ s.value = -4)) (by decide +kernel)
  obtain ⟨a, b, c⟩ := of_decide_eq_true hp
  exact ⟨st', h, a, b, c, by rw [b]; rfl⟩

/-- minimise `-x + x²/2 - x³/150` subject to `x - x²/100 ≤ 0`: at `x = 0` the constraint is binding with multiplier 1 -/
def Demo.bent (kkt : KktSys) : StepCfg ℚ ℚ 1 1 where
  eval x := some (-x + x ^ 2 / 2 - x ^ 3 / 150, fun _ => x - x ^ 2 / 100)
  grad x := fun _ => -1 + x - x ^ 2 / 50
  jac x := fun _ _ => 1 - x / 50
  objHess x := fun _ _ => 1 - x / 25
  cstrVhp _ lam := [(true, fun _ _ => -lam 0 / 50)]
  sets := StackedSet.ofLeaves fun _ => (.negOrthant, 0)
  neutral := 0
  coords x := fun _ => x
  integrate x d := x + d 0
  proxVal rho t x := rho / 2 * (x - t) ^ 2
  proxGrad rho t x := fun _ => rho * (x - t)
  proxHess rho _ _ := fun _ _ => rho
  approx := .gaussNewton
  kkt := kkt
  beta := 1 / 2
  inertia := Demo.inertiaDefaults
  refineTol := 1 / 10000000000
  refineSteps := 5
  ls := Demo.lsOpts .quadratic (1 / 10000) (1 / 1000000)
  backend := denseBackend 0 (DenseObj.init 2)
  sqrt := id
  sing := Demo.singNaN
  fuel := 40

/-- set up -/
def Demo.bentReady (kkt : KktSys) (S : Settings ℚ) : St ℚ ℚ (Hidden ℚ 1 1) 1 :=
  setup (concreteCtx (Demo.bent kkt)) (hidden0 (Demo.bent kkt)) (St.fresh (concreteCtx (Demo.bent kkt)) S (hidden0 (Demo.bent kkt)))

/-- **The reported active set need not be that of the returned multipliers:** in the default mode (NEWTON), with the
library's dense factorisation and either KKT system, minimising `-x + x²/2 - x³/150` subject to `x - x²/100 ≤ 0` from
`x = 1` returns SUCCESS at the exact solution `x = 0` with multiplier 1 and reports the binding constraint as
inactive. -/
theorem C91_active_set_false (kkt : KktSys) :
    ∃ st', solve (concreteCtx (Demo.bent kkt)) { Demo.settings (1 / 1000) (1 / 100) .newton 10 10 with kkt := kkt }
        (Demo.bentReady kkt (Demo.settings (1 / 1000) (1 / 100) .newton 10 10)) 1 1 (fun _ => 0) = .ok st' ∧
      st'.converged = .success ∧ st'.xOpt = 0 ∧ st'.lamsOpt 0 = 1 ∧ st'.active 0 = false ∧
      ¬ Spec.ActiveMeans (.negOrthant : LeafSet ℚ) (st'.active 0) (st'.lamsOpt 0) := by
  obtain ⟨st', h, hp⟩ := checkSolve_sound (concreteCtx (Demo.bent kkt))
    { Demo.settings (1 / 1000) (1 / 100) .newton 10 10 with kkt := kkt } 30
    (Demo.bentReady kkt (Demo.settings (1 / 1000) (1 / 100) .newton 10 10)) 1 1 (fun _ => 0)
    (fun s => decide (s.converged = .success ∧ s.xOpt = 0 ∧ s.lamsOpt 0 = 1 ∧ s.active 0 = false))
    (by cases kkt <;> decide +kernel)
  obtain ⟨a, b, c, d⟩ := of_decide_eq_true hp
  refine ⟨st', h, a, b, c, d, fun hm => ?_⟩
  have := hm.2.2 (by rw [c]; norm_num)
  rw [d] at this; cases this

/-- the hypotheses of `C91_returned_point_partial`, `C91_active_set_partial` and `C91_violations` are met by runs with
an active and with an inactive constraint (mode PRIMAL) -/
example : (∃ st', solve (concreteCtx (Demo.bent .classic)) (Demo.settings (1 / 10) (1 / 100) .primal 20 20)
        (Demo.bentReady .classic (Demo.settings (1 / 10) (1 / 100) .primal 20 20)) (1 / 2) 1 (fun _ => 0) = .ok st' ∧
      st'.converged = .success ∧ 0 < st'.numIters ∧ st'.active 0 = true ∧ 0 < st'.lamsOpt 0 ∧
      constraintViolation [1] st' 0 = some st'.prim) ∧
    (∃ st', solve (concreteCtx (Demo.bent .classic)) (Demo.settings (1 / 10) (1 / 100) .primal 20 20)
        (Demo.bentReady .classic (Demo.settings (1 / 10) (1 / 100) .primal 20 20)) 2 1 (fun _ => 0) = .ok st' ∧
      st'.converged = .success ∧ st'.active 0 = false ∧ st'.lamsOpt 0 = 0) := by
  constructor
  · obtain ⟨st', h, hp⟩ := checkSolve_sound (concreteCtx (Demo.bent .classic)) (Demo.settings (1 / 10) (1 / 100) .primal 20 20) 50
      (Demo.bentReady .classic (Demo.settings (1 / 10) (1 / 100) .primal 20 20)) (1 / 2) 1 (fun _ => 0)
      (fun s => decide (s.converged = .success ∧ 0 < s.numIters ∧ s.active 0 = true ∧ 0 < s.lamsOpt 0 ∧
        constraintViolation [1] s 0 = some s.prim)) (by decide +kernel)
    exact ⟨st', h, of_decide_eq_true hp⟩
  · obtain ⟨st', h, hp⟩ := checkSolve_sound (concreteCtx (Demo.bent .classic)) (Demo.settings (1 / 10) (1 / 100) .primal 20 20) 50
      (Demo.bentReady .classic (Demo.settings (1 / 10) (1 / 100) .primal 20 20)) 2 1 (fun _ => 0)
      (fun s => decide (s.converged = .success ∧ s.active 0 = false ∧ s.lamsOpt 0 = 0)) (by decide +kernel)
    exact ⟨st', h, of_decide_eq_true hp⟩

end ProxNLP
