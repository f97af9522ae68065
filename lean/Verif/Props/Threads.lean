import Verif.Lemmas.Threads
import Verif.Props.SharedProblem
import Mathlib.Tactic.FinCases

/-! Property theorems for C109 (solvers in different threads). -/

set_option linter.unusedSectionVars false
namespace ProxNLP

/-- **C109, general form**: threads of which none writes what another one reads or writes never race, and under every schedule of their
accesses each one returns exactly what it returns when it runs without the others, as soon as it has been given enough steps; what it leaves
in the memory it uses is then the same too. (However the accesses of a call are grouped into steps, only the locations matter.) -/
theorem C109_disjoint {I L : Type} [DecidableEq I] [DecidableEq L] {V : L → Type} {R : I → Type} (A W : I → L → Prop)
    (hd : Spec.Disjoint A W) (M : Machine I L V R) (hM : ∀ i, Spec.Within (A i) (W i) (M.threads i)) :
    ¬ Spec.HasRace M ∧
    (∀ i, ∃ N, ∀ s : List I, N ≤ s.count i → (M.run s).threads i = .ret ((M.threads i).alone M.mem).2) ∧
    ∀ (s : List I) i r, (M.run s).threads i = .ret r → r = ((M.threads i).alone M.mem).2 ∧
      ∀ l, A i l ∨ W i l → (M.run s).mem l = ((M.threads i).alone M.mem).1 l := by
  refine ⟨?_, fun i => ⟨(M.threads i).len M.mem, fun s hs => ?_⟩, fun s i r hr => ?_⟩
  · rintro ⟨s, hs⟩
    exact not_racing A W hd _ (machine_run_inv A W hd s M hM).1 hs
  · obtain ⟨-, h⟩ := machine_run_inv A W hd s M hM
    obtain ⟨h1, -, h3⟩ := h i
    rw [← h1]
    exact alone_of_len_zero _ _ (by rw [h3]; omega)
  · obtain ⟨-, h⟩ := machine_run_inv A W hd s M hM
    obtain ⟨h1, h2, -⟩ := h i
    rw [hr] at h1 h2
    exact ⟨h1, fun l hl => h2 l hl⟩

section
variable {I X K : Type} [DecidableEq I] {H : I → Type} {n m : I → ℕ} [Field K] [LinearOrder K] [IsStrictOrderedRing K]

/-- **C109, separate problems**: solvers in different threads, each with a problem object of its own, no two of them referring to one cost
object that keeps buffers: there is no data race, and under every schedule every solve returns what `solve` returns in a program without
threads. -/
theorem C109_separate_partial (mem : ∀ l, SharedVal X K l) (T : ∀ i, ThreadCtx X K (H i) (n i) (m i)) (hT : Spec.SeparateProblems T)
    (hb : ∀ i, Spec.BufferOk (T i)) (S : I → Settings K) (st : ∀ i, St X K (H i) (m i)) (x0 : I → X) (k : I → ℕ)
    (lams0 : ∀ i, Fin (k i) → K) :
    ¬ Spec.HasRace (Machine.solves mem T S st x0 k lams0) ∧
    (∀ i, ∃ N, ∀ s : List I, N ≤ s.count i →
      ((Machine.solves mem T S st x0 k lams0).run s).threads i = .ret (solve (T i).P (S i) (st i) (x0 i) (k i) (lams0 i))) ∧
    ∀ (s : List I) i r, ((Machine.solves mem T S st x0 k lams0).run s).threads i = .ret r →
      r = solve (T i).P (S i) (st i) (x0 i) (k i) (lams0 i) := by
  have hd : Spec.Disjoint (fun i => (T i).uses) (fun i => (T i).uses) := by
    have key : ∀ i j, i ≠ j → ∀ l, (T i).uses l → ¬ (T j).uses l := by
      intro i j hij l hl hl'
      cases l with
      | setMu p => exact (hT i j hij).1 hl.1 hl'.1 (hl.2.symm.trans hl'.2)
      | err c => exact (hT i j hij).2 c hl hl'
    intro i j hij l hl
    exact ⟨key i j hij l hl, key i j hij l hl⟩
  obtain ⟨h1, h2, h3⟩ := C109_disjoint _ _ hd (Machine.solves mem T S st x0 k lams0)
    (fun i => solveProg_within (T i) (S i) (st i) (x0 i) (k i) (lams0 i))
  have e : ∀ i, (((Machine.solves mem T S st x0 k lams0).threads i).alone (Machine.solves mem T S st x0 k lams0).mem).2 =
      solve (T i).P (S i) (st i) (x0 i) (k i) (lams0 i) := fun i => solveProg_alone (T i) (hb i) _ _ _ _ _ _
  refine ⟨h1, fun i => ?_, fun s i r hr => ?_⟩
  · rw [← e i]; exact h2 i
  · rw [← e i]; exact (h3 s i r hr).1

/-- **C109, one problem**: two threads that call `solve` on solvers of one problem object with at least one constraint always race (on the
parameter of the constraint sets), whatever the problem, the settings and the starting points. -/
theorem C109_shared_problem_races (mem : ∀ l, SharedVal X K l) (T : ∀ i, ThreadCtx X K (H i) (n i) (m i)) (S : I → Settings K)
    (st : ∀ i, St X K (H i) (m i)) (x0 : I → X) (k : I → ℕ) (lams0 : ∀ i, Fin (k i) → K) (i j : I) (hij : i ≠ j)
    (hp : (T i).problem = (T j).problem) (hi : m i ≠ 0) (hj : m j ≠ 0) (hsi : (st i).hasSetup = true) (hsj : (st j).hasSetup = true) :
    Spec.HasRace (Machine.solves mem T S st x0 k lams0) := by
  refine ⟨[], i, j, .setMu (T i).problem, true, true, hij, ?_, ?_, .inl rfl⟩
  · show Spec.nextAccess (solveProg (T i) (S i) (st i) (x0 i) (k i) (lams0 i)) = _
    unfold solveProg ThreadCtx.putMu
    rw [if_neg (by rw [hsi]; decide), if_neg hi]
    rfl
  · show Spec.nextAccess (solveProg (T j) (S j) (st j) (x0 j) (k j) (lams0 j)) = _
    unfold solveProg ThreadCtx.putMu
    rw [if_neg (by rw [hsj]; decide), if_neg hj, hp]
    rfl

/-- the first accesses of a solve on a problem whose cost keeps a buffer -/
theorem solveProg_head {H : Type} {n m : ℕ} (T : ThreadCtx X K H n m) (S : Settings K) (st : St X K H m) (x0 : X) (k : ℕ)
    (lams0 : Fin k → K) (c : ℕ) (hc : T.cost = some c) (hs : st.hasSetup = true) (h1 : 0 < S.maxIters) (h2 : 0 < S.maxAlIters) :
    ∃ rest, solveProg T S st x0 k lams0 = T.putMu S.muInit (.write (.err c) x0 rest) := by
  have hx : (initSolve S st x0 k lams0).xOpt = x0 ∧ (initSolve S st x0 k lams0).numIters = 0 ∧
      (initSolve S st x0 k lams0).alIters = 0 := by
    unfold initSolve setPenalty setProxParameter updateToleranceFailure
    dsimp only
    split <;> exact ⟨rfl, rfl, rfl⟩
  unfold solveProg
  rw [if_neg (by rw [hs]; decide), outerProg, if_pos (by rw [hx.2.1, hx.2.2]; exact ⟨h1, h2⟩), innerProg]
  have : (startOuter T.P (initSolve S st x0 k lams0)).xOpt = x0 := hx.1
  rw [this]
  unfold ThreadCtx.putErr
  simp only [hc, Prog.bind]
  exact ⟨_, rfl⟩

/-- **C109, one cost**: two threads whose solvers have different problem objects, but problems that refer to one cost object with buffers
(copies of one problem, for example, share its cost), always race (on the buffers). -/
theorem C109_shared_cost_races (mem : ∀ l, SharedVal X K l) (T : ∀ i, ThreadCtx X K (H i) (n i) (m i)) (S : I → Settings K)
    (st : ∀ i, St X K (H i) (m i)) (x0 : I → X) (k : I → ℕ) (lams0 : ∀ i, Fin (k i) → K) (i j : I) (hij : i ≠ j)
    (c : ℕ) (hci : (T i).cost = some c) (hcj : (T j).cost = some c) (hsi : (st i).hasSetup = true) (hsj : (st j).hasSetup = true)
    (hi : 0 < (S i).maxIters ∧ 0 < (S i).maxAlIters) (hj : 0 < (S j).maxIters ∧ 0 < (S j).maxAlIters) :
    Spec.HasRace (Machine.solves mem T S st x0 k lams0) := by
  obtain ⟨ri, ei⟩ := solveProg_head (T i) (S i) (st i) (x0 i) (k i) (lams0 i) c hci hsi hi.1 hi.2
  obtain ⟨rj, ej⟩ := solveProg_head (T j) (S j) (st j) (x0 j) (k j) (lams0 j) c hcj hsj hj.1 hj.2
  -- after its assignment to the sets, if any, thread `a` of a machine is about to write the buffer
  have key : ∀ (M : Machine I SharedLoc (SharedVal X K) (fun i => Except String (St X K (H i) (m i)))) (a : I) (r),
      M.threads a = (T a).putMu (S a).muInit (.write (.err c) (x0 a) r) →
      ∃ s : List I, (∀ b, b ≠ a → (M.run s).threads b = M.threads b) ∧
        Spec.nextAccess ((M.run s).threads a) = some (.err c, true) := by
    intro M a r h
    unfold ThreadCtx.putMu at h
    by_cases hm : m a = 0
    · rw [if_pos hm] at h
      exact ⟨[], fun _ _ => rfl, by simp only [Machine.run]; rw [h]; rfl⟩
    · rw [if_neg hm] at h
      refine ⟨[a], fun b hb => step_other_threads M a b hb, ?_⟩
      simp only [Machine.run, Machine.step, h, Function.update_self]
      rfl
  have runApp : ∀ (s t : List I) (M : Machine I SharedLoc (SharedVal X K) (fun i => Except String (St X K (H i) (m i)))),
      M.run (s ++ t) = (M.run s).run t := by
    intro s
    induction s with
    | nil => intro t M; rfl
    | cons a s ih => intro t M; exact ih t (M.step a)
  obtain ⟨s1, o1, a1⟩ := key (Machine.solves mem T S st x0 k lams0) i ri ei
  obtain ⟨s2, o2, a2⟩ := key ((Machine.solves mem T S st x0 k lams0).run s1) j rj ((o1 j (Ne.symm hij)).trans ej)
  refine ⟨s1 ++ s2, i, j, .err c, true, true, hij, ?_, ?_, .inl rfl⟩
  · rw [runApp, o2 i hij]; exact a1
  · rw [runApp]; exact a2

end

/-! ### Witnesses -/

namespace Demo

/-- two solvers of the problem object 0, `min x²/2 + |x - 3|`, with different penalty parameters, in two threads -/
def sharedL1 : Machine Bool SharedLoc (SharedVal (Fin 1 → ℚ) ℚ) (fun _ => Except String (St (Fin 1 → ℚ) ℚ (Hidden ℚ 1 1) 1)) :=
  Machine.solves (H := fun _ => Hidden ℚ 1 1) (n := fun _ => 1) (m := fun _ => 1)
    (fun l => match l with | .setMu _ => (0 : ℚ) | .err _ => (fun _ => (0 : ℚ) : Fin 1 → ℚ))
    (fun _ => { P := concreteCtx (l1Cfg .classic), problem := 0, cost := none, gradErr := fun _ => (concreteCtx (l1Cfg .classic)).grad })
    (fun b => if b then l1SettingsMu (1 / 50) else l1Settings .classic) (fun _ => l1Ready)
    (fun b => if b then fun _ => 1 else fun _ => 5) (fun _ => 1) (fun b => if b then fun _ => -1 else fun _ => 0)

/-- the cost `x²/2` as a quadratic residual cost with residual `r(x) = x` -/
def bufCost : QuadCost (Fin 1 → ℚ) ℚ 1 1 :=
  QuadCost.new { eval := fun x => x, jac := fun _ => 1, vhp := fun _ _ => 0 } 1 (fun _ => 0) 0

/-- `min x²/2` without constraints -/
def bufQp : Spec.Qp ℚ 1 0 where
  H := Matrix.of ![![1]]
  g := ![0]
  A := ![]
  b := ![]

/-- the solver for it -/
def bufCfg : StepCfg (Fin 1 → ℚ) ℚ 1 0 := qpCfg bufQp .classic (denseBackend 0 (DenseObj.init 1)) 40

/-- copy number `p` of the problem `min x²/2`: the copies refer to one cost object, number 7 -/
def bufThread (p : ℕ) : ThreadCtx (Fin 1 → ℚ) ℚ (Hidden ℚ 1 0) 1 0 := ThreadCtx.ofQuad (concreteCtx bufCfg) bufCost p 7

/-- two solvers in two threads, each with its own copy of the problem `min x²/2` -/
def copiedSq : Machine Bool SharedLoc (SharedVal (Fin 1 → ℚ) ℚ) (fun _ => Except String (St (Fin 1 → ℚ) ℚ (Hidden ℚ 1 0) 0)) :=
  Machine.solves (H := fun _ => Hidden ℚ 1 0) (n := fun _ => 1) (m := fun _ => 0)
    (fun l => match l with | .setMu _ => (0 : ℚ) | .err _ => (fun _ => (0 : ℚ) : Fin 1 → ℚ))
    (fun b => bufThread (if b then 1 else 0)) (fun _ => qpSettings) (fun _ => qpReady bufCfg qpSettings)
    (fun b => if b then fun _ => 0 else fun _ => 5) (fun _ => 0) (fun _ => Fin.elim0)

end Demo

theorem prog_ret_of_check {L : Type} {V : L → Type} {R : Type} (p : Prog L V R) (chk : R → Bool)
    (h : (match p with | .ret r => chk r | _ => false) = true) : ∃ r, p = .ret r ∧ chk r = true := by
  cases p with
  | ret r => exact ⟨r, rfl, h⟩
  | read l k => cases h
  | write l v k => cases h

theorem solves_fuel {I X K : Type} {H : I → Type} {n m : I → ℕ} [Field K] [LinearOrder K] [IsStrictOrderedRing K]
    (mem : ∀ l, SharedVal X K l) (T : ∀ i, ThreadCtx X K (H i) (n i) (m i)) (S : I → Settings K) (st : ∀ i, St X K (H i) (m i))
    (x0 : I → X) (k : I → ℕ) (lams0 : ∀ i, Fin (k i) → K) :
    Machine.solves mem T S st x0 k lams0 =
      { mem := mem, threads := fun i => solveProgF (T i) (S i) (st i) (x0 i) (k i) (lams0 i) } := by
  unfold Machine.solves
  simp only [solveProgF_eq]

/-- at `x = 2`, `lambda = -2` the problem `min x²/2 + |x - 3|` is not certified -/
theorem l1_not_certified (x : Fin 1 → ℚ) (lam : Fin 1 → ℚ) (h2 : x 0 = 2) (h3 : lam 0 = -2) :
    ¬ Spec.Certified (concreteCtx (Demo.l1Cfg .classic)) (1 / 100) (1 / 1000) x lam := by
  rintro ⟨f, c, hc, hpr, -⟩
  have hc0 : c 0 = -1 := by
    have : (concreteCtx (Demo.l1Cfg .classic)).eval x = some (Demo.l1Qp.cost x, Demo.l1Qp.residual x) := rfl
    rw [this] at hc
    injection hc with hc
    injection hc with _ hc
    rw [← hc]
    simp [Spec.Qp.residual, Demo.l1Qp, h2]
    norm_num
  have := hpr 0
  have e : (concreteCtx (Demo.l1Cfg .classic)).sets.projection (1 / 100 : ℚ) (fun j => c j + 1 / 100 * lam j) 0 =
      signK (c 0 + 1 / 100 * lam 0) * max (|c 0 + 1 / 100 * lam 0| - 1 / 100) 0 := rfl
  rw [e, hc0, h3] at this
  revert this
  decide +kernel

/-- **C109 is false for one problem**: two threads solve `min x²/2 + |x - 3|` (minimiser 1) with solvers of one problem object. Besides
the data race there is a schedule of whole accesses under which the first solver, which alone returns SUCCESS at `x = 1`, returns SUCCESS at
`x = 2`, a point and multipliers that C13 does not certify. -/
theorem C109_shared_problem_false : Spec.HasRace Demo.sharedL1 ∧
    (∃ st', solve (concreteCtx (Demo.l1Cfg .classic)) (Demo.l1Settings .classic) Demo.l1Ready (fun _ => 5) 1 (fun _ => 0) = .ok st' ∧
      st'.converged = .success ∧ st'.xOpt 0 = 1) ∧
    ∃ s st', (Demo.sharedL1.run s).threads false = .ret (.ok st') ∧ st'.converged = .success ∧ st'.xOpt 0 = 2 ∧
      ¬ Spec.Certified (concreteCtx (Demo.l1Cfg .classic)) st'.resMu (1 / 1000) st'.xOpt st'.lamsOpt := by
  refine ⟨?_, C97_nested_false.1, ?_⟩
  · exact C109_shared_problem_races (H := fun _ => Hidden ℚ 1 1) (n := fun _ => 1) (m := fun _ => 1) _ _ _ _ _ _ _ false true
      (by decide) rfl (by decide) (by decide) rfl rfl
  · obtain ⟨r, hr, hc⟩ := prog_ret_of_check ((Demo.sharedL1.run ([false, false, false, true] ++ List.replicate 10 false)).threads false)
      (fun r => match r with
        | .ok st => decide (st.converged = .success ∧ st.xOpt 0 = 2 ∧ st.lamsOpt 0 = -2 ∧ st.resMu = 1 / 100)
        | .error _ => false)
      (by unfold Demo.sharedL1; rw [solves_fuel]; decide +kernel)
    cases r with
    | error e => cases hc
    | ok st =>
      obtain ⟨h1, h2, h3, h4⟩ := of_decide_eq_true hc
      refine ⟨_, st, hr, h1, h2, ?_⟩
      rw [h4]
      exact l1_not_certified _ _ h2 h3

/-- **C109 is false for copies of a problem**: two threads solve `min x²/2` with solvers that have each its own copy of the problem; the
cost is a quadratic residual cost, which the copies share. Besides the data race there is a schedule of whole accesses under which the first
solver returns SUCCESS at its starting point `x = 5`, where the gradient is 5 (the minimiser, which it returns when it runs alone, is 0). -/
theorem C109_copied_problem_false : Spec.HasRace Demo.copiedSq ∧
    (∃ st', solve (Demo.bufThread 0).P Demo.qpSettings (Demo.qpReady Demo.bufCfg Demo.qpSettings) (fun _ => 5) 0 Fin.elim0 = .ok st' ∧
      st'.converged = .success ∧ st'.xOpt 0 = 0) ∧
    (Demo.bufThread 0).P.grad (fun _ => 5) 0 = 5 ∧
    ∃ s st', (Demo.copiedSq.run s).threads false = .ret (.ok st') ∧ st'.converged = .success ∧ st'.xOpt 0 = 5 := by
  refine ⟨?_, ?_, by decide +kernel, ?_⟩
  · exact C109_shared_cost_races (H := fun _ => Hidden ℚ 1 0) (n := fun _ => 1) (m := fun _ => 0) _ _ _ _ _ _ _ false true
      (by decide) 7 rfl rfl rfl rfl ⟨by decide, by decide⟩ ⟨by decide, by decide⟩
  · obtain ⟨st', h, hp⟩ := checkSolve_sound (Demo.bufThread 0).P Demo.qpSettings 20 (Demo.qpReady Demo.bufCfg Demo.qpSettings)
      (fun _ => 5) 0 Fin.elim0 (fun s => decide (s.converged = .success ∧ s.xOpt 0 = 0)) (by decide +kernel)
    exact ⟨st', h, of_decide_eq_true hp⟩
  · obtain ⟨r, hr, hc⟩ := prog_ret_of_check ((Demo.copiedSq.run [false, true, false]).threads false)
      (fun r => match r with
        | .ok st => decide (st.converged = .success ∧ st.xOpt 0 = 5)
        | .error _ => false)
      (by unfold Demo.copiedSq; rw [solves_fuel]; decide +kernel)
    cases r with
    | error e => cases hc
    | ok st =>
      obtain ⟨h1, h2⟩ := of_decide_eq_true hc
      exact ⟨_, st, hr, h1, h2⟩

/-- a quadratic residual cost keeps its buffer in order in a program without threads -/
theorem ofQuad_bufferOk {X K H : Type} {n m p : ℕ} [Field K] [LinearOrder K] (P : Ctx X K H n m) (q : QuadCost X K n p)
    (problem c : ℕ) : Spec.BufferOk (ThreadCtx.ofQuad P q problem c) := fun _ => rfl

namespace Demo

/-- three threads: two with copies of `min x²/2 + |x - 3|` (the cost of which keeps no buffer), one with `min x²/2` and its quadratic
residual cost -/
def mixedThreads : ∀ i : Fin 3, ThreadCtx (Fin 1 → ℚ) ℚ (Hidden ℚ 1 (if i = 2 then 0 else 1)) 1 (if i = 2 then 0 else 1)
  | 0 => { P := concreteCtx (l1Cfg .classic), problem := 0, cost := none, gradErr := fun _ => (concreteCtx (l1Cfg .classic)).grad }
  | 1 => { P := concreteCtx (l1Cfg .classic), problem := 1, cost := none, gradErr := fun _ => (concreteCtx (l1Cfg .classic)).grad }
  | 2 => bufThread 2

end Demo

/-- non-vacuity of the positive part: those three threads are separate -/
example : Spec.SeparateProblems Demo.mixedThreads ∧ ∀ i, Spec.BufferOk (Demo.mixedThreads i) := by
  constructor
  · intro i j hij
    fin_cases i <;> fin_cases j <;> first | exact absurd rfl hij | (refine ⟨?_, ?_⟩ <;> simp [Demo.mixedThreads, Demo.bufThread, ThreadCtx.ofQuad])
  · intro i
    fin_cases i <;> intro x <;> rfl

end ProxNLP
