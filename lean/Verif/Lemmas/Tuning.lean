import Verif.Spec.Tuning
import Verif.Props.SolverHistory
import Verif.Props.StepHistory

/-!
Lemmas for C119.
-/

set_option linter.unusedSectionVars false
namespace ProxNLP

open Spec

section
variable {X K A : Type} {n m : ℕ}

theorem lastAssigned_snoc (get : TuneOp X K n m → Option A) (d : A) (ops : List (TuneOp X K n m)) (op : TuneOp X K n m) :
    lastAssigned get d (ops ++ [op]) = (get op).getD (lastAssigned get d ops) := by
  unfold lastAssigned
  rw [List.filterMap_append]
  cases h : get op with
  | none => simp [h]
  | some v => simp [h]

theorem wasSetup_snoc (ops : List (TuneOp X K n m)) (op : TuneOp X K n m) :
    wasSetup (ops ++ [op]) = (wasSetup ops || isSetup op) := by
  unfold wasSetup
  rw [List.any_append, List.any_cons, List.any_nil, Bool.or_false]

theorem wasSetup_other (ops : List (TuneOp X K n m)) (op : TuneOp X K n m) (h : op ≠ .setup) :
    wasSetup (ops ++ [op]) = wasSetup ops := by
  have h' : isSetup op = false := by cases op <;> first | rfl | exact absurd rfl h
  rw [wasSetup_snoc, h', Bool.or_false]

theorem beforeLastSetup_setup (ops : List (TuneOp X K n m)) : beforeLastSetup (ops ++ [.setup]) = ops := by
  induction ops with
  | nil => rfl
  | cons a l ih =>
    rw [List.cons_append, beforeLastSetup, wasSetup_snoc, isSetup, Bool.or_true, if_pos rfl, ih]

theorem beforeLastSetup_other (ops : List (TuneOp X K n m)) (op : TuneOp X K n m) (h : op ≠ .setup) :
    beforeLastSetup (ops ++ [op]) = beforeLastSetup ops := by
  have h' : isSetup op = false := by cases op <;> first | rfl | exact absurd rfl h
  induction ops with
  | nil => rfl
  | cons a l ih => rw [List.cons_append, beforeLastSetup, beforeLastSetup, wasSetup_snoc, h', Bool.or_false, ih]

theorem callbacksAfter_snoc (ops : List (TuneOp X K n m)) (op : TuneOp X K n m) :
    callbacksAfter (ops ++ [op]) =
      match op with | .registerCallback cb => callbacksAfter ops ++ [cb] | .clearCallbacks => [] | _ => callbacksAfter ops := by
  unfold callbacksAfter
  rw [List.foldl_append]
  rfl

end

variable {X K : Type} {n m : ℕ} [Field K] [LinearOrder K] [IsStrictOrderedRing K]

/-- What a history leaves in the object. -/
structure TuneInv (C : StepCfg X K n m) (S : Settings K) (b : Backend K n m) (ops : List (TuneOp X K n m))
    (o : TunedSolver X K n m) : Prop where
  set : o.set = settingsAfter S ops
  cfg : o.cfg = configAfter C b ops
  choice : o.choice = choiceAfter b ops
  ready : o.st.hasSetup = wasSetup ops
  callbacks : o.st.callbacks = callbacksAfter ops

theorem TunedSolver.solve_frame (o : TunedSolver X K n m) (x0 : X) (k : ℕ) (lams0 : Fin k → K) (s : St X K (Hidden K n m) m)
    (h : o.solve x0 k lams0 = .ok s) : s.hasSetup = o.st.hasSetup ∧ s.callbacks = o.st.callbacks := by
  unfold TunedSolver.solve at h
  split_ifs at h
  exact ProxNLP.solve_frame _ _ _ _ _ _ _ h

theorem tuneInv_step {C : StepCfg X K n m} {S : Settings K} {b : Backend K n m} {ops : List (TuneOp X K n m)}
    {o o' : TunedSolver X K n m} {op : TuneOp X K n m} (h : TuneInv C S b ops o) (hs : TunedSolver.Step o op o') :
    TuneInv C S b (ops ++ [op]) o' := by
  obtain ⟨h1, h2, h3, h4, h5⟩ := h
  cases hs with
  | assign _ hn =>
    constructor
    · cases op <;> simp only [TunedSolver.assign, TunedSolver.setup, h1, settingsAfter, lastAssigned_snoc, Option.getD_some, Option.getD_none]
    · cases op
      case setup =>
        simp only [TunedSolver.assign, TunedSolver.setup, h2, h3, configAfter, lastAssigned_snoc, Option.getD_none,
          beforeLastSetup_setup, wasSetup_snoc, isSetup, Bool.or_true, if_true]
      case solve => exact absurd rfl (hn _ _ _)
      all_goals
        simp only [TunedSolver.assign, h2, configAfter, lastAssigned_snoc, Option.getD_some, Option.getD_none]
        rw [wasSetup_other _ _ (by intro h; cases h), beforeLastSetup_other _ _ (by intro h; cases h)]
    · cases op <;> simp only [TunedSolver.assign, TunedSolver.setup, h3, choiceAfter, lastAssigned_snoc, Option.getD_some, Option.getD_none]
    · cases op <;> simp only [TunedSolver.assign, TunedSolver.setup, wasSetup_snoc, isSetup, Bool.or_false, Bool.or_true, ProxNLP.setup,
        setPenalty, setProxParameter, registerCallback, clearCallbacks, h4]
    · cases op <;> simp only [TunedSolver.assign, TunedSolver.setup, callbacksAfter_snoc, ProxNLP.setup,
        setPenalty, setProxParameter, registerCallback, clearCallbacks, h5]
  | returned x0 k lams0 s hs =>
    obtain ⟨e1, e2⟩ := TunedSolver.solve_frame o x0 k lams0 s hs
    refine ⟨?_, ?_, ?_, ?_, ?_⟩
    · simp only [h1, settingsAfter, lastAssigned_snoc, Option.getD_none]
    · simp only [h2, configAfter, lastAssigned_snoc, Option.getD_none]
      rw [wasSetup_other _ _ (by intro h; cases h), beforeLastSetup_other _ _ (by intro h; cases h)]
    · simp only [h3, choiceAfter, lastAssigned_snoc, Option.getD_none]
    · rw [wasSetup_other _ _ (by intro h; cases h), ← h4]; exact e1
    · simp only [e2, h5, callbacksAfter_snoc]
  | thrown x0 k lams0 e s hs e1 e2 =>
    refine ⟨?_, ?_, ?_, ?_, ?_⟩
    · simp only [h1, settingsAfter, lastAssigned_snoc, Option.getD_none]
    · simp only [h2, configAfter, lastAssigned_snoc, Option.getD_none]
      rw [wasSetup_other _ _ (by intro h; cases h), beforeLastSetup_other _ _ (by intro h; cases h)]
    · simp only [h3, choiceAfter, lastAssigned_snoc, Option.getD_none]
    · rw [wasSetup_other _ _ (by intro h; cases h), ← h4]; exact e1
    · simp only [e2, h5, callbacksAfter_snoc]

theorem tuneInv_runs {C : StepCfg X K n m} {S : Settings K} {b : Backend K n m} {ops : List (TuneOp X K n m)}
    {o o' : TunedSolver X K n m} (h : TunedSolver.Runs o ops o') (ho : o = TunedSolver.new C S b) : TuneInv C S b ops o' := by
  induction h with
  | nil =>
    subst ho
    exact ⟨rfl, rfl, rfl, rfl, rfl⟩
  | snoc _ hs ih => exact tuneInv_step ih hs

end ProxNLP
