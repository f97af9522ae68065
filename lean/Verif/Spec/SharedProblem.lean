import Verif.Model.SharedProblem

/-! Specification for C97: a solver that is the only user of its problem, callbacks that leave the problem alone, and constraint sets
that are plain sets. -/

namespace ProxNLP.Spec

variable {X K H E : Type} {n m : ℕ} [Field K] [LinearOrder K]

/-- The calls made on one solver, when no other solver uses the problem. -/
def soloRun (P : Ctx X K H n m) (S : Settings K) (st : St X K H m) : List (SolveCall X K) → Except String (St X K H m)
  | [] => .ok st
  | c :: cs =>
    match solve P S st c.x0 c.k c.lams0 with
    | .error e => .error e
    | .ok st' => soloRun P S st' cs

/-- The projections do not depend on the proximal parameter: true of sets (equality, inequality, box), false of the L1 penalty. -/
def PlainSets (sets : StackedSet K m) : Prop := ∀ mu mu' z, sets.projection mu z = sets.projection mu' z

/-- Callbacks that, when they return, have not changed the parameter of the constraint sets. -/
def LeavesSets (cb : CbEffect X K H E m) : Prop := ∀ e st e' sm, cb e st = .ok (e', sm) → sm = st.setMu

end ProxNLP.Spec
