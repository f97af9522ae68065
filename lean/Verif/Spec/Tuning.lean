import Verif.Model.Tuning

/-!
What the settings of a solver are after a history of operations on it, read off the history.
-/

namespace ProxNLP.Spec

variable {X K A : Type} {n m : ℕ}

/-- The value last assigned by the operations, `d` if there is none. -/
def lastAssigned (get : TuneOp X K n m → Option A) (d : A) (ops : List (TuneOp X K n m)) : A :=
  (ops.filterMap get).getLast?.getD d

/-- The operation is a call of `setup()`. -/
def isSetup : TuneOp X K n m → Bool
  | .setup => true
  | _ => false

/-- `setup()` was called. -/
def wasSetup (ops : List (TuneOp X K n m)) : Bool := ops.any isSetup

/-- The part of the history before the last `setup()`. -/
def beforeLastSetup : List (TuneOp X K n m) → List (TuneOp X K n m)
  | [] => []
  | op :: ops => if wasSetup ops then op :: beforeLastSetup ops else []

/-- Callbacks registered since the last `clear_callbacks()`. -/
def callbacksAfter (ops : List (TuneOp X K n m)) : List ℕ :=
  ops.foldl (fun l op => match op with | .registerCallback cb => l ++ [cb] | .clearCallbacks => [] | _ => l) []

/-- Settings after a history: what was last assigned to each, else the value at construction. -/
def settingsAfter (S : Settings K) (ops : List (TuneOp X K n m)) : Settings K where
  targetTol := lastAssigned (fun | .targetTol v => some v | _ => none) S.targetTol ops
  muInit := lastAssigned (fun | .muInit v => some v | _ => none) S.muInit ops
  rhoInit := lastAssigned (fun | .rhoInit v => some v | _ => none) S.rhoInit ops
  muLower := lastAssigned (fun | .muLower v => some v | _ => none) S.muLower ops
  muUpper := lastAssigned (fun | .muUpper v => some v | _ => none) S.muUpper ops
  innerTol0 := lastAssigned (fun | .innerTol0 v => some v | _ => none) S.innerTol0 ops
  primTol0 := lastAssigned (fun | .primTol0 v => some v | _ => none) S.primTol0 ops
  innerTolMin := lastAssigned (fun | .innerTolMin v => some v | _ => none) S.innerTolMin ops
  pdalBeta := lastAssigned (fun | .setDualPenalty v => some v | _ => none) S.pdalBeta ops
  primAlpha := lastAssigned (fun | .primAlpha v => some v | _ => none) S.primAlpha ops
  primBeta := lastAssigned (fun | .primBeta v => some v | _ => none) S.primBeta ops
  dualAlpha := lastAssigned (fun | .dualAlpha v => some v | _ => none) S.dualAlpha ops
  dualBeta := lastAssigned (fun | .dualBeta v => some v | _ => none) S.dualBeta ops
  muUpdateFactor := lastAssigned (fun | .muFactor v => some v | _ => none) S.muUpdateFactor ops
  rhoUpdateFactor := lastAssigned (fun | .rhoFactor v => some v | _ => none) S.rhoUpdateFactor ops
  maxIters := lastAssigned (fun | .maxIters v => some v | _ => none) S.maxIters ops
  maxAlIters := lastAssigned (fun | .maxAlIters v => some v | _ => none) S.maxAlIters ops
  mode := lastAssigned (fun | .mulMode v => some v | _ => none) S.mode ops
  kkt := lastAssigned (fun | .kktSystem v => some v | _ => none) S.kkt ops
  pow := S.pow

/-- The linear solver last chosen. -/
def choiceAfter (b : Backend K n m) (ops : List (TuneOp X K n m)) : Backend K n m :=
  lastAssigned (fun | .ldltChoice v => some v | _ => none) b ops

/-- The other settings, and the same problem; `b`: the linear solver chosen at construction. The linear solver in use is the one chosen
before the last `setup()`. -/
def configAfter (C : StepCfg X K n m) (b : Backend K n m) (ops : List (TuneOp X K n m)) : StepCfg X K n m :=
  { C with
    approx := lastAssigned (fun | .hessApprox v => some v | _ => none) C.approx ops
    kkt := lastAssigned (fun | .kktSystem v => some v | _ => none) C.kkt ops
    beta := lastAssigned (fun | .setDualPenalty v => some v | _ => none) C.beta ops
    inertia := lastAssigned (fun | .inertia v => some v | _ => none) C.inertia ops
    refineTol := lastAssigned (fun | .kktTolerance v => some v | _ => none) C.refineTol ops
    refineSteps := lastAssigned (fun | .maxRefinementSteps v => some v | _ => none) C.refineSteps ops
    ls := lastAssigned (fun | .lsOptions v => some v | _ => none) C.ls ops
    backend := if wasSetup ops then choiceAfter b (beforeLastSetup ops) else C.backend }

end ProxNLP.Spec
