import Verif.Model.Console

/-!
What a solve should print (C96).
-/

namespace ProxNLP.Spec

variable {X K : Type}

/-- the table with these rows (iteration, outer iteration, merit): titles again before every 25th row -/
def table (rows : List (ℕ × ℕ × K)) : List (Line K) :=
  rows.flatMap fun r => (if r.1 % 25 = 0 then [.header] else []) ++ [.row r.1 r.2.1 r.2.2]

/-- the message for a returned flag -/
def message : Flag → List (Line K)
  | .success => [.success]
  | .maxIters => [.maxIters]
  | .uninit => []

/-- no call to `solve` was made while `verbose` was `QUIET`; the first argument is `verbose` at the start -/
def neverQuiet : Bool → List (ConsoleOp X K) → Bool
  | _, [] => true
  | _, .setVerbose b :: l => neverQuiet b l
  | v, .setup :: l => neverQuiet v l
  | v, .solve _ _ _ :: l => v && neverQuiet v l

/-- value of `verbose` after the calls -/
def verboseAfter : Bool → List (ConsoleOp X K) → Bool
  | v, [] => v
  | _, .setVerbose b :: l => verboseAfter b l
  | v, .setup :: l => verboseAfter v l
  | v, .solve _ _ _ :: l => verboseAfter v l

end ProxNLP.Spec
