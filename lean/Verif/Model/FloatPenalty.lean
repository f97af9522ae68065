import Verif.Model.FloatSolver

/-!
The updates of the penalty parameter and of the tolerances in rounded arithmetic; they fill the fields `nextMu`, `tolSuccess` and
`tolFailure` that `Model/FloatSolver.lean` leaves open.  `S.pow` is `std::pow` as computed: nothing is assumed of its accuracy.
-/

namespace ProxNLP

variable {X K H : Type} {n m : ℕ} [Field K] [LinearOrder K]

/-- `updatePenalty` (prox-solver.hxx:270-276): the new value of `mu_` -/
def flNextMu (R : Rounding K) (S : Settings K) (mu : K) : K :=
  if mu = S.muLower then S.muInit else max (R.rnd (mu * S.muUpdateFactor)) S.muLower

/-- `tolerancePostUpdate` (prox-solver.hxx:579-582); the pair is (inner, primal) -/
def flPostUpdate (S : Settings K) (t : K × K) : K × K := (max t.1 S.innerTolMin, max t.2 S.targetTol)

/-- `updateToleranceFailure` (prox-solver.hxx:564-569) -/
def flTolFailure (R : Rounding K) (S : Settings K) (mu : K) : K × K :=
  flPostUpdate S (R.rnd (S.innerTol0 * S.pow mu S.dualAlpha), R.rnd (S.primTol0 * S.pow mu S.primAlpha))

/-- `updateToleranceSuccess` (prox-solver.hxx:571-576) -/
def flTolSuccess (R : Rounding K) (S : Settings K) (mu : K) (t : K × K) : K × K :=
  flPostUpdate S (R.rnd (t.1 * S.pow (R.rnd (mu / S.muUpper)) S.dualBeta), R.rnd (t.2 * S.pow (R.rnd (mu / S.muUpper)) S.primBeta))

/-- the solver of `Model/FloatSolver.lean` with these updates (prox-solver.hxx:270-276, 564-582) -/
def FlCtx.withUpdates (R : Rounding K) (S : Settings K) (P : FlCtx X K H n m) : FlCtx X K H n m :=
  { P with nextMu := flNextMu R S, tolSuccess := flTolSuccess R S, tolFailure := flTolFailure R S }

end ProxNLP
