import Verif.Model.Rounding
import Verif.Model.Math

/-!
`iterativeRefinement` (prox-solver.hxx:528-544) in rounded arithmetic; mirrors `refineLoop` of Model/Inertia.lean.
-/

set_option linter.unusedSectionVars false
namespace ProxNLP

variable {K : Type} [Field K] [LinearOrder K]

/-- `kkt_err = -kkt_rhs; kkt_err.noalias() -= kkt_matrix * pd_step` (prox-solver.hxx:534-535), row `i` accumulated in the order `t i`.
A subtracted product is a product with one factor negated (rounding to nearest is symmetric). -/
def flKktErr {N : ℕ} (R : Rounding K) (t : Fin N → SumTree (Fin N)) (A : Fin N → Fin N → K) (rhs step : Fin N → K) (i : Fin N) : K :=
  (t i).eval R (-rhs i) fun j => (-A i j, step j)

/-- the loop (prox-solver.hxx:533-542), `k` passes left; the third component counts calls to `solveInPlace` -/
def flRefineLoop {N : ℕ} (R : Rounding K) (t : Fin N → SumTree (Fin N)) (A : Fin N → Fin N → K) (rhs : Fin N → K) (tol : K)
    (solve : (Fin N → K) → Fin N → K) : ℕ → (Fin N → K) → ℕ → Bool × (Fin N → K) × ℕ
  | 0, step, cnt => (false, step, cnt)
  | k + 1, step, cnt =>
    if inftyNorm (flKktErr R t A rhs step) < tol then (true, step, cnt)
    else flRefineLoop R t A rhs tol solve k (fun i => R.rnd (step i + solve (flKktErr R t A rhs step) i)) (cnt + 1)

/-- `iterativeRefinement` (prox-solver.hxx:528-544); `solve` is the computed `solveInPlace` of the current factorisation -/
def flRefine {N : ℕ} (R : Rounding K) (t : Fin N → SumTree (Fin N)) (A : Fin N → Fin N → K) (rhs : Fin N → K) (tol : K)
    (solve : (Fin N → K) → Fin N → K) (maxSteps : ℕ) : Bool × (Fin N → K) × ℕ :=
  flRefineLoop R t A rhs tol solve maxSteps (solve fun i => -rhs i) 1

end ProxNLP
