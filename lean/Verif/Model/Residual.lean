import Verif.Model.Sets
import Verif.Model.Math

/-!
Primal residual of one constraint block (`computePrimalResiduals`, prox-solver.hxx:250-268).
-/

namespace ProxNLP

variable {K : Type*} [Field K] [LinearOrder K]

/-- `constraint_violations(i)`: shift the constraint value by `mu * lambda`, project it in place,
subtract it from the constraint value, take the max-norm (prox-solver.hxx:254-264). -/
def violation (s : LeafSet K) (mu : K) {n : ℕ} (c lam : Fin n → K) : K :=
  let displ := s.projection mu (fun i => c i + mu * lam i)
  inftyNorm (fun i => c i - displ i)

end ProxNLP
