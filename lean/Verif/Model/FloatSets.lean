import Verif.Model.FloatSolver

/-!
The set operators and the multiplier estimates in rounded arithmetic.

The projections are `LeafSet.flProjAt` (Model/FloatSolver.lean); the flags of `computeActiveSet` are comparisons of stored numbers and
therefore `LeafSet.activeAt` itself.  No overflow: all numbers are finite.
-/

namespace ProxNLP

variable {K : Type} [Field K] [LinearOrder K]

/-- One coordinate of `normalConeProjection` in rounded arithmetic (equality-constraint.hpp:38-41, negative-orthant.hpp:36-38,
box-constraint.hpp:36-38, l1-penalty.hpp:45-47): the last two subtract the projection from the point, with one rounding (a fused
operation gives the same, because the product with the sign is exact). -/
def LeafSet.flNormalAt (R : Rounding K) (s : LeafSet K) (mu : K) (i : ℕ) (z : K) : K :=
  match s with
  | .equality => z
  | .negOrthant => max z 0
  | .box lo hi => R.rnd (z - max (min z (hi i)) (lo i))
  | .l1 => R.rnd (z - signK z * max (R.rnd (|z| - mu)) 0)

/-- `mu_inv_ = 1. / mu_` (prox-solver.hpp:96, prox-solver.hxx:549) -/
def flMuInv (R : Rounding K) (mu : K) : K := R.rnd (1 / mu)

/-- one entry of `data_lams_plus` (prox-solver.hxx:173-182): shift, projection on the normal cone, product with `mu_inv_` -/
def flLamPlus (R : Rounding K) (leaf : LeafSet K × ℕ) (fused : Bool) (mu c lamPrev : K) : K :=
  R.rnd (flMuInv R mu * leaf.1.flNormalAt R mu leaf.2 (flShift R fused mu c lamPrev))

/-- one entry of `data_shift_cstr_pdal` (prox-solver.hxx:185-186): `shift - 0.5 * mu_ * lam`, the last product possibly fused with the
subtraction -/
def flShiftPdal (R : Rounding K) (fused : Bool) (mu lam shift : K) : K :=
  if fused then R.rnd (shift - R.rnd (1 / 2 * mu) * lam) else R.rnd (shift - R.rnd (R.rnd (1 / 2 * mu) * lam))

/-- one entry of `data_lams_pdal` (prox-solver.hxx:185-192) -/
def flLamPdal (R : Rounding K) (leaf : LeafSet K × ℕ) (fused fused' : Bool) (mu beta c lamPrev lam : K) : K :=
  R.rnd (leaf.1.flNormalAt R mu leaf.2 (flShiftPdal R fused' mu lam (flShift R fused mu c lamPrev)) * R.rnd (flMuInv R mu / beta))

end ProxNLP
