import Verif.Model.Rounding
import Verif.Model.Linesearch
import Verif.Model.ExtSolver

/-!
The line search in floating-point arithmetic: every operation rounds, and the merit function may return NaN or an infinity.

`Model/Linesearch.lean` computes exactly.  Here the interpolation is left open: whatever `minimize_interpolant` computes before its
safeguard, and whatever the comparison of the two end values gives, are parameters.  No overflow of finite values.
-/

namespace ProxNLP

open ExtScalar

variable {K : Type} [Field K] [LinearOrder K]

/-- `FunctionSample` (linesearch-base.hpp:45-53) with a value that may be NaN or infinite -/
structure FlSample (K : Type) where
  alpha : K
  phi : ExtScalar K
  valid : Bool

/-- `FunctionSample()` (linesearch-base.hpp:50) -/
def FlSample.default : FlSample K := ⟨0, fin 0, false⟩

/-- rounding of the result of an operation (the operations of linesearch-armijo.hpp:59-222 in
`double`) -/
def ExtScalar.rnd (R : Rounding K) : ExtScalar K → ExtScalar K
  | fin x => fin (R.rnd x)
  | x => x

/-- The open part of `minimize_interpolant` (linesearch-armijo.hpp:150-222, 210-212), as functions of the value and slope at 0, the
latest and the previous sample and the two limits: the candidate `anext` and the outcome of `pleft < pright`. -/
structure FlInterp (K : Type) where
  raw : ExtScalar K → ExtScalar K → FlSample K → FlSample K → K → K → ExtScalar K
  left : ExtScalar K → ExtScalar K → FlSample K → FlSample K → K → K → Bool

/-- The safeguard (linesearch-armijo.hpp:210-219); `none` is NaN, which fails both comparisons. -/
def flSafeguard (lo hi : K) (left : Bool) : ExtScalar K → Option K
  | nan => none
  | posInf => some (if left then lo else hi)
  | negInf => some (if left then lo else hi)
  | fin a => if hi < a ∨ a < lo then some (if left then lo else hi) else some a

/-- Choice of the next trial step (linesearch-armijo.hpp:93-132). -/
def flNextAlpha (R : Rounding K) (I : FlInterp K) (o : LSOptions K) (phi0 dphi0 : ExtScalar K) (alpha : K) (latest previous : FlSample K) : K :=
  let lo := R.rnd (o.contractionMin * alpha)
  let hi := R.rnd (o.contractionMax * alpha)
  let cand := match o.interp with
    | .bisection => some (R.rnd (alpha * (1 / 2)))
    | _ => flSafeguard lo hi (I.left phi0 dphi0 latest previous lo hi) (I.raw phi0 dphi0 latest previous lo hi)
  match cand with
  | none => R.rnd (o.contractionMin * previous.alpha)
  | some a => max a o.alphaMin

/-- Result of a run: step, returned value, steps at which `phi` was called (last first) in the two
phases. results of linesearch-armijo.hpp:59-222. -/
structure FlLsResult (K : Type) where
  alpha : K
  ret : ExtScalar K
  trace0 : List K
  trace : List K

/-- First phase (linesearch-armijo.hpp:63-79); `none`: fuel exhausted. -/
def flFirst (R : Rounding K) (phi : K → Option (ExtScalar K)) (alphaMin : K) : ℕ → K → List K → Option (K × FlSample K × List K)
  | 0, _, _ => none
  | fuel + 1, alpha, tr =>
    match phi alpha with
    | some v => some (alpha, ⟨alpha, v, true⟩, alpha :: tr)
    | none =>
      let a := R.rnd (alpha * (1 / 2))
      if a ≤ alphaMin then some (alphaMin, FlSample.default, alpha :: tr)
      else flFirst R phi alphaMin fuel a (alpha :: tr)

/-- The test `dM <= armijo_c1 * alpha_try * dphi0` as computed (linesearch-armijo.hpp:88-91). -/
def flArmijo (R : Rounding K) (o : LSOptions K) (phi0 dphi0 : ExtScalar K) (alpha : K) (v : ExtScalar K) : Bool :=
  le (ExtScalar.rnd R (v - phi0)) (ExtScalar.rnd R (fin (R.rnd (o.armijoC1 * alpha)) * dphi0))

/-- Main loop and end of `run` (linesearch-armijo.hpp:86-146), `k` passes left. -/
def flLoop (R : Rounding K) (I : FlInterp K) (phi : K → Option (ExtScalar K)) (o : LSOptions K) (phi0 dphi0 : ExtScalar K) (tr0 : List K) :
    ℕ → K → FlSample K → FlSample K → List K → FlLsResult K
  | 0, alpha, latest, _, tr => ⟨max alpha o.alphaMin, latest.phi, tr0, tr⟩
  | k + 1, alpha, latest, previous, tr =>
    if flArmijo R o phi0 dphi0 alpha latest.phi = true then ⟨max alpha o.alphaMin, latest.phi, tr0, tr⟩
    else
      let a := flNextAlpha R I o phi0 dphi0 alpha latest previous
      match phi a with
      | none => flLoop R I phi o phi0 dphi0 tr0 k a latest latest (a :: tr)
      | some v =>
        if a ≤ o.alphaMin then ⟨max a o.alphaMin, v, tr0, a :: tr⟩
        else flLoop R I phi o phi0 dphi0 tr0 k a ⟨a, v, true⟩ latest (a :: tr)

/-- `ArmijoLinesearch::run` (linesearch-armijo.hpp:59-147); `none`: fuel of the first phase exhausted. -/
def flLsRun (R : Rounding K) (I : FlInterp K) (phi : K → Option (ExtScalar K)) (o : LSOptions K) (phi0 dphi0 : ExtScalar K) (fuel : ℕ) :
    Option (FlLsResult K) :=
  match flFirst R phi o.alphaMin fuel 1 [] with
  | none => none
  | some (alpha, latest, tr) =>
    if lt (ExtScalar.abs dphi0) (fin o.dphiThresh) = true then some ⟨alpha, latest.phi, tr, []⟩
    else some (flLoop R I phi o phi0 dphi0 tr o.maxNumSteps alpha latest FlSample.default [])

end ProxNLP
