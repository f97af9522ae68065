import Mathlib.Algebra.Order.Field.Basic
import Mathlib.Algebra.Order.Field.Rat

/-!
Model of the Armijo line search (linesearch-base.hpp, linesearch-armijo.hpp).

Scalars are an ordered field; the only non-finite values that can occur (division by zero and the square root of a
negative number in the interpolation) are modelled by the explicit outcomes of `Cand`.  The merit function is
`K → Option K`, `none` meaning that the call raised a `std::runtime_error`.
-/

namespace ProxNLP

/-- `LSInterpolation` (linesearch-base.hpp:12). -/
inductive LSInterp where
  | bisection | quadratic | cubic
  deriving DecidableEq, Repr

/-- `Linesearch::Options` (linesearch-base.hpp:18-31); `wolfe_c2` is not used by the Armijo search. -/
structure LSOptions (K : Type) where
  armijoC1 : K
  dphiThresh : K
  alphaMin : K
  maxNumSteps : ℕ
  interp : LSInterp
  contractionMin : K
  contractionMax : K

/-- `FunctionSample` (linesearch-base.hpp:45-53); the field `dphi` is only read for the sample at 0 and is passed
separately. -/
structure LSSample (K : Type) where
  alpha : K
  phi : K
  valid : Bool
  deriving DecidableEq

variable {K : Type} [Field K] [LinearOrder K]

/-- `FunctionSample()` (linesearch-base.hpp:50). -/
def LSSample.default : LSSample K := ⟨0, 0, false⟩

/-- `FunctionSample(a, v)` (linesearch-base.hpp:51). -/
def LSSample.mk' (a v : K) : LSSample K := ⟨a, v, true⟩

/-- `PolynomialTpl::evaluate` (linesearch-armijo.hpp:24-30). -/
def polyEvaluate (coeffs : List K) (a : K) : K := coeffs.foldl (fun r c => r * a + c) 0

/-- The loop of `derivative()` (linesearch-armijo.hpp:36-38), coefficients from index `i` on, the last one left
out. -/
def polyDerivLoop (degree : ℕ) : ℕ → List K → List K
  | _, [] => []
  | _, [_] => []
  | i, c :: d :: t => c * ((degree : K) - (i : K)) :: polyDerivLoop degree (i + 1) (d :: t)

/-- `PolynomialTpl::derivative` (linesearch-armijo.hpp:31-40); `none`: no coefficients, `VectorXs out(-1)` is
undefined. -/
def polyDerivative (coeffs : List K) : Option (List K) :=
  if coeffs.length = 0 then none
  else if coeffs.length - 1 = 0 then some [0]
  else some (polyDerivLoop (coeffs.length - 1) 0 coeffs)

/-- Value of `anext` before the safeguard: finite, infinite or not a number.
linesearch-armijo.hpp:152-221. -/
inductive Cand (K : Type) where
  | fin (a : K) | inf | nan

/-- The safeguard (linesearch-armijo.hpp:210-219): an infinite or out-of-range candidate is replaced by the better
end of the interval, a NaN one passes all comparisons unchanged (`none`). -/
def safeguard (coeffs : List K) (lo hi : K) : Cand K → Option K
  | .nan => none
  | .inf => some (if polyEvaluate coeffs lo < polyEvaluate coeffs hi then lo else hi)
  | .fin a =>
    if hi < a ∨ a < lo then
      some (if polyEvaluate coeffs lo < polyEvaluate coeffs hi then lo else hi)
    else some a

/-- Coefficients of the quadratic interpolant (linesearch-armijo.hpp:167-171), for a candidate at a nonzero
step. -/
def quadCoeffs (phi0 dphi0 : K) (c0 : LSSample K) : List K :=
  [(c0.phi - phi0 - c0.alpha * dphi0) / (c0.alpha * c0.alpha), dphi0, phi0]

/-- QUADRATIC case of `minimize_interpolant` (linesearch-armijo.hpp:165-174, 208-221).  With a candidate at step 0
(the default sample, all trials threw) the leading coefficient is `x/0`: NaN if `x = 0`, else infinite, and then
`anext` is a zero below the interval, both end values are the same infinity and the right end is chosen. -/
def minimizeQuad (phi0 dphi0 : K) (c0 : LSSample K) (lo hi : K) : Option K :=
  if c0.alpha = 0 then
    if c0.phi - phi0 - c0.alpha * dphi0 = 0 then none else some hi
  else
    let a := (c0.phi - phi0 - c0.alpha * dphi0) / (c0.alpha * c0.alpha)
    safeguard (quadCoeffs phi0 dphi0 c0) lo hi
      (if 2 * a = 0 then (if -dphi0 = 0 then .nan else .inf) else .fin (-dphi0 / (2 * a)))

/-- Coefficients `(c3, c2)` of the cubic interpolant (linesearch-armijo.hpp:178-199): solution of the 2x2 system
with rows `(a0³, a0²)`, `(a1³, a1²)` and, as in the code, right-hand side entries taken from the *other*
candidate.  Only for a nonsingular system. -/
def cubicCoeffs (phi0 dphi0 : K) (c0 c1 : LSSample K) : K × K :=
  let a0 := c0.alpha
  let a1 := c1.alpha
  let m00 := a0 * a0 * a0
  let m01 := a0 * a0
  let m10 := a1 * a1 * a1
  let m11 := a1 * a1
  let r0 := c1.phi - phi0 - dphi0 * a1
  let r1 := c0.phi - phi0 - dphi0 * a0
  let det := m00 * m11 - m01 * m10
  ((r0 * m11 - m01 * r1) / det, (m00 * r1 - r0 * m10) / det)

/-- CUBIC case of `minimize_interpolant` (linesearch-armijo.hpp:176-205).  `sqrt` is `std::sqrt` on nonnegative
numbers; `sing` is the result when the 2x2 system is singular (Householder QR then divides by zero or by rounding
noise; nothing is assumed of it here). -/
def minimizeCubic (sqrt : K → K) (sing : LSSample K → LSSample K → K → K → Option K) (phi0 dphi0 : K)
    (c0 c1 : LSSample K) (lo hi : K) : Option K :=
  let a0 := c0.alpha
  let a1 := c1.alpha
  if a0 * a0 * a0 * (a1 * a1) - a0 * a0 * (a1 * a1 * a1) = 0 then sing c0 c1 lo hi
  else
    let c3 := (cubicCoeffs phi0 dphi0 c0 c1).1
    let c2 := (cubicCoeffs phi0 dphi0 c0 c1).2
    let disc := c2 * c2 - 3 * c3 * dphi0
    safeguard [c3, c2, dphi0, phi0] lo hi
      (if disc < 0 then .nan
       else if 3 * c3 = 0 then (if -c2 + sqrt disc = 0 then .nan else .inf)
       else .fin ((-c2 + sqrt disc) / (3 * c3)))

/-- Result of a run: the output `alpha_try`, the returned value, the steps at which `phi` was called (last first) in
the first phase and in the main loop, and whether the main loop was left by the iteration count.
linesearch-armijo.hpp:59-150. -/
structure LSResult (K : Type) where
  alpha : K
  ret : K
  trace0 : List K
  trace : List K
  exhausted : Bool

/-- First phase: halve until `phi` does not throw (linesearch-armijo.hpp:63-79); `none`: fuel exhausted. -/
def lsFirst (phi : K → Option K) (alphaMin : K) : ℕ → K → List K → Option (K × LSSample K × List K)
  | 0, _, _ => none
  | fuel + 1, alpha, tr =>
    match phi alpha with
    | some v => some (alpha, LSSample.mk' alpha v, alpha :: tr)
    | none =>
      let a := alpha * (1 / 2)
      if a ≤ alphaMin then some (alphaMin, LSSample.default, alpha :: tr)
      else lsFirst phi alphaMin fuel a (alpha :: tr)

/-- Choice of the next trial step (linesearch-armijo.hpp:93-132). -/
def lsNextAlpha (sqrt : K → K) (sing : LSSample K → LSSample K → K → K → Option K) (o : LSOptions K)
    (phi0 dphi0 alpha : K) (latest previous : LSSample K) : K :=
  let cand := match o.interp with
    | .bisection => some (alpha * (1 / 2))
    | .quadratic =>
      minimizeQuad phi0 dphi0 latest (o.contractionMin * alpha) (o.contractionMax * alpha)
    | .cubic =>
      if previous.valid then
        minimizeCubic sqrt sing phi0 dphi0 latest previous (o.contractionMin * alpha) (o.contractionMax * alpha)
      else minimizeQuad phi0 dphi0 latest (o.contractionMin * alpha) (o.contractionMax * alpha)
  match cand with
  | none => o.contractionMin * previous.alpha
  | some a => max a o.alphaMin

/-- Main loop and end of `run` (linesearch-armijo.hpp:86-146), `k` passes left. -/
def lsLoop (sqrt : K → K) (sing : LSSample K → LSSample K → K → K → Option K) (phi : K → Option K)
    (o : LSOptions K) (phi0 dphi0 : K) (tr0 : List K) :
    ℕ → K → LSSample K → LSSample K → List K → LSResult K
  | 0, alpha, latest, _, tr => ⟨max alpha o.alphaMin, latest.phi, tr0, tr, true⟩
  | k + 1, alpha, latest, previous, tr =>
    if latest.phi - phi0 ≤ o.armijoC1 * alpha * dphi0 then
      ⟨max alpha o.alphaMin, latest.phi, tr0, tr, false⟩
    else
      let a := lsNextAlpha sqrt sing o phi0 dphi0 alpha latest previous
      match phi a with
      | none => lsLoop sqrt sing phi o phi0 dphi0 tr0 k a latest latest (a :: tr)
      | some v =>
        if a ≤ o.alphaMin then ⟨max a o.alphaMin, v, tr0, a :: tr, false⟩
        else lsLoop sqrt sing phi o phi0 dphi0 tr0 k a (LSSample.mk' a v) latest (a :: tr)

/-- `ArmijoLinesearch::run` (linesearch-armijo.hpp:59-147); `none`: fuel of the first phase exhausted. -/
def lsRun (sqrt : K → K) (sing : LSSample K → LSSample K → K → K → Option K) (phi : K → Option K)
    (o : LSOptions K) (phi0 dphi0 : K) (fuel : ℕ) : Option (LSResult K) :=
  match lsFirst phi o.alphaMin fuel 1 [] with
  | none => none
  | some (alpha, latest, tr) =>
    if |dphi0| < o.dphiThresh then some ⟨alpha, latest.phi, tr, [], false⟩
    else some (lsLoop sqrt sing phi o phi0 dphi0 tr o.maxNumSteps alpha latest LSSample.default [])

end ProxNLP
