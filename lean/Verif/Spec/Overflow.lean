import Verif.Model.Overflow
import Verif.Spec.ExtSolver
import Verif.Spec.FloatSolver
import Verif.Model.FloatSets

/-! Specification for C114: what is assumed of the norm, of the orders of summation and of the bounds of boxes. -/

namespace ProxNLP.Spec

open ExtScalar

variable {X K H : Type} {n m : ℕ} [Field K] [LinearOrder K]

/-- The norm of a vector without NaN is its largest absolute entry (0 if empty); nothing is said about vectors with a NaN. -/
def LargestNorm (nrm : List (ExtScalar K) → ExtScalar K) : Prop :=
  ∀ l : List (ExtScalar K), nan ∉ l → (∀ e ∈ l, le (ExtScalar.abs e) (nrm l) = true) ∧ (nrm l = fin 0 ∨ ∃ e ∈ l, nrm l = ExtScalar.abs e)

/-- Every order of summation adds the gradient entry and each product exactly once; no term goes through more than `d` roundings, and
there are at most `N` of them. -/
def AddsAll (order : H → Fin n → SumTree (Fin m)) (d N : ℕ) : Prop :=
  ∀ h j, (order h j).terms.Perm (none :: List.ofFn some) ∧ (order h j).depth ≤ d ∧ (order h j).count ≤ N

/-- A finite number is not larger than the largest finite number. -/
def Representable (big : K) : ExtScalar K → Prop
  | fin b => |b| ≤ big
  | _ => True

/-- Bounds of boxes are numbers of the format or infinite, and some number lies between them. -/
def RowInRange (big : K) : ExtSet K → Prop
  | .box lo hi => ExtProper (.box lo hi) ∧ Representable big lo ∧ Representable big hi
  | _ => True

/-! ### Problems with finite data, solved without and with overflow -/

/-- the same inputs of a step -/
def ovIn (i : FlIn X K H m) : ExtStepIn X K H m where
  x := i.x
  lam k := fin (i.lam k)
  lamPrev k := fin (i.lamPrev k)
  target := i.target
  mu := i.mu
  rho := i.rho
  hidden := i.hidden

/-- the same outputs of a step, and a merit value -/
def ovOut (w : K) (o : FlOut X K H m) : ExtStepOut X K H m where
  x := o.x
  lam k := fin (o.lam k)
  merit := fin w
  lamsPlus k := fin (o.lamsPlus k)
  lamsPdal k := fin (o.lamsPdal k)
  hidden := o.hidden

/-- the same state, and an objective value -/
def ovLift (w : ExtScalar K) (s : FlSt X K H m) : OvSt X K H m where
  xOpt := s.xOpt
  lamsOpt k := fin (s.lamsOpt k)
  lamsPrev k := fin (s.lamsPrev k)
  lamsPlus k := fin (s.lamsPlus k)
  lamsPdal k := fin (s.lamsPdal k)
  mu := s.mu
  rho := s.rho
  tols := s.tols
  target := s.target
  converged := s.converged
  numIters := s.numIters
  alIters := s.alIters
  prim := fin s.prim
  dual := fin s.dual
  value := w
  resMu := s.resMu
  hidden := s.hidden

/-- `P` is the problem `Q` without overflow: the same functions, sets, steps and updates on finite numbers, the multiplier estimates
`lam⁺ = N(c + mu lamPrev)/mu` and `N(c + mu lamPrev - mu/2 lam)/(mu beta)` in rounded arithmetic, and as inner criterion the largest
entry of the right-hand side of the linear system in rounded arithmetic. -/
structure WithoutOverflow (R : Rounding K) (S : Settings K) (Q : OvCtx X K H n m) (P : FlCtx X K H n m) (prox : K → X → X → Fin n → K) :
    Prop where
  eval : ∀ x, Q.eval x = (P.eval x).map fun q => (fin q.1, fun i => fin (q.2 i))
  grad : ∀ x j, Q.grad x j = fin (P.grad x j)
  jac : ∀ x i j, Q.jac x i j = fin (P.jac x i j)
  proxGrad : ∀ rho t x j, Q.proxGrad rho t x j = fin (prox rho t x j)
  sets : ∀ i, Q.sets i = extLeaf (P.sets i)
  order : Q.order = P.order
  fused : Q.fused = P.fused
  matrixOk : ∀ h, Q.matrixOk h = true
  updHess : ∀ h x (g : Fin n → K) (l : Fin m → K), Q.updHess h x (fun j => fin (g j)) (fun i => fin (l i)) = P.updHess h x g l
  enterInner : Q.enterInner = P.enterInner
  stepNone : ∀ i, P.step i = none → Q.step (ovIn i) = none
  stepSome : ∀ i o, P.step i = some o → ∃ w, Q.step (ovIn i) = some (ovOut w o)
  nextMu : Q.nextMu = P.nextMu
  tolSuccess : Q.tolSuccess = P.tolSuccess
  tolFailure : Q.tolFailure = P.tolFailure
  plus : ∀ (i : FlIn X K H m) v c, P.eval i.x = some (v, c) → ∀ k,
    (P.estimates i).1 k = flLamPlus R (P.sets k) (Q.fusedPrev i.hidden k) i.mu (c k) (i.lamPrev k)
  pdal : ∀ (i : FlIn X K H m) v c, P.eval i.x = some (v, c) → ∀ k, (P.estimates i).2 k =
    flLamPdal R (P.sets k) (Q.fusedPrev i.hidden k) (Q.fusedPdal i.hidden k) i.mu S.pdalBeta (c k) (i.lamPrev k) (i.lam k)
  crit : ∀ (i : FlIn X K H m) v c, P.eval i.x = some (v, c) → P.crit i = max
    (inftyNorm fun j =>
      if 0 < i.rho then
        R.rnd ((Q.rhsOrder i.hidden j).eval R (P.grad i.x j) (fun k => (P.jac i.x k j, i.lam k)) + prox i.rho i.target i.x j)
      else (Q.rhsOrder i.hidden j).eval R (P.grad i.x j) (fun k => (P.jac i.x k j, i.lam k)))
    (inftyNorm fun k => match S.kkt with
      | .classic => R.rnd (i.mu * R.rnd ((P.estimates i).1 k - i.lam k))
      | .primalDual => R.rnd (R.rnd (1 / 2 * i.mu) * R.rnd ((P.estimates i).2 k - i.lam k)))

end ProxNLP.Spec
