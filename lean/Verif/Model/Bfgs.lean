import Mathlib.Data.Matrix.Mul
import Mathlib.Algebra.BigOperators.Fin
import Mathlib.Algebra.Order.Field.Basic
import Mathlib.Algebra.Order.Field.Rat

/-!
Model of `BFGSStrategy` (bfgs-strategy.hpp).
-/

namespace ProxNLP

/-- `BFGSType` (bfgs-strategy.hpp:9). -/
inductive BFGSType where
  | hessian | inverseHessian
  deriving DecidableEq, Repr

variable {K : Type} [Field K] [LinearOrder K] {n : ℕ}

/-- Members that survive a call (the temporaries `s, y, V, ...` are overwritten before use).
bfgs-strategy.hpp:84-99. -/
structure Bfgs (K : Type) (n : ℕ) where
  isInit : Bool
  isPsd : Bool
  xPrev : Fin n → K
  gPrev : Fin n → K
  isValid : Bool

/-- default constructor (bfgs-strategy.hpp:16-19); the vectors are empty there, here zero (never read before
being set). -/
def Bfgs.default : Bfgs K n := ⟨false, false, fun _ => 0, fun _ => 0, false⟩

/-- constructor with the number of variables (bfgs-strategy.hpp:21-32). -/
def Bfgs.new : Bfgs K n := ⟨false, true, fun _ => 0, fun _ => 0, true⟩

/-- `init` (bfgs-strategy.hpp:34-43); `none`: exception. -/
def Bfgs.init (b : Bfgs K n) (x0 g0 : Fin n → K) : Option (Bfgs K n) :=
  if b.isValid = false then none
  else some { b with xPrev := x0, gPrev := g0, isInit := true }

/-- The rank-two formula (bfgs-strategy.hpp:55-72), `s = x - x_prev`, `y = g - g_prev`, `sy = s.dot(y)`. -/
def bfgsMatrix (ty : BFGSType) (s y : Fin n → K) (H : Matrix (Fin n) (Fin n) K) : Matrix (Fin n) (Fin n) K :=
  let sy := ∑ i, s i * y i
  let xx : Matrix (Fin n) (Fin n) K := match ty with
    | .inverseHessian => Matrix.of fun i j => s i * s j
    | .hessian => Matrix.of fun i j => y i * y j
  let xy : Matrix (Fin n) (Fin n) K := match ty with
    | .inverseHessian => Matrix.of fun i j => s i * y j
    | .hessian => Matrix.of fun i j => y i * s j
  let V : Matrix (Fin n) (Fin n) K := Matrix.of fun i j => (if i = j then 1 else 0) - xy i j / sy
  V * H * V.transpose + Matrix.of fun i j => xx i j / sy

/-- `update(x, g, hessian)` (bfgs-strategy.hpp:45-81). -/
def Bfgs.update (ty : BFGSType) (b : Bfgs K n) (x g : Fin n → K) (H : Matrix (Fin n) (Fin n) K) :
    Option (Bfgs K n × Matrix (Fin n) (Fin n) K) :=
  if b.isInit = false then (b.init x g).map fun b' => (b', H)
  else
    let s := fun i => x i - b.xPrev i
    let y := fun i => g i - b.gPrev i
    if 0 < ∑ i, s i * y i then
      some ({ b with isPsd := true, xPrev := x, gPrev := g }, bfgsMatrix ty s y H)
    else some ({ b with isPsd := false, xPrev := x, gPrev := g }, H)

/-- a sequence of updates on one matrix (not in the code: repeated calls of `update`,
bfgs-strategy.hpp:45-81, as made by prox-solver.hxx:228-248) -/
def Bfgs.run (ty : BFGSType) : List ((Fin n → K) × (Fin n → K)) → Bfgs K n → Matrix (Fin n) (Fin n) K →
    Option (Bfgs K n × Matrix (Fin n) (Fin n) K)
  | [], b, H => some (b, H)
  | (x, g) :: l, b, H => (b.update ty x g H).bind fun r => Bfgs.run ty l r.1 r.2

end ProxNLP
