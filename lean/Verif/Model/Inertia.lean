import Verif.Model.Math
import Mathlib.Data.Matrix.Block
import Mathlib.Data.Matrix.Mul
import Mathlib.Algebra.BigOperators.Fin

/-!
Model of inertia counting (ldlt-allocator.hpp, prox-solver.hxx), of the regularisation loop and of iterative
refinement (prox-solver.hxx).
-/

namespace ProxNLP

/-- `InertiaFlag` (prox-solver.hpp:38). -/
inductive InertiaFlag where
  | ok | bad | hasZeros
  deriving DecidableEq, Repr

/-- `computeInertiaTuple` (ldlt-allocator.hpp:196-221): counters (positive, negative, zero), a loop over the
entries; `none`: exception on any other entry. -/
def computeInertiaTuple (signature : List ℤ) : Option (ℕ × ℕ × ℕ) :=
  signature.foldlM (fun (acc : ℕ × ℕ × ℕ) s =>
    if s = 1 then some (acc.1 + 1, acc.2.1, acc.2.2)
    else if s = 0 then some (acc.1, acc.2.1, acc.2.2 + 1)
    else if s = -1 then some (acc.1, acc.2.1 + 1, acc.2.2)
    else none) (0, 0, 0)

/-- `checkInertia(ndx, numc, signature)` (prox-solver.hxx:129-148). -/
def checkInertia (ndx numc : ℕ) (signature : List ℤ) : Option InertiaFlag :=
  (computeInertiaTuple signature).map fun t =>
    let posOk : Bool := t.1 = ndx
    let negOk : Bool := t.2.1 = numc
    let zerOk : Bool := t.2.2 = 0
    if !(posOk && negOk && zerOk) then
      if !zerOk then .hasZeros else .bad
    else .ok

variable {K : Type} {n m : ℕ} [Field K] [LinearOrder K]

/-- Parameters of the regularisation loop (prox-solver.hpp:117-123). -/
structure InertiaParams (K : Type) where
  deltaInit : K
  deltaNonzeroInit : K
  deltaMin : K
  deltaMax : K
  decK : K
  incK : K
  incBig : K

/-- `kkt_matrix.diagonal().head(ndx).array() += delta`. prox-solver.hxx:399-429. -/
def addPrimalDiag (A : Matrix (Fin n ⊕ Fin m) (Fin n ⊕ Fin m) K) (delta : K) :
    Matrix (Fin n ⊕ Fin m) (Fin n ⊕ Fin m) K :=
  fun i j => match i with
    | .inl a => if j = .inl a then A i j + delta else A i j
    | .inr _ => A i j

/-- State of the loop; `log` is a ghost list of the regularisation and the matrix handed to the factorisation at
every pass (last one first), `fac` the matrix of the last factorisation. Locals and members of
prox-solver.hxx:396-429. -/
structure InertiaSt (K : Type) (n m : ℕ) where
  delta : K
  deltaLast : K
  mat : Matrix (Fin n ⊕ Fin m) (Fin n ⊕ Fin m) K
  flag : InertiaFlag
  fac : Option (Matrix (Fin n ⊕ Fin m) (Fin n ⊕ Fin m) K)
  log : List (K × Matrix (Fin n ⊕ Fin m) (Fin n ⊕ Fin m) K)

/-- The regularisation loop (prox-solver.hxx:396-429).  `sig A` is the signature the linear solver reports after
factorising `A`.  `none`: fuel exhausted; `.error`: exception from `computeInertiaTuple`. -/
def inertiaLoop (p : InertiaParams K) (sig : Matrix (Fin n ⊕ Fin m) (Fin n ⊕ Fin m) K → List ℤ) :
    ℕ → InertiaSt K n m → Option (Except String (InertiaSt K n m))
  | 0, _ => none
  | fuel + 1, st =>
    if st.flag ≠ .ok ∧ st.delta ≤ p.deltaMax then
      let a := if 0 < st.delta then addPrimalDiag st.mat st.delta else st.mat
      let s := sig a
      let st1 := { st with mat := addPrimalDiag a (-st.delta), fac := some a, log := (st.delta, a) :: st.log }
      match checkInertia n m s with
      | none => some (.error "Signature vector should only contain values O, 1, -1.")
      | some .ok => some (.ok { st1 with flag := .ok, deltaLast := st.delta })
      | some f =>
        if st.delta = 0 then
          if st.deltaLast = 0 then
            inertiaLoop p sig fuel { st1 with flag := f, delta := p.deltaNonzeroInit }
          else
            inertiaLoop p sig fuel { st1 with flag := f, delta := max p.deltaMin (p.decK * st.deltaLast) }
        else if st.deltaLast = 0 then
          inertiaLoop p sig fuel { st1 with flag := f, delta := st.delta * p.incBig }
        else
          inertiaLoop p sig fuel { st1 with flag := f, delta := st.delta * p.incK }
    else some (.ok st)

/-- Entry of the loop for an assembled matrix `A` and the previous successful regularisation
(prox-solver.hxx:396-397; `delta_last` is a local of `innerLoop`, 286). -/
def inertiaStart (p : InertiaParams K) (A : Matrix (Fin n ⊕ Fin m) (Fin n ⊕ Fin m) K) (deltaLast : K)
    (prevFac : Option (Matrix (Fin n ⊕ Fin m) (Fin n ⊕ Fin m) K)) : InertiaSt K n m :=
  { delta := p.deltaInit, deltaLast := deltaLast, mat := A, flag := .bad, fac := prevFac, log := [] }

/-- The refinement loop of `iterativeRefinement` (prox-solver.hxx:533-542), `k` passes left; the third component
counts calls to `solveInPlace`. -/
def refineLoop {N : ℕ} (A : Fin N → Fin N → K) (rhs : Fin N → K) (tol : K) (solve : (Fin N → K) → Fin N → K) :
    ℕ → (Fin N → K) → ℕ → Bool × (Fin N → K) × ℕ
  | 0, step, cnt => (false, step, cnt)
  | k + 1, step, cnt =>
    let err := fun i => -rhs i - ∑ j, A i j * step j
    if inftyNorm err < tol then (true, step, cnt)
    else
      let corr := solve err
      refineLoop A rhs tol solve k (fun i => step i + corr i) (cnt + 1)

/-- `iterativeRefinement` (prox-solver.hxx:528-544). `solve` is the (possibly inexact) `solveInPlace` of the current
factorisation. -/
def iterativeRefinement {N : ℕ} (A : Fin N → Fin N → K) (rhs : Fin N → K) (tol : K)
    (solve : (Fin N → K) → Fin N → K) (maxSteps : ℕ) : Bool × (Fin N → K) × ℕ :=
  refineLoop A rhs tol solve maxSteps (solve fun i => -rhs i) 1

end ProxNLP
