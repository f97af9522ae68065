import Verif.Spec.Composite

/-!
Specification for C113: problems without solution.
-/

namespace ProxNLP.Spec

variable {K : Type} [Field K] [LinearOrder K] {n m : ℕ}

/-- at every point at which the constraints can be evaluated, some constraint row has at least the distance `delta` from its set -/
def FarFromFeasible {X H : Type} (P : Ctx X K H n m) (leaf : Fin m → LeafSet K × ℕ) (delta : K) : Prop :=
  ∀ x f c, P.eval x = some (f, c) → ∃ i, ∀ y, rowMem (leaf i).1 (leaf i).2 y → delta ≤ |c i - y|

/-- `y` proves that the constraints `A x - b` in the sets are infeasible with margin `delta`: `yᵀA = 0`, and on the sets `yᵀz` is below
`-yᵀb`, the value that `yᵀ(A x - b)` has for all `x` -/
structure FarkasVector (A : Fin m → Fin n → K) (b : Fin m → K) (leaf : Fin m → LeafSet K × ℕ) (delta : K) (y : Fin m → K) : Prop where
  nonzero : ∃ i, y i ≠ 0
  kernel : ∀ j, ∑ i, y i * A i j = 0
  separates : ∀ z, Feasible leaf z → ∑ i, y i * z i + delta * ∑ i, |y i| ≤ -∑ i, y i * b i

/-- all points `y + t d`, `t ≥ 0`, are feasible, and along them the cost (penalties included) decreases at least at the rate `s` -/
structure DescentRay (f : (Fin n → K) → K) (A : Fin m → Fin n → K) (b : Fin m → K) (leaf : Fin m → LeafSet K × ℕ) (y d : Fin n → K)
    (s : K) : Prop where
  feasible : ∀ t, 0 ≤ t → Feasible leaf (affine A b fun j => y j + t * d j)
  decrease : ∀ t, 0 ≤ t → f (fun j => y j + t * d j) + penalties leaf (affine A b fun j => y j + t * d j) ≤
    f y + penalties leaf (affine A b y) - s * t

end ProxNLP.Spec
