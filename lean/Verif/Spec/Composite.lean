import Verif.Spec.Solver
import Verif.Spec.Sets

/-!
Specification for C84 and C85: the optimisation problem the user poses, `min f(x) + Σ penalties  s.t.  A x - b in the sets`, in terms of
the rows of the stacked constraint vector; row `i` uses coordinate `(leaf i).2` of the set `(leaf i).1`.
-/

namespace ProxNLP.Spec

variable {K : Type} [Field K] [LinearOrder K] {n m : ℕ}

/-- value `y` is allowed in coordinate `i` of the set -/
def rowMem (s : LeafSet K) (i : ℕ) (y : K) : Prop :=
  match s with
  | .equality => y = 0
  | .negOrthant => y ≤ 0
  | .box lo hi => lo i ≤ y ∧ y ≤ hi i
  | .l1 => True

/-- cost of value `y`: its absolute value for the L1 penalty, nothing for the constraint sets -/
def rowPen (s : LeafSet K) (y : K) : K :=
  match s with
  | .l1 => |y|
  | _ => 0

/-- the point satisfies the constraints -/
def Feasible (leaf : Fin m → LeafSet K × ℕ) (c : Fin m → K) : Prop := ∀ i, rowMem (leaf i).1 (leaf i).2 (c i)

/-- the nonsmooth part of the cost -/
def penalties (leaf : Fin m → LeafSet K × ℕ) (c : Fin m → K) : K := ∑ i, rowPen (leaf i).1 (c i)

/-- affine constraint values -/
def affine (A : Fin m → Fin n → K) (b : Fin m → K) (x : Fin n → K) : Fin m → K := fun i => ∑ j, A i j * x j - b i

end ProxNLP.Spec
