import Verif.Model.FloatBfgs

/-! Specification for the rounded BFGS update. -/

set_option linter.unusedSectionVars false
namespace ProxNLP.Spec

variable {K : Type} [Field K] [LinearOrder K] {n : ℕ}

/-- `t` adds `n` products, each once, in some order (and possibly the zero an accumulator starts from); every term goes through at
most `d` roundings -/
def SumsProducts (t : SumTree (Fin n)) (d : ℕ) : Prop :=
  (t.terms.filterMap id).Perm (List.ofFn id) ∧ t.depth ≤ d

structure BfgsOrdersSum (q : BfgsOrders n) (d : ℕ) : Prop where
  dot : SumsProducts q.dot d
  left : ∀ i j, SumsProducts (q.left i j) d
  right : ∀ i j, SumsProducts (q.right i j) d

/-- the vector `p` of the formula `(I - p qᵀ/σ) H (I - q pᵀ/σ) + p pᵀ/σ` -/
def secantP (ty : BFGSType) (s y : Fin n → K) : Fin n → K :=
  match ty with
  | .hessian => y
  | .inverseHessian => s

/-- the vector `q` of the formula -/
def secantQ (ty : BFGSType) (s y : Fin n → K) : Fin n → K :=
  match ty with
  | .hessian => s
  | .inverseHessian => y

/-- `(I - p qᵀ/σ) i k` -/
def bfgsFactor (p q : Fin n → K) (c : K) (i k : Fin n) : K := (if i = k then 1 else 0) - p i * q k / c

/-- `((I - p qᵀ/σ) H (I - q pᵀ/σ) + p pᵀ/σ) i j` -/
def bfgsExact (p q : Fin n → K) (c : K) (H : Fin n → Fin n → K) (i j : Fin n) : K :=
  ∑ l, (∑ k, bfgsFactor p q c i k * H k l) * bfgsFactor p q c j l + p i * p j / c

/-- the same with every term replaced by its absolute value -/
def bfgsAbs (p q : Fin n → K) (c : K) (H : Fin n → Fin n → K) (i j : Fin n) : K :=
  ∑ l, (∑ k, ((if i = k then 1 else 0) + |p i * q k / c|) * |H k l|) * ((if j = l then 1 else 0) + |p j * q l / c|) + |p i * p j / c|

end ProxNLP.Spec
