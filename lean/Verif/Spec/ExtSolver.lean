import Verif.Model.ExtSolver

/-! Specification for C98: what it means that a point is certified when problem data may be non-finite. -/

namespace ProxNLP.Spec

open ExtScalar

variable {K : Type} [Field K] [LinearOrder K]

/-- membership of a number in one row of a set; an infinite bound is no bound -/
def ExtMem : ExtSet K → K → Prop
  | .equality, q => q = 0
  | .negOrthant, q => q ≤ 0
  | .box lo hi, q => le lo (fin q) = true ∧ le (fin q) hi = true
  | .l1, _ => True

/-- the penalty: the absolute value for the L1 penalty, nothing for sets -/
def extPen : ExtSet K → K → K
  | .l1, q => |q|
  | _, _ => 0

/-- Bounds of boxes are in order: some number lies between them, and none is NaN. -/
def ExtProper (s : ExtSet K) : Prop := ∃ q, ExtMem s q

/-- One row is solved to tolerance `tol` at value `c` and multiplier `lam`: some point `p` of the set is within `tol` of the value, and
`p` minimises the penalty plus the distance to `c + mu lam` (for a set: is its nearest point). -/
def ExtRowCertified (s : ExtSet K) (mu tol c lam : K) : Prop :=
  ∃ p, ExtMem s p ∧ |c - p| < tol ∧ ∀ q, ExtMem s q → (c + mu * lam - p) * (q - p) ≤ mu * (extPen s q - extPen s p)

/-- The norm is the largest absolute entry on vectors of numbers (0 if empty); nothing is said about other vectors. -/
def GoodNorm (nrm : List (ExtScalar K) → ExtScalar K) : Prop :=
  ∀ l : List K, ∃ r, nrm (l.map fin) = fin r ∧ 0 ≤ r ∧ (∀ a ∈ l, |a| ≤ r) ∧ (r = 0 ∨ ∃ a ∈ l, r = |a|)

/-! ### Problems with finite data, seen as problems that may return non-finite values -/

section lift
variable {X H : Type} {n m : ℕ}

/-- a number read back -/
def extToK : ExtScalar K → K
  | fin a => a
  | _ => 0

/-- one row of a set with finite bounds -/
def extLeaf (leaf : LeafSet K × ℕ) : ExtSet K :=
  match leaf.1 with
  | .equality => .equality
  | .negOrthant => .negOrthant
  | .box lo hi => .box (fin (lo leaf.2)) (fin (hi leaf.2))
  | .l1 => .l1

/-- the problem and solver `P` of `Model/Solver.lean`, with the rows `blocks` grouped into constraints -/
def extLift (P : Ctx X K H n m) (S : Settings K) (leaf : Fin m → LeafSet K × ℕ) (blocks : List (List (Fin m)))
    (norm : List (ExtScalar K) → ExtScalar K) : ExtCtx X K H n m where
  eval x := (P.eval x).map fun fc => (fin fc.1, fun i => fin (fc.2 i))
  grad x j := fin (P.grad x j)
  jac x i j := fin (P.jac x i j)
  proxGrad rho t x j := fin (P.proxGrad rho t x j)
  sets i := extLeaf (leaf i)
  blocks := blocks
  norm := norm
  matrixOk _ := true
  updHess h x g l := P.updHess h x (fun j => extToK (g j)) fun i => extToK (l i)
  enterInner := P.enterInner
  step i :=
    match evalAt P S i.mu i.mu i.rho i.target i.x (fun k => extToK (i.lam k)) (fun k => extToK (i.lamPrev k)) with
    | none => none
    | some ev =>
      match P.step ⟨i.x, fun k => extToK (i.lam k), fun k => extToK (i.lamPrev k), i.target, i.mu, i.mu, i.rho, i.hidden, ev⟩ with
      | .error _ => none
      | .ok o => some ⟨o.x, fun k => fin (o.lam k), fin o.merit, fun k => fin (o.lamsPlus k), fun k => fin (o.lamsPdal k), o.hidden⟩

/-- the members of the solver that both models have -/
def extLiftSt (st : St X K H m) : ExtSt X K H m where
  xOpt := st.xOpt
  lamsOpt i := fin (st.lamsOpt i)
  lamsPrev i := fin (st.lamsPrev i)
  lamsPlus i := fin (st.lamsPlus i)
  lamsPdal i := fin (st.lamsPdal i)
  mu := st.mu
  rho := st.rho
  primTol := st.primTol
  innerTol := st.innerTol
  target := st.target
  converged := st.converged
  numIters := st.numIters
  alIters := st.alIters
  prim := fin st.prim
  dual := fin st.dual
  value := fin st.value
  resMu := st.resMu
  hidden := st.hidden

end lift

end ProxNLP.Spec
