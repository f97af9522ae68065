import Verif.Model.DistanceCost

/-! Specification for C87: distance costs as independent values. -/

namespace ProxNLP.Spec

variable {K : Type}

/-- A distance cost as a value: a space, a target and weights. -/
structure OwnCost (K : Type) where
  space : Manifold K
  target : List K
  rows : ℕ
  cols : ℕ
  weights : ℕ → ℕ → K

/-- what a constructor call adds: a cost if the space accepts the target, nothing otherwise -/
def accepted (M : Manifold K) (t : List K) (c : OwnCost K) : List (OwnCost K) :=
  match M.isNormalized t with
  | .ok true => [c]
  | _ => []

/-- Value semantics: every cost has its own target, a copy gets a target of its own. -/
def ownStep [Field K] (cs : List (OwnCost K)) : DistOp K → List (OwnCost K)
  | .new M t rows cols W => cs ++ accepted M t ⟨M, t, rows, cols, W⟩
  | .newUnit M t => cs ++ accepted M t ⟨M, t, M.ndx, M.ndx, fun a b => if a = b then 1 else 0⟩
  | .newNeutral M => match M.neutral with
    | .ok e => cs ++ accepted M e ⟨M, e, M.ndx, M.ndx, fun a b => if a = b then 1 else 0⟩
    | .error _ => cs
  | .copy i => cs ++ (cs[i]?).toList
  | .assign i j => match cs[j]? with
    | some c => cs.set i c
    | none => cs
  | .updateTarget i x => match cs[i]? with
    | some c => cs.set i { c with target := x }
    | none => cs
  | .call _ _ => cs

/-- the costs a program has made, with value semantics -/
def ownCosts [Field K] (ops : List (DistOp K)) : List (OwnCost K) := ops.foldl ownStep []

/-- the program never copies a cost -/
def noCopies (ops : List (DistOp K)) : Prop := ∀ op ∈ ops, (∀ i, op ≠ .copy i) ∧ ∀ i j, op ≠ .assign i j

end ProxNLP.Spec
