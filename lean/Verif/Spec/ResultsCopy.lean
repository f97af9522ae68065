import Verif.Model.ResultsCopy

/-!
Results objects as values: what a program sees if every object keeps its own values.
-/

namespace ProxNLP.Spec

/-- value of a results object: constraint dimensions, multipliers, point; `copied` records that the object was made by
copying another one (directly or moved from such a copy) -/
structure ResVal (K : Type) where
  sizes : List ℕ
  lams : List K
  x : List K
  copied : Bool

variable {K : Type}

/-- effect of one operation on the list of values (`none`: destroyed) -/
def resStep [Zero K] (vs : List (Option (ResVal K))) : ResOp K → Option (List (Option (ResVal K)))
  | .construct sizes x0 => some (vs ++ [some ⟨sizes, List.replicate sizes.sum 0, x0, false⟩])
  | .copy i => (vs[i]?).join.map fun v => vs ++ [some { v with copied := true }]
  | .move i => (vs[i]?).join.map fun v => vs.set i (some ⟨[], [], [], v.copied⟩) ++ [some v]
  | .assign i j => (vs[i]?).join.bind fun d => (vs[j]?).join.map fun v =>
      vs.set i (some { d with lams := v.lams, x := v.x })
  | .write i lams x => (vs[i]?).join.map fun v => vs.set i (some { v with lams := lams, x := x })
  | .destroy i => (vs[i]?).join.map fun _ => vs.set i none

/-- values after a program -/
def resValues [Zero K] (ops : List (ResOp K)) : Option (List (Option (ResVal K))) :=
  ops.foldlM resStep []

/-- `lams_opt` as the blocks of a stacked vector -/
def blocksOf (sizes : List ℕ) (l : List K) : List (List K) :=
  (List.range sizes.length).map fun i => (l.drop ((sizes.take i).sum)).take (sizes.getD i 0)

/-- programs that never assign to, or from, an object made by copying -/
def NoCopyAssigned [Zero K] (ops : List (ResOp K)) : Prop :=
  ∀ pre i j post, ops = pre ++ ResOp.assign i j :: post → ∀ vs, resValues pre = some vs →
    ∀ k v, k = i ∨ k = j → (vs[k]?).join = some v → v.copied = false

end ProxNLP.Spec
