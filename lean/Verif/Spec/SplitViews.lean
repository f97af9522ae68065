import Verif.Model.SplitViews

/-!
Specification for C125: the pieces as separate lists, and the vector as their concatenation.
-/

namespace ProxNLP.Spec

variable {K : Type}

/-- entry `j` of piece `i` -/
def blockGet (bs : List (List K)) (i j : ℕ) : Option K := bs[i]? >>= fun b => b[j]?

/-- the pieces after entry `j` of piece `i` is set: the other pieces and the other entries stay -/
def blockSet (bs : List (List K)) (i j : ℕ) (v : K) : Option (List (List K)) :=
  bs[i]? >>= fun b => if j < b.length then some (bs.set i (b.set j v)) else none

/-- the pieces after entry `j` of the concatenation is set -/
def wholeSet (v : K) : List (List K) → ℕ → Option (List (List K))
  | [], _ => none
  | b :: bs, j => if j < b.length then some (b.set j v :: bs) else (wholeSet v bs (j - b.length)).map (b :: ·)

/-- one statement on the pieces; `none` for an index out of range -/
def blockStep (bs : List (List K)) : PieceOp K → Option (List (List K) × List K)
  | .write i j v => (blockSet bs i j v).map fun bs' => (bs', [])
  | .writeWhole j v => (wholeSet v bs j).map fun bs' => (bs', [])
  | .read i j => (blockGet bs i j).map fun a => (bs, [a])
  | .readWhole j => bs.flatten[j]?.map fun a => (bs, [a])
  | .merge => some (bs, bs.flatten)

/-- a program on the pieces: the final pieces and everything read -/
def blockRun : List (List K) → List (PieceOp K) → Option (List (List K) × List (List K))
  | bs, [] => some (bs, [])
  | bs, op :: ops => (blockStep bs op).bind fun r => (blockRun r.1 ops).map fun q => (q.1, r.2 :: q.2)

/-- the outcome on the memory that corresponds to an outcome on the pieces -/
def inMemory (pre post : List K) : Option (List (List K) × List (List K)) → Except Fault (List K × List (List K))
  | some (bs, outs) => .ok (pre ++ bs.flatten ++ post, outs)
  | none => .error .undefined

/-- a loop that splits the pieces in turn: `Mss` lists the components of every component -/
def splitEach [Field K] (f : List (Manifold K) → View → Except Fault (List View)) : List (List (Manifold K)) → List View → Except Fault (List View)
  | [], _ => .ok []
  | _ :: _, [] => .error .undefined
  | Ms :: Mss, w :: ws => do
    let a ← f Ms w
    let b ← splitEach f Mss ws
    pure (a ++ b)

end ProxNLP.Spec
