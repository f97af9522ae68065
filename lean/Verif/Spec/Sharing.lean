import Verif.Model.Sharing

/-!
# What a program has said about an object

Everything here is read off the text of the program (the list of statements executed so far): which value was assigned last, what an
object was made of. The memory of the model does not occur.
-/

set_option linter.unusedSectionVars false

namespace ProxNLP.Spec

variable {K : Type} [Field K]

/-- the statement creates a function -/
def makesFun : Stmt K → Bool
  | .newLinear _ _ | .newDiff _ | .newCompose _ _ => true
  | _ => false

/-- the statement creates a set -/
def makesSet : Stmt K → Bool
  | .newSet _ => true
  | _ => false

/-- the statement creates a constraint -/
def makesCon : Stmt K → Bool
  | .newConstraint _ _ => true
  | _ => false

/-- the statement creates a cost -/
def makesCost : Stmt K → Bool
  | .newCost _ _ _ _ => true
  | _ => false

/-- the statement creates a problem -/
def makesProb : Stmt K → Bool
  | .newProblem _ _ => true
  | _ => false

/-- `s`, made by the statement after `pre`, has the name `k` -/
def Made (makes : Stmt K → Bool) (hist : List (Stmt K)) (k : ℕ) (pre : List (Stmt K)) (s : Stmt K) : Prop :=
  ∃ post, hist = pre ++ s :: post ∧ makes s = true ∧ pre.countP makes = k

/-- `A` is the matrix of the linear function `f`: the one it was created with, or the one assigned last. -/
def LastMat (hist : List (Stmt K)) (f : ℕ) (A : LMat K) : Prop :=
  ∃ pre s post, hist = pre ++ s :: post ∧ (s = .setMat f A ∨ ∃ b, s = .newLinear A b ∧ pre.countP makesFun = f) ∧
    ∀ A', Stmt.setMat f A' ∉ post

/-- `b` is the offset of the linear function `f`: the one it was created with, or the one assigned last. -/
def LastOffset (hist : List (Stmt K)) (f : ℕ) (b : List K) : Prop :=
  ∃ pre s post, hist = pre ++ s :: post ∧ (s = .setOffset f b ∨ ∃ A, s = .newLinear A b ∧ pre.countP makesFun = f) ∧
    ∀ b', Stmt.setOffset f b' ∉ post

/-- `v` is the lower limit of the box `s`: the one it was created with, or the one assigned last. -/
def LastLower (hist : List (Stmt K)) (s : ℕ) (v : List K) : Prop :=
  ∃ pre t post, hist = pre ++ t :: post ∧ (t = .setLower s v ∨ ∃ u, t = .newSet (.box v u) ∧ pre.countP makesSet = s) ∧
    ∀ v', Stmt.setLower s v' ∉ post

/-- `v` is the upper limit of the box `s`: the one it was created with, or the one assigned last. -/
def LastUpper (hist : List (Stmt K)) (s : ℕ) (v : List K) : Prop :=
  ∃ pre t post, hist = pre ++ t :: post ∧ (t = .setUpper s v ∨ ∃ l, t = .newSet (.box l v) ∧ pre.countP makesSet = s) ∧
    ∀ v', Stmt.setUpper s v' ∉ post

/-- The set `s` at the end of the program `hist`, with its limits at that time. -/
inductive SetIs (hist : List (Stmt K)) (s : ℕ) : UserSet K → Prop
  | box (lo hi : List K) (hl : LastLower hist s lo) (hu : LastUpper hist s hi) : SetIs hist s (.box lo hi)
  | plain (v : UserSet K) (pre : List (Stmt K)) (hv : ∀ lo hi, v ≠ .box lo hi) (h : Made makesSet hist s pre (.newSet v)) : SetIs hist s v

/-- After the program `hist` the function `f` maps `x` to `y`: `A x + b` with the values assigned last, `x - target`, or first one
function and then the other. Sizes have to match. -/
inductive Maps (hist : List (Stmt K)) : ℕ → List K → List K → Prop
  | linear (f : ℕ) (A : LMat K) (b x : List K) (hA : LastMat hist f A) (hb : LastOffset hist f b) (hx : x.length = A.cols)
      (hr : A.rows.length = b.length) :
      Maps hist f x (List.zipWith (fun row c => (List.zipWith (· * ·) row x).sum + c) A.rows b)
  | diff (f : ℕ) (t x : List K) (pre : List (Stmt K)) (h : Made makesFun hist f pre (.newDiff t)) (hx : x.length = t.length) :
      Maps hist f x (List.zipWith (· - ·) x t)
  | compose (f l r : ℕ) (x y z : List K) (pre : List (Stmt K)) (h : Made makesFun hist f pre (.newCompose l r)) (hr : Maps hist r x y)
      (hl : Maps hist l y z) : Maps hist f x z

/-- `J` is the matrix product of `L` and `R`, entry by entry. -/
def IsProduct (L R J : LMat K) : Prop :=
  L.cols = R.rows.length ∧ J.cols = R.cols ∧ J.rows.length = L.rows.length ∧ ∀ (i : ℕ) (row : List K), L.rows[i]? = some row →
    ∃ out : List K, J.rows[i]? = some out ∧ out.length = R.cols ∧
      ∀ j, j < R.cols → out[j]? = some (List.zipWith (fun a r => a * r.getD j 0) row R.rows).sum

/-- the identity matrix -/
def IsIdentity (n : ℕ) (J : LMat K) : Prop :=
  J.cols = n ∧ J.rows.length = n ∧ ∀ i j : ℕ, i < n → j < n → (J.rows[i]?.bind fun r => r[j]?) = some (if i = j then 1 else 0)

/-- After the program `hist` the function `f` has the Jacobian `J` at `x`: the matrix assigned last, the identity, or the chain rule
with both functions as they are now. -/
inductive Derives (hist : List (Stmt K)) : ℕ → List K → LMat K → Prop
  | linear (f : ℕ) (A : LMat K) (x : List K) (hA : LastMat hist f A) : Derives hist f x A
  | diff (f : ℕ) (t x : List K) (J : LMat K) (pre : List (Stmt K)) (h : Made makesFun hist f pre (.newDiff t)) (hJ : IsIdentity t.length J) :
      Derives hist f x J
  | compose (f l r : ℕ) (x y : List K) (L R J : LMat K) (pre : List (Stmt K)) (h : Made makesFun hist f pre (.newCompose l r))
      (hy : Maps hist r x y) (hl : Derives hist l y L) (hr : Derives hist r x R) (hJ : IsProduct L R J) : Derives hist f x J

/-- the constraints added to the problem `p` by the statements, in order -/
def added (p : ℕ) (post : List (Stmt K)) : List ℕ :=
  post.filterMap fun
    | .addConstraint q c => if q = p then some c else none
    | _ => none

/-- The `i`-th constraint of the problem `p` is `c`: those given to the constructor first, then those added. -/
def ConstraintAt (hist : List (Stmt K)) (p i c : ℕ) : Prop :=
  ∃ pre cost cs post, hist = pre ++ Stmt.newProblem cost cs :: post ∧ pre.countP makesProb = p ∧ (cs ++ added p post)[i]? = some c

/-- the number of constraints of the problem `p` -/
def NumConstraints (hist : List (Stmt K)) (p n : ℕ) : Prop :=
  ∃ pre cost cs post, hist = pre ++ Stmt.newProblem cost cs :: post ∧ pre.countP makesProb = p ∧ (cs ++ added p post).length = n

/-- `c` is the cost of the problem `p`: the one it was created with, or the one assigned last. -/
def LastCost (hist : List (Stmt K)) (p c : ℕ) : Prop :=
  ∃ pre s post, hist = pre ++ s :: post ∧ (s = .setCost p c ∨ ∃ cs, s = .newProblem c cs ∧ pre.countP makesProb = p) ∧
    ∀ c', Stmt.setCost p c' ∉ post

/-- The same program without assignments to linear functions, in which each linear function is created with the matrix and offset
`val`. `k` counts the functions created so far. -/
def anew (val : ℕ → LMat K × List K) : ℕ → List (Stmt K) → List (Stmt K)
  | _, [] => []
  | k, .newLinear _ _ :: rest => .newLinear (val k).1 (val k).2 :: anew val (k + 1) rest
  | k, .newDiff t :: rest => .newDiff t :: anew val (k + 1) rest
  | k, .newCompose l r :: rest => .newCompose l r :: anew val (k + 1) rest
  | k, .setMat _ _ :: rest => anew val k rest
  | k, .setOffset _ _ :: rest => anew val k rest
  | k, s :: rest => s :: anew val k rest

/-- `val` lists the values assigned last -/
def LastValues (hist : List (Stmt K)) (val : ℕ → LMat K × List K) : Prop :=
  ∀ f A b, LastMat hist f A → LastOffset hist f b → val f = (A, b)

/-- the matrix of each linear function has at the end the size it was created with -/
def SizesKept (hist : List (Stmt K)) : Prop :=
  ∀ f pre A0 b0 A, Made makesFun hist f pre (.newLinear A0 b0) → LastMat hist f A → A.cols = A0.cols ∧ A.rows.length = A0.rows.length

end ProxNLP.Spec
