import Verif.Model.Threads

/-! Specification vocabulary for C109 (solvers in different threads). -/

namespace ProxNLP.Spec

section
variable {I L : Type} {V : L → Type} {R : I → Type} {R' : Type}

/-- the next access of a thread to the shared memory: the location, and whether it is a write -/
def nextAccess : Prog L V R' → Option (L × Bool)
  | .ret _ => none
  | .read l _ => some (l, false)
  | .write l _ _ => some (l, true)

/-- two threads are about to access one location, at least one of them to write it, and nothing orders the two accesses -/
def Racing (M : Machine I L V R) : Prop :=
  ∃ i j l wi wj, i ≠ j ∧ nextAccess (M.threads i) = some (l, wi) ∧ nextAccess (M.threads j) = some (l, wj) ∧ (wi = true ∨ wj = true)

/-- some schedule leads to two such accesses: the C++ program has a data race, its behaviour is undefined -/
def HasRace [DecidableEq I] [DecidableEq L] (M : Machine I L V R) : Prop := ∃ s, Racing (M.run s)

/-- whatever values it reads, the thread reads only locations in `A` and writes only locations in `W` -/
def Within (A W : L → Prop) : Prog L V R' → Prop
  | .ret _ => True
  | .read l k => A l ∧ ∀ v, Within A W (k v)
  | .write l _ k => W l ∧ Within A W k

/-- no location that one thread may write is read or written by another -/
def Disjoint (A W : I → L → Prop) : Prop := ∀ i j, i ≠ j → ∀ l, W i l → ¬ A j l ∧ ¬ W j l

end

variable {I X K : Type} {H : I → Type} {n m : I → ℕ}

/-- each thread's solver points to a problem object of its own (if the problem has constraints), and no cost object with buffers is
referred to by the problems of two threads -/
def SeparateProblems (T : ∀ i, ThreadCtx X K (H i) (n i) (m i)) : Prop :=
  ∀ i j, i ≠ j → (m i ≠ 0 → m j ≠ 0 → (T i).problem ≠ (T j).problem) ∧ ∀ c, (T i).cost = some c → (T j).cost ≠ some c

/-- the buffer of the cost serves its purpose: evaluated at `x`, the cost then gives its gradient at `x` -/
def BufferOk {H : Type} {n m : ℕ} (T : ThreadCtx X K H n m) : Prop := ∀ x, T.gradErr x x = T.P.grad x

end ProxNLP.Spec
