import Verif.Model.Calls

/-! Specification vocabulary for C118 (the calls a solve makes on the cost and the constraint functions). -/

namespace ProxNLP

variable {X K : Type} {nc : ℕ} {d : Fin nc → ℕ} {n : ℕ}

/-- the point a call is made with -/
def Query.point : Query X K nc d → X
  | .cost x => x
  | .cstr _ x => x
  | .grad x => x
  | .jac _ x => x
  | .hess x => x
  | .vhp _ x _ => x

/-- the object it is made on: `none` is the cost, `some i` the function of constraint `i` -/
def Query.obj : Query X K nc d → Option (Fin nc)
  | .cost _ => none
  | .cstr i _ => some i
  | .grad _ => none
  | .jac i _ => some i
  | .hess _ => none
  | .vhp i _ _ => some i

/-- what it asks for: 0 the value, 1 the first derivative, 2 the second -/
def Query.order : Query X K nc d → ℕ
  | .cost _ => 0
  | .cstr _ _ => 0
  | .grad _ => 1
  | .jac _ _ => 1
  | .hess _ => 2
  | .vhp _ _ _ => 2

namespace Spec

/-- after the calls `l`: object `o` has been evaluated at `x`, and from that call on every call on any of the objects was made at `x` and
returned -/
def EvaluatedAt (o : Option (Fin nc)) (x : X) (l : List (CallRec X K nc d)) : Prop :=
  ∃ pre q mid, l = pre ++ (q, true) :: mid ∧ q.order = 0 ∧ q.obj = o ∧ q.point = x ∧ ∀ e ∈ mid, e.1.point = x ∧ e.2 = true

/-- whenever a derivative of some object is requested at a point, all objects have been evaluated at this point and the point has not
changed since -/
def DerivativesAfterValues (l : List (CallRec X K nc d)) : Prop :=
  ∀ pre q b post, l = pre ++ (q, b) :: post → q.order ≠ 0 → ∀ o, EvaluatedAt o q.point pre

/-- how many of the calls ask object `o` for its derivative of order `j` (0: the value) -/
def numCalls (o : Option (Fin nc)) (j : ℕ) (l : List (CallRec X K nc d)) : ℕ :=
  l.countP fun e => e.1.obj = o ∧ e.1.order = j

/-- mathematical functions for the cost and the constraints: values (`none`: not defined there), first and second derivatives -/
structure Functions (X K : Type) (nc : ℕ) (d : Fin nc → ℕ) (n : ℕ) where
  cost : X → Option K
  cstr : (i : Fin nc) → X → Option (Fin (d i) → K)
  grad : X → Fin n → K
  jac : (i : Fin nc) → X → Fin (d i) → Fin n → K
  hess : X → Matrix (Fin n) (Fin n) K
  vhp : (i : Fin nc) → X → (Fin (d i) → K) → Matrix (Fin n) (Fin n) K

/-- what these functions answer to a call -/
def Functions.ans (F : Functions X K nc d n) : (q : Query X K nc d) → Option (q.Ans n)
  | .cost x => F.cost x
  | .cstr i x => F.cstr i x
  | .grad x => some (F.grad x)
  | .jac i x => some (F.jac i x)
  | .hess x => some (F.hess x)
  | .vhp i x lam => some (F.vhp i x lam)

/-- all constraint values, if all are defined -/
def Functions.cstrs [Zero K] (F : Functions X K nc d n) (x : X) : Option (∀ i, Fin (d i) → K) :=
  if ∀ i, (F.cstr i x).isSome then some fun i => (F.cstr i x).getD 0 else none

/-- The problem made of these functions, as `ProxNLP.solve` takes it: everything else as in `C`. `off`: `disableGaussNewton()` of the sets.
The products of constraints for which none is used are given as 0. -/
def Functions.cfg [Zero K] (F : Functions X K nc d n) (C : StepCfg X K n (∑ i, d i)) (off : Fin nc → Bool) : StepCfg X K n (∑ i, d i) :=
  { C with
    eval := fun x => (F.cost x).bind fun v =>
      (F.cstrs x).map fun c => (v, stackSegs c)
    grad := F.grad
    jac := fun x => stackSegs fun i => F.jac i x
    objHess := F.hess
    cstrVhp := fun x lam => (List.finRange nc).map fun i =>
      (off i, if !off i || C.approx == .exact then F.vhp i x (segOf lam i) else 0) }

/-- The objects `U` implement the functions `F` in the usual way: evaluating an object gives its value whatever happened before, and makes it
ready for its derivatives at that point (`Ready`: its buffers belong to this point); calls at one point leave the other objects ready for that
point. Nothing is said of a derivative at a point the object is not ready for, and nothing stays ready when a call is made at another point or
throws. -/
structure Implements {σ : Type} (U : FnObjects X K nc d n σ) (F : Functions X K nc d n) (Ready : Option (Fin nc) → X → σ → Prop) : Prop where
  value : ∀ q s, q.order = 0 → (U q s).1 = F.ans q
  ready : ∀ q s, q.order = 0 → (F.ans q).isSome → Ready q.obj q.point (U q s).2
  deriv : ∀ q s, q.order ≠ 0 → Ready q.obj q.point s → (U q s).1 = F.ans q
  keep : ∀ q s o, (F.ans q).isSome → Ready o q.point s → (q.order = 0 → o ≠ q.obj) → (q.order ≠ 0 → Ready q.obj q.point s) →
    Ready o q.point (U q s).2

end Spec

end ProxNLP
