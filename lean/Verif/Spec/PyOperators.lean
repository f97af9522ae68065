import Verif.Model.PyOperators
import Mathlib.Data.Set.Insert

/-! Specification for C90: what Python statements over costs mean if costs behave like values, and which programs never change an
object that another name can see. -/

namespace ProxNLP

variable {K V : Type} [Field K] [AddCommGroup V] [Module K V]

/-- The statement on values: `σ x` is the value (or gradient, or Hessian) the name `x` stands for. -/
def Spec.pyValue (leafVal : ℕ → V) (σ : ℕ → V) : PyStmt K → ℕ → V
  | .bindLeaf x k => Function.update σ x (leafVal k)
  | .assign x y => Function.update σ x (σ y)
  | .newSum x => Function.update σ x 0
  | .add x y z => Function.update σ x (σ y + σ z)
  | .mul x a y => Function.update σ x (a • σ y)
  | .neg x y => Function.update σ x (-σ y)
  | .iadd x y => Function.update σ x (σ x + σ y)
  | .imul x a => Function.update σ x (a • σ x)
  | .addComponent x y w => Function.update σ x (σ x + w • σ y)

/-- The names whose object no other name can see after the statement, given those (`own`) for which this held before. An operator
makes a new object, owned by the name it is bound to; an operand used in `=`, `+`, `a *`, `+=` or `add_component` may from then on be
visible through another name. -/
def Spec.ownedAfter (own : Set ℕ) : PyStmt K → Set ℕ
  | .bindLeaf x _ => insert x own
  | .assign x y => own \ {x, y}
  | .newSum x => insert x own
  | .add x y z => insert x (own \ {y, z})
  | .mul x _ y => insert x (own \ {y})
  | .neg x _ => insert x own
  | .iadd x y => insert x (own \ {y})
  | .imul x _ => insert x own
  | .addComponent _ y _ => own \ {y}

/-- A statement that changes an object in place may only do so to one that no other name sees, and not add it to itself. -/
def Spec.Allowed (own : Set ℕ) : PyStmt K → Prop
  | .iadd x y => x ∈ own ∧ y ≠ x
  | .imul x _ => x ∈ own
  | .addComponent x y _ => x ∈ own ∧ y ≠ x
  | _ => True

/-- A program all of whose in-place statements are allowed. Programs without in-place statements are. -/
def Spec.Disciplined : Set ℕ → List (PyStmt K) → Prop
  | _, [] => True
  | own, st :: rest => Spec.Allowed own st ∧ Spec.Disciplined (Spec.ownedAfter own st) rest

/-- What the name `x` evaluates to after the program (`none`: the program raises an exception, `x` is not bound, or the evaluation does
not end within the depth `fuel`). -/
def Spec.pyEval (leafVal : ℕ → V) (prog : List (PyStmt K)) (fuel x : ℕ) : Option V :=
  (pyRun ⟨[], fun _ => none⟩ prog).bind fun s => (s.env x).bind fun id => costEval leafVal s.heap fuel id

end ProxNLP
