import Verif.Model.Casadi
import Verif.Spec.Calculus

/-! Specification: the function that a CasADi expression of the user stands for, and where it is defined. -/

namespace ProxNLP.Spec

/-- The expression has a value and can be differentiated: no division by zero, no square root or logarithm of a number that is not
positive. -/
def Defined {S : Type} (env : S → ℝ) : Sx S → Prop
  | .const _ | .sym _ => True
  | .add a b | .sub a b | .mul a b => Defined env a ∧ Defined env b
  | .div a b => Defined env a ∧ Defined env b ∧ b.eval env ≠ 0
  | .neg a | .sq a | .exp a | .sin a | .cos a => Defined env a
  | .sqrt a | .log a => Defined env a ∧ 0 < a.eval env

/-- Values of the user's symbols: `cx` is the point `x`. -/
def userEnv {n : ℕ} (x : Fin n → ℝ) : UserSym n → ℝ
  | .input i => x i
  | .other _ => 0

/-- The expression uses no symbol besides `cx`. -/
def OnlyInputs {n : ℕ} (e : Sx (UserSym n)) : Prop := ∀ s ∈ e.symbols, ∃ i, s = .input i

/-- The function from points to vectors that a column of expressions stands for. -/
noncomputable def columnFunction {n r : ℕ} (e : Fin r → Sx (UserSym n)) (x : Fin n → ℝ) : Fin r → ℝ := fun i => (e i).eval (userEnv x)

end ProxNLP.Spec
