import Mathlib.Algebra.Quaternion
import Mathlib.Analysis.Calculus.Deriv.Basic
import Mathlib.Analysis.Calculus.Deriv.Pi
import Mathlib.Data.Fin.VecNotation

/-! Specification for C81: rigid transformations as pairs of a translation and a unit quaternion. -/

namespace ProxNLP.Spec

open Quaternion

/-- the quaternion of a point `(translation, x, y, z, w)` -/
def attitude (x : Fin 7 → ℝ) : ℍ[ℝ] := ⟨x 6, x 3, x 4, x 5⟩

/-- the translation of a point -/
def translation (x : Fin 7 → ℝ) : Fin 3 → ℝ := ![x 0, x 1, x 2]

/-- a vector as a pure quaternion -/
def pureQuat (p : Fin 3 → ℝ) : ℍ[ℝ] := ⟨0, p 0, p 1, p 2⟩

/-- the vector part of a quaternion -/
def vecPart (h : ℍ[ℝ]) : Fin 3 → ℝ := ![h.imI, h.imJ, h.imK]

/-- a point of SE(3): the quaternion has norm one -/
def OnSE3 (x : Fin 7 → ℝ) : Prop := normSq (attitude x) = 1

/-- the action of a point of SE(3) on a point of space -/
noncomputable def rigidAct (x : Fin 7 → ℝ) (p : Fin 3 → ℝ) : Fin 3 → ℝ :=
  vecPart (attitude x * pureQuat p * star (attitude x)) + translation x

/-- coordinates of the velocity of `x` when it moves with the twist `v = (linear, angular)` in its own frame:
the translation moves with `q v q*`, the quaternion with `q ω / 2`. -/
noncomputable def bodyVelocity (x : Fin 7 → ℝ) (v : Fin 6 → ℝ) : Fin 7 → ℝ :=
  let lin := vecPart (attitude x * pureQuat ![v 0, v 1, v 2] * star (attitude x))
  let att := attitude x * pureQuat ![v 3, v 4, v 5]
  ![lin 0, lin 1, lin 2, att.imI / 2, att.imJ / 2, att.imK / 2, att.re / 2]

/-- `integrate x` is a smooth retraction at `x`: it starts at `x` and leaves it along `v` with body velocity `v`. -/
structure BodyRetraction (integrate : (Fin 7 → ℝ) → (Fin 6 → ℝ) → Fin 7 → ℝ) (x : Fin 7 → ℝ) : Prop where
  zero : integrate x 0 = x
  smooth : DifferentiableAt ℝ (integrate x) 0
  velocity : ∀ v, HasDerivAt (fun s : ℝ => integrate x (s • v)) (bodyVelocity x v) 0

end ProxNLP.Spec
