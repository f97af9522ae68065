import Verif.Spec.Calculus
import Mathlib.Analysis.Calculus.FDeriv.Add
import Mathlib.Analysis.Calculus.FDeriv.Mul
import Mathlib.Analysis.Calculus.FDeriv.Pi
import Mathlib.Analysis.Calculus.FDeriv.Comp
import Mathlib.Analysis.Calculus.FDeriv.Prod
import Mathlib.Analysis.Calculus.FDeriv.Linear

/-! Helper lemmas on `HasJacobian`: componentwise rules. -/

namespace ProxNLP

open Spec Matrix

variable {n p m : ℕ}

/-- the linear form with coefficients `a` -/
noncomputable def linForm (a : Fin n → ℝ) : (Fin n → ℝ) →L[ℝ] ℝ :=
  LinearMap.toContinuousLinearMap (∑ j, a j • LinearMap.proj j)

theorem linForm_apply (a d : Fin n → ℝ) : linForm a d = ∑ j, a j * d j := by
  simp [linForm]

theorem hasJacobian_iff (f : (Fin n → ℝ) → Fin p → ℝ) (J : Matrix (Fin p) (Fin n) ℝ) (x : Fin n → ℝ) :
    HasJacobian f J x ↔ ∀ i, HasFDerivAt (fun y => f y i) (linForm (J i)) x := by
  unfold HasJacobian
  rw [hasFDerivAt_pi']
  refine forall_congr' fun i => ?_
  have : (ContinuousLinearMap.proj i).comp (LinearMap.toContinuousLinearMap J.mulVecLin) = linForm (J i) := by
    ext d
    simp [linForm, Matrix.mulVec, dotProduct]
  rw [this]

theorem hasGradient_iff (f : (Fin n → ℝ) → ℝ) (g : Fin n → ℝ) (x : Fin n → ℝ) :
    HasGradient f g x ↔ HasFDerivAt f (linForm g) x := by
  unfold HasGradient
  rw [hasJacobian_iff]
  constructor
  · intro h; exact h 0
  · intro h _; exact h

theorem hasJacobian_comp {f : (Fin m → ℝ) → Fin p → ℝ} {g : (Fin n → ℝ) → Fin m → ℝ} {A : Matrix (Fin p) (Fin m) ℝ}
    {B : Matrix (Fin m) (Fin n) ℝ} {x : Fin n → ℝ} (hf : HasJacobian f A (g x)) (hg : HasJacobian g B x) :
    HasJacobian (fun y => f (g y)) (A * B) x := by
  have := HasFDerivAt.comp x hf hg
  unfold HasJacobian
  refine this.congr_fderiv ?_
  ext d
  simp [Matrix.mulVec_mulVec]

theorem linForm_inj {a b : Fin n → ℝ} (h : linForm a = linForm b) : a = b := by
  ext j
  have := congrArg (fun L => L (Pi.single j 1)) h
  simpa [linForm_apply, Pi.single_apply] using this

theorem hasJacobian_unique {f : (Fin n → ℝ) → Fin p → ℝ} {A B : Matrix (Fin p) (Fin n) ℝ} {x : Fin n → ℝ}
    (h1 : HasJacobian f A x) (h2 : HasJacobian f B x) : A = B := by
  rw [hasJacobian_iff] at h1 h2
  ext i j
  exact congrFun (linForm_inj ((h1 i).unique (h2 i))) j

theorem hasFDerivAt_coord (j : Fin n) (x : Fin n → ℝ) :
    HasFDerivAt (fun y : Fin n → ℝ => y j) (linForm (Pi.single j 1)) x := by
  have := (ContinuousLinearMap.proj (R := ℝ) (φ := fun _ : Fin n => ℝ) j).hasFDerivAt (x := x)
  refine this.congr_fderiv ?_
  ext d
  simp [linForm_apply, Pi.single_apply]

end ProxNLP
