import Verif.Model.RigidTransform
import Verif.Spec.RigidTransform
import Verif.Lemmas.Calculus
import Mathlib.Analysis.Calculus.Deriv.Mul
import Mathlib.Analysis.Calculus.Deriv.Add
import Mathlib.Analysis.Calculus.Deriv.Comp
import Mathlib.Analysis.Calculus.Deriv.Prod
import Mathlib.Analysis.SpecialFunctions.Sqrt
import Mathlib.Tactic.FinCases
import Mathlib.Tactic.Ring
import Mathlib.Tactic.LinearCombination
import Mathlib.Tactic.NormNum
import Mathlib.Algebra.BigOperators.Fin

/-! Property theorems for C81: the action of a rigid transformation on a point. -/

set_option linter.unusedSectionVars false
namespace ProxNLP

open Spec Matrix Quaternion

theorem attitude_re (x : Fin 7 → ℝ) : (attitude x).re = x 6 := rfl
theorem attitude_imI (x : Fin 7 → ℝ) : (attitude x).imI = x 3 := rfl
theorem attitude_imJ (x : Fin 7 → ℝ) : (attitude x).imJ = x 4 := rfl
theorem attitude_imK (x : Fin 7 → ℝ) : (attitude x).imK = x 5 := rfl
theorem pureQuat_re (p : Fin 3 → ℝ) : (pureQuat p).re = 0 := rfl
theorem pureQuat_imI (p : Fin 3 → ℝ) : (pureQuat p).imI = p 0 := rfl
theorem pureQuat_imJ (p : Fin 3 → ℝ) : (pureQuat p).imJ = p 1 := rfl
theorem pureQuat_imK (p : Fin 3 → ℝ) : (pureQuat p).imK = p 2 := rfl

theorem onSE3_iff (x : Fin 7 → ℝ) : OnSE3 x ↔ x 6 ^ 2 + x 3 ^ 2 + x 4 ^ 2 + x 5 ^ 2 = 1 := by
  unfold OnSE3
  rw [Quaternion.normSq_def', attitude_re, attitude_imI, attitude_imJ, attitude_imK]

/-- conjugation by a quaternion in coordinates -/
theorem conj_coords (x : Fin 7 → ℝ) (p : Fin 3 → ℝ) :
    vecPart (attitude x * pureQuat p * star (attitude x)) =
      ![(x 6 ^ 2 + x 3 ^ 2 - x 4 ^ 2 - x 5 ^ 2) * p 0 + 2 * (x 3 * x 4 - x 6 * x 5) * p 1 + 2 * (x 3 * x 5 + x 6 * x 4) * p 2,
        2 * (x 3 * x 4 + x 6 * x 5) * p 0 + (x 6 ^ 2 - x 3 ^ 2 + x 4 ^ 2 - x 5 ^ 2) * p 1 + 2 * (x 4 * x 5 - x 6 * x 3) * p 2,
        2 * (x 3 * x 5 - x 6 * x 4) * p 0 + 2 * (x 4 * x 5 + x 6 * x 3) * p 1 +
          (x 6 ^ 2 - x 3 ^ 2 - x 4 ^ 2 + x 5 ^ 2) * p 2] := by
  ext i
  fin_cases i <;>
    simp [vecPart, attitude_re, attitude_imI, attitude_imJ, attitude_imK, pureQuat_re, pureQuat_imI, pureQuat_imJ,
      pureQuat_imK] <;> ring

/-- the rotation matrix of the code is conjugation by the quaternion -/
theorem rotation_conj (x : Fin 7 → ℝ) (hx : OnSE3 x) (p : Fin 3 → ℝ) :
    (rotationOf x).mulVec p = vecPart (attitude x * pureQuat p * star (attitude x)) := by
  rw [onSE3_iff] at hx
  rw [conj_coords]
  ext i
  fin_cases i
  · simp [rotationOf, quatMatrix, Matrix.mulVec, dotProduct, Fin.sum_univ_succ]
    linear_combination (-p 0) * hx
  · simp [rotationOf, quatMatrix, Matrix.mulVec, dotProduct, Fin.sum_univ_succ]
    linear_combination (-p 1) * hx
  · simp [rotationOf, quatMatrix, Matrix.mulVec, dotProduct, Fin.sum_univ_succ]
    linear_combination (-p 2) * hx

/-- **C81, value**: at every point of SE(3) the function returns the image of the stored point under the rigid
transformation, `q p q* + t`. -/
theorem C81_value (point : Fin 3 → ℝ) (x : Fin 7 → ℝ) (hx : OnSE3 x) :
    (rigidPointFn point).eval x = rigidAct x point := by
  ext i
  show (rotationOf x).mulVec point i + _ = _
  rw [rotation_conj x hx]
  rfl

/-- **C81, rigidity**: two stored points keep their distance. -/
theorem C81_rigid (p p' : Fin 3 → ℝ) (x : Fin 7 → ℝ) (hx : OnSE3 x) :
    ∑ i, ((rigidPointFn p).eval x i - (rigidPointFn p').eval x i) ^ 2 = ∑ i, (p i - p' i) ^ 2 := by
  rw [C81_value p x hx, C81_value p' x hx]
  rw [onSE3_iff] at hx
  show ∑ i : Fin 3, ((vecPart _ + translation x) i - (vecPart _ + translation x) i) ^ 2 = _
  rw [conj_coords, conj_coords]
  simp only [Fin.sum_univ_three, Pi.add_apply, add_sub_add_right_eq_sub]
  simp
  linear_combination (((p 0 - p' 0) ^ 2 + (p 1 - p' 1) ^ 2 + (p 2 - p' 2) ^ 2) *
    (x 6 ^ 2 + x 3 ^ 2 + x 4 ^ 2 + x 5 ^ 2 + 1)) * hx

/-- the rotation matrix moves with the body angular velocity -/
theorem rotation_deriv (x : Fin 7 → ℝ) (hx : OnSE3 x) (γ : ℝ → Fin 7 → ℝ) (h0 : γ 0 = x) (v : Fin 6 → ℝ)
    (h : HasDerivAt γ (bodyVelocity x v) 0) (p : Fin 3 → ℝ) (i : Fin 3) :
    HasDerivAt (fun s => (rotationOf (γ s)).mulVec p i) ((rotationOf x * skewMatrix ![v 3, v 4, v 5]).mulVec p i) 0 := by
  rw [onSE3_iff] at hx
  rw [hasDerivAt_pi] at h
  have hv3 : bodyVelocity x v 3 = (x 6 * v 3 + x 4 * v 5 - x 5 * v 4) / 2 := by
    simp [bodyVelocity, attitude_re, attitude_imI, attitude_imJ, attitude_imK, pureQuat_re, pureQuat_imI, pureQuat_imJ,
      pureQuat_imK]
  have hv4 : bodyVelocity x v 4 = (x 6 * v 4 - x 3 * v 5 + x 5 * v 3) / 2 := by
    simp [bodyVelocity, attitude_re, attitude_imI, attitude_imJ, attitude_imK, pureQuat_re, pureQuat_imI, pureQuat_imJ,
      pureQuat_imK]
  have hv5 : bodyVelocity x v 5 = (x 6 * v 5 + x 3 * v 4 - x 4 * v 3) / 2 := by
    simp [bodyVelocity, attitude_re, attitude_imI, attitude_imJ, attitude_imK, pureQuat_re, pureQuat_imI, pureQuat_imJ,
      pureQuat_imK]
  have hv6 : bodyVelocity x v 6 = (-x 3 * v 3 - x 4 * v 4 - x 5 * v 5) / 2 := by
    simp [bodyVelocity, attitude_re, attitude_imI, attitude_imJ, attitude_imK, pureQuat_re, pureQuat_imI, pureQuat_imJ,
      pureQuat_imK]
  have h3 := h 3
  have h4 := h 4
  have h5 := h 5
  have h6 := h 6
  rw [hv3] at h3
  rw [hv4] at h4
  rw [hv5] at h5
  rw [hv6] at h6
  have e3 : γ 0 3 = x 3 := by rw [h0]
  have e4 : γ 0 4 = x 4 := by rw [h0]
  have e5 : γ 0 5 = x 5 := by rw [h0]
  have e6 : γ 0 6 = x 6 := by rw [h0]
  have dg : ∀ {f g : ℝ → ℝ} {f' g' : ℝ}, HasDerivAt f f' 0 → HasDerivAt g g' 0 →
      HasDerivAt (fun s => 1 - (2 * f s * f s + 2 * g s * g s)) (-(4 * f 0 * f' + 4 * g 0 * g')) 0 := by
    intro f g f' g' hf hg
    have := ((((hf.mul hf).const_mul 2).add ((hg.mul hg).const_mul 2)).const_sub 1)
    refine (this.congr_deriv (by ring)).congr_of_eventuallyEq (Filter.Eventually.of_forall fun s => ?_)
    simp only [Pi.mul_apply, Pi.add_apply]
    ring
  have mo : ∀ {f g a b : ℝ → ℝ} {f' g' a' b' : ℝ}, HasDerivAt f f' 0 → HasDerivAt g g' 0 → HasDerivAt a a' 0 →
      HasDerivAt b b' 0 → HasDerivAt (fun s => 2 * f s * g s + 2 * a s * b s)
        (2 * (f' * g 0 + f 0 * g') + 2 * (a' * b 0 + a 0 * b')) 0 := by
    intro f g a b f' g' a' b' hf hg ha hb
    have := (((hf.mul hg).const_mul 2).add ((ha.mul hb).const_mul 2))
    refine this.congr_of_eventuallyEq (Filter.Eventually.of_forall fun s => ?_)
    simp only [Pi.mul_apply, Pi.add_apply]
    ring
  have mi : ∀ {f g a b : ℝ → ℝ} {f' g' a' b' : ℝ}, HasDerivAt f f' 0 → HasDerivAt g g' 0 → HasDerivAt a a' 0 →
      HasDerivAt b b' 0 → HasDerivAt (fun s => 2 * f s * g s - 2 * a s * b s)
        (2 * (f' * g 0 + f 0 * g') - 2 * (a' * b 0 + a 0 * b')) 0 := by
    intro f g a b f' g' a' b' hf hg ha hb
    have := (((hf.mul hg).const_mul 2).sub ((ha.mul hb).const_mul 2))
    refine this.congr_of_eventuallyEq (Filter.Eventually.of_forall fun s => ?_)
    simp only [Pi.mul_apply, Pi.sub_apply]
    ring
  fin_cases i
  · have d := (((dg h4 h5).mul_const (p 0)).add ((mi h4 h3 h5 h6).mul_const (p 1))).add ((mo h5 h3 h4 h6).mul_const (p 2))
    refine (d.congr_deriv ?_).congr_of_eventuallyEq (Filter.Eventually.of_forall fun s => ?_)
    · rw [e3, e4, e5, e6]
      simp [rotationOf, quatMatrix, skewMatrix, Matrix.mulVec, dotProduct, Fin.sum_univ_succ, Matrix.mul_apply]
      linear_combination (v 4 * p 2 - v 5 * p 1) * hx
    · simp [rotationOf, quatMatrix, Matrix.mulVec, dotProduct, Fin.sum_univ_succ]
      ring
  · have d := (((mo h4 h3 h5 h6).mul_const (p 0)).add ((dg h3 h5).mul_const (p 1))).add ((mi h5 h4 h3 h6).mul_const (p 2))
    refine (d.congr_deriv ?_).congr_of_eventuallyEq (Filter.Eventually.of_forall fun s => ?_)
    · rw [e3, e4, e5, e6]
      simp [rotationOf, quatMatrix, skewMatrix, Matrix.mulVec, dotProduct, Fin.sum_univ_succ, Matrix.mul_apply]
      linear_combination (v 5 * p 0 - v 3 * p 2) * hx
    · simp [rotationOf, quatMatrix, Matrix.mulVec, dotProduct, Fin.sum_univ_succ]
      ring
  · have d := (((mi h5 h3 h4 h6).mul_const (p 0)).add ((mo h5 h4 h3 h6).mul_const (p 1))).add ((dg h3 h4).mul_const (p 2))
    refine (d.congr_deriv ?_).congr_of_eventuallyEq (Filter.Eventually.of_forall fun s => ?_)
    · rw [e3, e4, e5, e6]
      simp [rotationOf, quatMatrix, skewMatrix, Matrix.mulVec, dotProduct, Fin.sum_univ_succ, Matrix.mul_apply]
      linear_combination (v 3 * p 1 - v 4 * p 0) * hx
    · simp [rotationOf, quatMatrix, Matrix.mulVec, dotProduct, Fin.sum_univ_succ]
      ring

/-- the Jacobian of the code, applied to a twist -/
theorem rigidJac_apply (point : Fin 3 → ℝ) (x : Fin 7 → ℝ) (J : Matrix (Fin 3) (Fin 6) ℝ)
    (hJ : (rigidPointFn point).jac x = some J) (v : Fin 6 → ℝ) :
    J.mulVec v = (rotationOf x).mulVec ![v 0, v 1, v 2] + (rotationOf x * skewMatrix ![v 3, v 4, v 5]).mulVec point := by
  injection hJ with hJ
  subst hJ
  ext i
  fin_cases i <;>
  · simp [Matrix.mulVec, dotProduct, Fin.sum_univ_succ, Matrix.mul_apply, skewMatrix]
    ring

theorem rigidEval_differentiable (point : Fin 3 → ℝ) :
    Differentiable ℝ (fun (x : Fin 7 → ℝ) (i : Fin 3) => (rotationOf x).mulVec point i + ![x 0, x 1, x 2] i) := by
  rw [differentiable_pi]
  intro i
  fin_cases i <;>
  · simp [rotationOf, quatMatrix, Matrix.mulVec, dotProduct, Fin.sum_univ_succ]
    fun_prop

theorem rigid_hasJacobian (point : Fin 3 → ℝ) (x : Fin 7 → ℝ) (hx : OnSE3 x)
    (integrate : (Fin 7 → ℝ) → (Fin 6 → ℝ) → Fin 7 → ℝ) (hr : BodyRetraction integrate x)
    (J : Matrix (Fin 3) (Fin 6) ℝ) (hJ : (rigidPointFn point).jac x = some J) (f : (Fin 7 → ℝ) → Fin 3 → ℝ)
    (hf : f = fun x i => (rotationOf x).mulVec point i + ![x 0, x 1, x 2] i) :
    HasJacobian (fun d => f (integrate x d)) J 0 := by
  have hd : DifferentiableAt ℝ (fun d : Fin 6 → ℝ => f (integrate x d)) 0 := by
    have h1 : DifferentiableAt ℝ f (integrate x 0) := by
      rw [hf]; exact (rigidEval_differentiable point) _
    exact h1.comp (0 : Fin 6 → ℝ) hr.smooth
  show HasFDerivAt _ (LinearMap.toContinuousLinearMap J.mulVecLin) 0
  refine hd.hasFDerivAt.congr_fderiv ?_
  refine ContinuousLinearMap.ext fun v => ?_
  have h1 : HasDerivAt (fun s : ℝ => f (integrate x (s • v)))
      (fderiv ℝ (fun d : Fin 6 → ℝ => f (integrate x d)) 0 v) 0 := by
    have hl : HasDerivAt (fun s : ℝ => s • v) v 0 := by
      simpa using (hasDerivAt_id (0 : ℝ)).smul_const v
    have hd' : HasFDerivAt (fun d : Fin 6 → ℝ => f (integrate x d))
        (fderiv ℝ (fun d : Fin 6 → ℝ => f (integrate x d)) 0) ((0 : ℝ) • v) := by
      rw [zero_smul]; exact hd.hasFDerivAt
    exact hd'.comp_hasDerivAt (0 : ℝ) hl
  refine h1.unique ?_
  show HasDerivAt _ (J.mulVec v) 0
  rw [rigidJac_apply point x J hJ v, rotation_conj x hx]
  have hv := hr.velocity v
  have h00 : integrate x ((0 : ℝ) • v) = x := by rw [zero_smul, hr.zero]
  rw [hasDerivAt_pi]
  intro i
  have hR := rotation_deriv x hx (fun s => integrate x (s • v)) h00 v hv point i
  rw [hasDerivAt_pi] at hv
  have hT : HasDerivAt (fun s : ℝ => (![integrate x (s • v) 0, integrate x (s • v) 1, integrate x (s • v) 2] : Fin 3 → ℝ) i)
      (vecPart (attitude x * pureQuat ![v 0, v 1, v 2] * star (attitude x)) i) 0 := by
    fin_cases i
    · exact hv 0
    · exact hv 1
    · exact hv 2
  have := hR.add hT
  rw [Pi.add_apply, add_comm]
  subst hf
  exact this

/-- **C81, Jacobian**: at every point of SE(3), and for every smooth retraction that leaves the point along a twist with
that body velocity, the Jacobian returned is the derivative of the value. -/
theorem C81_jacobian (point : Fin 3 → ℝ) (x : Fin 7 → ℝ) (hx : OnSE3 x)
    (integrate : (Fin 7 → ℝ) → (Fin 6 → ℝ) → Fin 7 → ℝ) (hr : BodyRetraction integrate x) :
    ∃ J, (rigidPointFn point).jac x = some J ∧ HasTangentJacobian integrate (rigidPointFn point).eval J x := by
  exact ⟨_, rfl, rigid_hasJacobian point x hx integrate hr _ rfl _ rfl⟩

/-- a rotation matrix has no zero column -/
theorem rotation_col (x : Fin 7 → ℝ) (hx : OnSE3 x) : ∃ i, rotationOf x i 0 ≠ 0 := by
  by_contra hc
  push Not at hc
  have h := C81_rigid ![1, 0, 0] ![0, 0, 0] x hx
  have h0 := hc 0
  have h1 := hc 1
  have h2 := hc 2
  have : ∀ i, (rigidPointFn ![1, 0, 0]).eval x i - (rigidPointFn (K := ℝ) ![0, 0, 0]).eval x i = rotationOf x i 0 := by
    intro i
    show ((rotationOf x).mulVec ![1, 0, 0] i + _) - ((rotationOf x).mulVec ![0, 0, 0] i + _) = _
    simp [Matrix.mulVec, dotProduct, Fin.sum_univ_succ]
  have h' : ∑ i : Fin 3, rotationOf x i 0 ^ 2 = ∑ i : Fin 3, ((![1, 0, 0] : Fin 3 → ℝ) i - (![0, 0, 0] : Fin 3 → ℝ) i) ^ 2 := by
    rw [← h]
    exact Finset.sum_congr rfl fun i _ => by rw [← this i]
  simp [Fin.sum_univ_succ, hc] at h'

/-- **C81, vector-Hessian product (negative)**: the function inherits the zero vector-Hessian product of the base class,
and at no point of SE(3) is that the derivative of `y ↦ J(y)ᵀ λ` for every `λ`. -/
theorem C81_vhp_false (point : Fin 3 → ℝ) (x : Fin 7 → ℝ) (hx : OnSE3 x)
    (integrate : (Fin 7 → ℝ) → (Fin 6 → ℝ) → Fin 7 → ℝ) (hr : BodyRetraction integrate x)
    (Jf : (Fin 7 → ℝ) → Matrix (Fin 3) (Fin 6) ℝ) (hJ : ∀ y, (rigidPointFn point).jac y = some (Jf y)) :
    ¬ ∀ l : Fin 3 → ℝ, HasTangentJacobian integrate (fun y => (Jf y).transpose.mulVec l)
      ((rigidPointFn point).vhp x l) x := by
  intro hall
  obtain ⟨i, hi⟩ := rotation_col x hx
  have hJf : ∀ y i, Jf y i 1 = rotationOf y i 1 := by
    intro y i
    have := hJ y
    injection this with this
    rw [← this]
    rfl
  have h := (hasJacobian_iff _ _ _).1 (hall (Pi.single i 1)) 1
  let v : Fin 6 → ℝ := ![0, 0, 0, 0, 0, 1]
  have hl : HasDerivAt (fun s : ℝ => s • v) v 0 := by
    simpa using (hasDerivAt_id (0 : ℝ)).smul_const v
  let H : Matrix (Fin 6) (Fin 6) ℝ := (rigidPointFn point).vhp x (Pi.single i 1)
  have hd' : HasFDerivAt (fun d : Fin 6 → ℝ => (Jf (integrate x d)).transpose.mulVec (Pi.single i 1) 1)
      (linForm (H 1)) ((0 : ℝ) • v) := by
    rw [zero_smul]; exact h
  have h1 := hd'.comp_hasDerivAt (0 : ℝ) hl
  have h00 : integrate x ((0 : ℝ) • v) = x := by rw [zero_smul, hr.zero]
  have h2 := rotation_deriv x hx (fun s => integrate x (s • v)) h00 v (hr.velocity v) ![0, 1, 0] i
  have h3 := h1.unique (h2.congr_of_eventuallyEq (Filter.Eventually.of_forall fun s => ?_))
  · have hz : linForm (H 1) v = 0 := by
      rw [linForm_apply]
      exact Finset.sum_eq_zero fun j _ => zero_mul _
    rw [hz] at h3
    apply hi
    have : (rotationOf x * skewMatrix ![v 3, v 4, v 5]).mulVec ![0, 1, 0] i = - rotationOf x i 0 := by
      simp [v, Matrix.mulVec, dotProduct, Fin.sum_univ_succ, Matrix.mul_apply, skewMatrix]
    rw [this] at h3
    linarith
  · show (Jf (integrate x (s • v))).transpose.mulVec (Pi.single i 1) 1 = _
    rw [Matrix.mulVec_single_one]
    show Jf (integrate x (s • v)) i 1 = _
    rw [hJf]
    simp [Matrix.mulVec, dotProduct, Fin.sum_univ_succ]

/-- **C81, rigidity without normalisation (negative)**: the quaternion is not normalised and its norm not checked; with
the coordinates `(0, 0, 0 | 1, 0, 0, 1)` the image of a segment of length one is longer than two. -/
theorem C81_rigid_unnormalised_false :
    ∃ (p p' : Fin 3 → ℝ) (x : Fin 7 → ℝ), ∑ i, (p i - p' i) ^ 2 = 1 ∧
      ∑ i, ((rigidPointFn p).eval x i - (rigidPointFn p').eval x i) ^ 2 > 4 := by
  refine ⟨![0, 1, 0], ![0, 0, 0], ![0, 0, 0, 1, 0, 0, 1], by simp [Fin.sum_univ_succ], ?_⟩
  show ∑ i : Fin 3, (((rotationOf _).mulVec _ i + _) - ((rotationOf _).mulVec _ i + _)) ^ 2 > 4
  simp [Fin.sum_univ_succ, rotationOf, quatMatrix, Matrix.mulVec, dotProduct]
  norm_num

/-! ### The hypotheses are met -/

namespace Demo

/-- the real part of the quaternion increment -/
noncomputable def seRoot (v : Fin 6 → ℝ) : ℝ := Real.sqrt (1 - (v 3 ^ 2 + v 4 ^ 2 + v 5 ^ 2) / 4)

/-- the quaternion increment -/
noncomputable def seStep (v : Fin 6 → ℝ) : ℍ[ℝ] := ⟨seRoot v, v 3 / 2, v 4 / 2, v 5 / 2⟩

theorem seStep_re (v : Fin 6 → ℝ) : (seStep v).re = seRoot v := rfl
theorem seStep_imI (v : Fin 6 → ℝ) : (seStep v).imI = v 3 / 2 := rfl
theorem seStep_imJ (v : Fin 6 → ℝ) : (seStep v).imJ = v 4 / 2 := rfl
theorem seStep_imK (v : Fin 6 → ℝ) : (seStep v).imK = v 5 / 2 := rfl

/-- a retraction of SE(3) at its points: the twist moves the translation linearly and multiplies the quaternion by the
unit quaternion `(ω/2, √(1 - |ω|²/4))` -/
noncomputable def seRetract (x : Fin 7 → ℝ) (v : Fin 6 → ℝ) : Fin 7 → ℝ :=
  let lin := vecPart (attitude x * pureQuat ![v 0, v 1, v 2] * star (attitude x))
  let att := attitude x * seStep v
  ![x 0 + lin 0, x 1 + lin 1, x 2 + lin 2, att.imI, att.imJ, att.imK, att.re]

theorem seRoot_zero : seRoot 0 = 1 := by simp [seRoot]

theorem seRoot_diff : DifferentiableAt ℝ seRoot 0 := by
  refine DifferentiableAt.sqrt ?_ (by simp)
  fun_prop

theorem seRoot_deriv (v : Fin 6 → ℝ) : HasDerivAt (fun s : ℝ => seRoot (s • v)) 0 0 := by
  have h : HasDerivAt (fun s : ℝ => 1 - ((s * v 3) ^ 2 + (s * v 4) ^ 2 + (s * v 5) ^ 2) / 4) 0 0 := by
    have hp : HasDerivAt (fun s : ℝ => s * s) 0 0 := by
      exact ((hasDerivAt_id (0 : ℝ)).mul (hasDerivAt_id (0 : ℝ))).congr_deriv (by simp)
    have := (hp.mul_const ((v 3 ^ 2 + v 4 ^ 2 + v 5 ^ 2) / 4)).const_sub 1
    refine (this.congr_deriv (by simp)).congr_of_eventuallyEq (Filter.Eventually.of_forall fun s => ?_)
    ring
  have := h.sqrt (by simp)
  simpa [seRoot] using this

theorem seRetract_coords (x : Fin 7 → ℝ) (v : Fin 6 → ℝ) :
    seRetract x v =
      ![x 0 + vecPart (attitude x * pureQuat ![v 0, v 1, v 2] * star (attitude x)) 0,
        x 1 + vecPart (attitude x * pureQuat ![v 0, v 1, v 2] * star (attitude x)) 1,
        x 2 + vecPart (attitude x * pureQuat ![v 0, v 1, v 2] * star (attitude x)) 2,
        x 6 * (v 3 / 2) + x 3 * seRoot v + x 4 * (v 5 / 2) - x 5 * (v 4 / 2),
        x 6 * (v 4 / 2) - x 3 * (v 5 / 2) + x 4 * seRoot v + x 5 * (v 3 / 2),
        x 6 * (v 5 / 2) + x 3 * (v 4 / 2) - x 4 * (v 3 / 2) + x 5 * seRoot v,
        x 6 * seRoot v - x 3 * (v 3 / 2) - x 4 * (v 4 / 2) - x 5 * (v 5 / 2)] := by
  simp [seRetract, seStep_re, seStep_imI, seStep_imJ, seStep_imK, attitude_re, attitude_imI, attitude_imJ, attitude_imK]

theorem seRetract_retraction (x : Fin 7 → ℝ) : BodyRetraction seRetract x := by
  constructor
  · rw [seRetract_coords, conj_coords, seRoot_zero]
    ext i
    fin_cases i <;> simp
  · have : seRetract x = fun v => seRetract x v := rfl
    rw [this]
    simp only [seRetract_coords, conj_coords]
    rw [differentiableAt_pi]
    have := seRoot_diff
    intro i
    fin_cases i <;>
    · simp
      fun_prop
  · intro v
    have hr := seRoot_deriv v
    simp only [seRetract_coords, conj_coords]
    have hs := hasDerivAt_id (0 : ℝ)
    have lin : ∀ a b c : ℝ, HasDerivAt (fun s : ℝ => a + s * b + c * seRoot (s • v)) b 0 := by
      intro a b c
      have := ((hs.mul_const b).const_add a).add (hr.const_mul c)
      refine (this.congr_deriv (by simp)).congr_of_eventuallyEq (Filter.Eventually.of_forall fun s => rfl)
    rw [hasDerivAt_pi]
    intro i
    have key : ∀ (f : ℝ → ℝ) (d a c : ℝ), (∀ s, f s = a + s * d + c * seRoot (s • v)) → HasDerivAt f d 0 := by
      intro f d a c h
      rw [show f = _ from funext h]
      exact lin a d c
    fin_cases i
    · refine key _ _ (x 0) 0 fun s => ?_
      simp [bodyVelocity, conj_coords]
      ring
    · refine key _ _ (x 1) 0 fun s => ?_
      simp [bodyVelocity, conj_coords]
      ring
    · refine key _ _ (x 2) 0 fun s => ?_
      simp [bodyVelocity, conj_coords]
      ring
    · refine key _ _ 0 (x 3) fun s => ?_
      simp [bodyVelocity, attitude_re, attitude_imI, attitude_imJ, attitude_imK, pureQuat_re, pureQuat_imI, pureQuat_imJ,
        pureQuat_imK]
      ring
    · refine key _ _ 0 (x 4) fun s => ?_
      simp [bodyVelocity, attitude_re, attitude_imI, attitude_imJ, attitude_imK, pureQuat_re, pureQuat_imI, pureQuat_imJ,
        pureQuat_imK]
      ring
    · refine key _ _ 0 (x 5) fun s => ?_
      simp [bodyVelocity, attitude_re, attitude_imI, attitude_imJ, attitude_imK, pureQuat_re, pureQuat_imI, pureQuat_imJ,
        pureQuat_imK]
      ring
    · refine key _ _ 0 (x 6) fun s => ?_
      simp [bodyVelocity, attitude_re, attitude_imI, attitude_imJ, attitude_imK, pureQuat_re, pureQuat_imI, pureQuat_imJ,
        pureQuat_imK]
      ring

/-- it stays on SE(3) as long as the angular part is shorter than two -/
theorem seRetract_onSE3 (x : Fin 7 → ℝ) (hx : OnSE3 x) (v : Fin 6 → ℝ) (hv : v 3 ^ 2 + v 4 ^ 2 + v 5 ^ 2 ≤ 4) :
    OnSE3 (seRetract x v) := by
  have hr : seRoot v ^ 2 = 1 - (v 3 ^ 2 + v 4 ^ 2 + v 5 ^ 2) / 4 := Real.sq_sqrt (by linarith)
  rw [onSE3_iff] at hx ⊢
  rw [seRetract_coords]
  simp
  linear_combination hx + (x 6 ^ 2 + x 3 ^ 2 + x 4 ^ 2 + x 5 ^ 2) * hr

/-- half a turn about the first axis, at `(1, 2, 3)` -/
def seTurn : Fin 7 → ℝ := ![1, 2, 3, 1, 0, 0, 0]

theorem seTurn_on : OnSE3 seTurn := by
  rw [onSE3_iff]; simp [seTurn]

example : (rigidPointFn ![1, 1, 1]).eval seTurn = ![2, 1, 2] := by
  rw [C81_value _ _ seTurn_on]
  ext i
  show (vecPart _ + translation seTurn) i = _
  rw [conj_coords]
  fin_cases i <;> simp [seTurn, translation] <;> norm_num

example : ∃ J, (rigidPointFn ![1, 1, 1]).jac seTurn = some J ∧
    HasTangentJacobian seRetract (rigidPointFn ![1, 1, 1]).eval J seTurn :=
  C81_jacobian _ _ seTurn_on _ (seRetract_retraction _)

example : ¬ ∀ l : Fin 3 → ℝ, HasTangentJacobian seRetract
    (fun y => (Matrix.of fun (i : Fin 3) (j : Fin 6) => if h : j.val < 3 then rotationOf y i ⟨j.val, h⟩
      else -(rotationOf y * skewMatrix ![1, 1, 1] : Matrix (Fin 3) (Fin 3) ℝ) i ⟨j.val - 3, by omega⟩).transpose.mulVec l)
    ((rigidPointFn ![1, 1, 1]).vhp seTurn l) seTurn :=
  C81_vhp_false _ _ seTurn_on _ (seRetract_retraction _) _ fun _ => rfl

end Demo

end ProxNLP
