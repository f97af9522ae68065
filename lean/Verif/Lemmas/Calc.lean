import Mathlib.Analysis.Calculus.FDeriv.Basic
import Mathlib.Analysis.Calculus.FDeriv.Add
import Mathlib.Analysis.Calculus.FDeriv.Mul
import Mathlib.Analysis.Calculus.FDeriv.Pi
import Mathlib.Analysis.Calculus.Deriv.Basic
import Mathlib.Analysis.Calculus.Deriv.Comp
import Mathlib.Analysis.Calculus.Deriv.Mul
import Mathlib.Analysis.Calculus.Deriv.Add
import Mathlib.Analysis.Calculus.Deriv.Pi
import Mathlib.Topology.Algebra.Module.FiniteDimension
import Mathlib.Analysis.Normed.Module.FiniteDimension
import Mathlib.LinearAlgebra.Matrix.ToLin

/-! Calculus helpers shared by the derivative statements. -/

namespace ProxNLP

open Matrix Asymptotics

/-- The continuous linear map `v ↦ A v` of a real matrix. -/
noncomputable def matL {m n : ℕ} (A : Fin m → Fin n → ℝ) : (Fin n → ℝ) →L[ℝ] (Fin m → ℝ) :=
  LinearMap.toContinuousLinearMap (Matrix.mulVecLin (Matrix.of A))

@[simp] theorem matL_apply {m n : ℕ} (A : Fin m → Fin n → ℝ) (v : Fin n → ℝ) (i : Fin m) :
    matL A v i = ∑ j, A i j * v j := rfl

/-- The continuous linear functional `v ↦ g·v` of a real vector. -/
noncomputable def dotL {n : ℕ} (g : Fin n → ℝ) : (Fin n → ℝ) →L[ℝ] ℝ :=
  LinearMap.toContinuousLinearMap
    { toFun := fun v => ∑ j, g j * v j
      map_add' := fun x y => by simp [mul_add, Finset.sum_add_distrib]
      map_smul' := fun a x => by simp [Finset.mul_sum, mul_left_comm] }

@[simp] theorem dotL_apply {n : ℕ} (g v : Fin n → ℝ) : dotL g v = ∑ j, g j * v j := rfl

/-- quadratic remainder ⟹ derivative -/
theorem hasFDerivAt_of_quadratic_bound {n : ℕ} (E : (Fin n → ℝ) → ℝ) (L : (Fin n → ℝ) →L[ℝ] ℝ)
    (z : Fin n → ℝ) (C : ℝ) (hC : 0 ≤ C)
    (h : ∀ z', |E z' - E z - L (z' - z)| ≤ C * ∑ i, (z' i - z i) ^ 2) : HasFDerivAt E L z := by
  refine HasFDerivAt.of_isLittleO ?_
  have h2 : (fun z' => ‖z' - z‖ ^ 2) =o[nhds z] fun z' => z' - z :=
    isLittleO_pow_sub_sub z (by norm_num)
  refine IsBigO.trans_isLittleO ?_ h2
  refine IsBigO.of_bound (C * n) (Filter.Eventually.of_forall fun z' => ?_)
  rw [Real.norm_eq_abs, Real.norm_of_nonneg (by positivity)]
  refine (h z').trans ?_
  rw [mul_assoc]
  refine mul_le_mul_of_nonneg_left ?_ hC
  have : ∑ i, (z' i - z i) ^ 2 ≤ ∑ _i : Fin n, ‖z' - z‖ ^ 2 := by
    refine Finset.sum_le_sum fun i _ => ?_
    have := norm_le_pi_norm (z' - z) i
    rw [Real.norm_eq_abs, Pi.sub_apply] at this
    rw [← sq_abs]
    exact pow_le_pow_left₀ (abs_nonneg _) this 2
  simpa using this

end ProxNLP
