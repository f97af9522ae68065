import Verif.Model.Functions
import Verif.Lemmas.Calculus
import Mathlib.LinearAlgebra.Matrix.Notation
import Mathlib.Tactic.Ring
import Mathlib.Tactic.Linarith
import Mathlib.Tactic.FinCases

/-! Property theorems for C38, C39: costs that are quadratic in a residual. -/

set_option linter.unusedSectionVars false
namespace ProxNLP

open Matrix Spec

/-! ### C38 -/

section C38
variable {K : Type} [Field K] {X : Type} {n p : ℕ}

/-- What the gradient at `x` should be: `J(x)ᵀ (W r(x) + b)`. -/
def Spec.quadGradient (q : QuadCost X K n p) (x : X) : Fin n → K :=
  (q.residual.jac x).transpose.mulVec (q.weights.mulVec (q.residual.eval x) + q.slope)

/-- What the Hessian at `x` should be: `J(x)ᵀ W J(x)`, plus the second-order term if Gauss-Newton is off. -/
def Spec.quadHessian (q : QuadCost X K n p) (x : X) : Matrix (Fin n) (Fin n) K :=
  (if q.gaussNewton then 0 else q.residual.vhp x (q.weights.mulVec (q.residual.eval x) + q.slope)) +
    (q.residual.jac x).transpose * q.weights * q.residual.jac x

/-- operations after which the stored residual is still that of the last `call` -/
def QuadOp.keepsErr : QuadOp X K n p → Bool
  | .call _ => false
  | .setResidual _ => false
  | _ => true

theorem keepsErr_run (q : QuadCost X K n p) (ops : List (QuadOp X K n p)) (h : ∀ o ∈ ops, o.keepsErr = true) :
    (q.run ops).err = q.err ∧ (q.run ops).residual = q.residual := by
  induction ops generalizing q with
  | nil => exact ⟨rfl, rfl⟩
  | cons o ops ih =>
    obtain ⟨h1, h2⟩ := ih (q.apply o) fun o' ho => h o' (List.mem_cons_of_mem _ ho)
    have ho := h o List.mem_cons_self
    have hrun : q.run (o :: ops) = (q.apply o).run ops := rfl
    rw [hrun, h1, h2]
    cases o <;> simp_all [QuadOp.keepsErr, QuadCost.apply, QuadCost.gradient, QuadCost.hessian]

/-- **C38, partial**: for every history, if the last `call` was made at `x` (and the target was not changed since), the
gradient and the Hessian at `x` are the right ones (for the current weights, slope and Gauss-Newton flag).
Missing: other histories, see `C38_history_false`. -/
theorem C38_after_call_partial (q : QuadCost X K n p) (pre post : List (QuadOp X K n p)) (x : X)
    (hpost : ∀ o ∈ post, o.keepsErr = true) :
    let q' := q.run (pre ++ .call x :: post)
    (q'.gradient x).2 = quadGradient q' x ∧ (q'.hessian x).2 = quadHessian q' x := by
  intro q'
  have hq' : q' = (((q.run pre).call x).1).run post := by
    simp only [q', QuadCost.run, List.foldl_append, List.foldl_cons]
    rfl
  obtain ⟨h1, h2⟩ := keepsErr_run (((q.run pre).call x).1) post hpost
  have herr : q'.err = q'.residual.eval x := by
    rw [hq', h1, h2]; rfl
  constructor
  · ext j
    simp only [QuadCost.gradient, quadGradient, herr, Matrix.mulVec_add, Pi.add_apply, Matrix.mulVec_mulVec]
  · simp only [QuadCost.hessian, quadHessian, herr]
    have hw : (fun i => q'.weights.mulVec (q'.residual.eval x) i + q'.slope i) =
        q'.weights.mulVec (q'.residual.eval x) + q'.slope := rfl
    rw [hw]
    cases q'.gaussNewton <;> simp

/-- The value returned by `call` never depends on the history. -/
theorem C38_value (q : QuadCost X K n p) (x : X) :
    (q.call x).2 = 1 / 2 * (q.residual.eval x ⬝ᵥ q.weights.mulVec (q.residual.eval x)) +
      q.residual.eval x ⬝ᵥ q.slope + q.constant := rfl

/-- the distance to `target` on the real line -/
def Demo.lineResidual (target : ℚ) : ResidualFn ℚ ℚ 1 1 :=
  diffResidual (fun x0 x1 => fun _ => x1 - x0) (fun _ _ => 1) target

/-- **C38 is false**: on the cost `1/2 (x - 1)²` the gradient at `x = 3` depends on what was called before: without a
call it is 0, after evaluating the cost at 5 it is 4, after evaluating it at 3 it is the right 2; and after
`updateTarget` it still refers to the old target. The Hessian with the second-order term has the same defect. -/
theorem C38_history_false :
    let q := QuadCost.new (Demo.lineResidual 1) 1 (fun _ => 0) 0
    quadGradient q 3 = (fun _ => 2) ∧
    (q.gradient 3).2 = (fun _ => 0) ∧
    ((q.run [.call 5]).gradient 3).2 = (fun _ => 4) ∧
    ((q.run [.call 3]).gradient 3).2 = (fun _ => 2) ∧
    ((q.run [.call 3, .setResidual (Demo.lineResidual 2)]).gradient 3).2 = (fun _ => 2) ∧
    quadGradient (q.run [.call 3, .setResidual (Demo.lineResidual 2)]) 3 = (fun _ => 1) := by
  refine ⟨?_, ?_, ?_, ?_, ?_, ?_⟩ <;> ext j <;> fin_cases j <;>
    norm_num [quadGradient, QuadCost.new, QuadCost.run, QuadCost.apply, QuadCost.call, QuadCost.gradient,
      Demo.lineResidual, diffResidual]

/-- the residual `r(x) = x²` with its derivatives -/
def Demo.squareResidual : ResidualFn ℚ ℚ 1 1 where
  eval x := fun _ => x * x
  jac x := Matrix.of fun _ _ => 2 * x
  vhp _ v := Matrix.of fun _ _ => 2 * v 0

/-- **C38 is false for the Hessian**: cost `1/2 x⁴`, Gauss-Newton off: the Hessian at 1 is 6, but 4 is returned without
a call and 12 after a call at 2. -/
theorem C38_hessian_history_false :
    let q := (QuadCost.new Demo.squareResidual 1 (fun _ => 0) 0).run [.setGaussNewton false]
    quadHessian q 1 = (fun _ _ => 6) ∧
    (q.hessian 1).2 = (fun _ _ => 4) ∧
    ((q.run [.call 2]).hessian 1).2 = (fun _ _ => 12) := by
  refine ⟨?_, ?_, ?_⟩ <;> ext i j <;> fin_cases i <;> fin_cases j <;>
    norm_num [quadHessian, QuadCost.new, QuadCost.run, QuadCost.apply, QuadCost.call, QuadCost.hessian,
      Demo.squareResidual, Matrix.mul_apply]

/-- non-vacuity of `C38_after_call_partial` -/
example : ∀ o ∈ ([.gradient 2, .hessian 1, .setGaussNewton false] : List (QuadOp ℚ ℚ 1 1)), o.keepsErr = true := by
  simp [QuadOp.keepsErr]

end C38

/-! ### C39 -/

section C39
variable {n p : ℕ}

theorem quad_hasFDerivAt (r : (Fin n → ℝ) → Fin p → ℝ) (J : Matrix (Fin p) (Fin n) ℝ) (W : Matrix (Fin p) (Fin p) ℝ)
    (b : Fin p → ℝ) (c : ℝ) (x : Fin n → ℝ) (hW : W.IsSymm) (hJ : HasJacobian r J x) :
    HasGradient (fun y => 1 / 2 * (∑ i, r y i * W.mulVec (r y) i) + (∑ i, r y i * b i) + c)
      (J.transpose.mulVec (W.mulVec (r x) + b)) x := by
  rw [hasGradient_iff]
  rw [hasJacobian_iff] at hJ
  have hWr : ∀ i, HasFDerivAt (fun y => W.mulVec (r y) i) (∑ k, W i k • linForm (J k)) x := by
    intro i
    unfold Matrix.mulVec dotProduct
    exact HasFDerivAt.fun_sum fun k _ => (hJ k).const_mul (W i k)
  have h1 : HasFDerivAt (fun y => ∑ i, r y i * W.mulVec (r y) i)
      (∑ i, (r x i • (∑ k, W i k • linForm (J k)) + W.mulVec (r x) i • linForm (J i))) x :=
    HasFDerivAt.fun_sum fun i _ => (hJ i).mul (hWr i)
  have h2 : HasFDerivAt (fun y => ∑ i, r y i * b i) (∑ i, b i • linForm (J i)) x :=
    HasFDerivAt.fun_sum fun i _ => (hJ i).mul_const (b i)
  refine (((h1.const_mul (1 / 2)).add h2).add_const c).congr_fderiv ?_
  ext d
  simp only [ContinuousLinearMap.add_apply, ContinuousLinearMap.smul_apply, ContinuousLinearMap.sum_apply, linForm_apply,
    smul_eq_mul]
  have hsym : ∑ i, r x i * ∑ k, W i k * ∑ j, J k j * d j = ∑ i, W.mulVec (r x) i * ∑ j, J i j * d j := by
    simp only [Finset.mul_sum, Matrix.mulVec, dotProduct, Finset.sum_mul]
    rw [Finset.sum_comm]
    refine Finset.sum_congr rfl fun k _ => ?_
    rw [Finset.sum_comm]
    refine Finset.sum_congr rfl fun j _ => ?_
    refine Finset.sum_congr rfl fun i _ => ?_
    rw [← hW.apply i k]
    ring
  rw [Finset.sum_add_distrib, hsym]
  have hrhs : ∑ j, J.transpose.mulVec (W.mulVec (r x) + b) j * d j =
      ∑ i, (W.mulVec (r x) i + b i) * ∑ j, J i j * d j := by
    generalize W.mulVec (r x) = u
    simp only [Matrix.mulVec, dotProduct, Finset.sum_mul, Finset.mul_sum, Pi.add_apply, Matrix.transpose_apply]
    rw [Finset.sum_comm]
    refine Finset.sum_congr rfl fun i _ => Finset.sum_congr rfl fun j _ => ?_
    ring
  rw [hrhs]
  simp only [add_mul, Finset.sum_add_distrib]
  ring

/-- **C39, gradient**: after `call(x)`, with symmetric weights, `computeGradient(x)` is the gradient at `x` of the
cost's value, along the manifold's retraction (a plain gradient on a vector space). -/
theorem C39_gradient {X : Type} (integrate : X → (Fin n → ℝ) → X) (q : QuadCost X ℝ n p) (x : X)
    (h0 : integrate x 0 = x) (hW : q.weights.IsSymm) (hJ : HasTangentJacobian integrate q.residual.eval (q.residual.jac x) x) :
    HasGradient (fun d => (q.call (integrate x d)).2) (((q.call x).1.gradient x).2) 0 := by
  have hg : ((q.call x).1.gradient x).2 =
      (q.residual.jac x).transpose.mulVec (q.weights.mulVec (q.residual.eval (integrate x 0)) + q.slope) := by
    rw [h0]
    exact (C38_after_call_partial q [] [] x (by simp)).1
  rw [hg]
  exact quad_hasFDerivAt (fun d => q.residual.eval (integrate x d)) _ _ _ _ 0 hW hJ

/-- The residual's derivative information is right on a neighbourhood-free basis: everywhere. -/
structure Spec.SmoothResidual (r : ResidualFn (Fin n → ℝ) ℝ n p) : Prop where
  jac : ∀ x, HasJacobian r.eval (r.jac x) x
  vhp : ∀ x v, HasJacobian (fun y => (r.jac y).transpose.mulVec v) (r.vhp x v) x

theorem quad_hessian (r : ResidualFn (Fin n → ℝ) ℝ n p) (hr : SmoothResidual r) (W : Matrix (Fin p) (Fin p) ℝ)
    (b : Fin p → ℝ) (x : Fin n → ℝ) :
    HasJacobian (fun y => (r.jac y).transpose.mulVec (W.mulVec (r.eval y) + b))
      (r.vhp x (W.mulVec (r.eval x) + b) + (r.jac x).transpose * W * r.jac x) x := by
  rw [hasJacobian_iff]
  intro j
  -- each Jacobian entry is differentiable
  have hJ : ∀ i : Fin p, HasFDerivAt (fun y => r.jac y i j) (linForm (r.vhp x (Pi.single i 1) j)) x := by
    intro i
    have := (hasJacobian_iff _ _ _).1 (hr.vhp x (Pi.single i 1)) j
    refine this.congr_of_eventuallyEq (Filter.Eventually.of_forall fun y => ?_)
    simp [Matrix.mulVec, dotProduct, Pi.single_apply]
  have hw : ∀ i, HasFDerivAt (fun y => (W.mulVec (r.eval y) + b) i) (∑ k, W i k • linForm (r.jac x k)) x := by
    intro i
    have h1 : HasFDerivAt (fun y => W.mulVec (r.eval y) i) (∑ k, W i k • linForm (r.jac x k)) x := by
      unfold Matrix.mulVec dotProduct
      exact HasFDerivAt.fun_sum fun k _ => (((hasJacobian_iff _ _ _).1 (hr.jac x)) k).const_mul (W i k)
    exact h1.add_const (b i)
  set w := W.mulVec (r.eval x) + b with hwdef
  have hsum : HasFDerivAt (fun y => ∑ i, r.jac y i j * (W.mulVec (r.eval y) + b) i)
      (∑ i, (r.jac x i j • (∑ k, W i k • linForm (r.jac x k)) + w i • linForm (r.vhp x (Pi.single i 1) j))) x :=
    HasFDerivAt.fun_sum fun i _ => (hJ i).mul (hw i)
  -- the derivative of `y ↦ J(y)ᵀ w` for the fixed `w`, computed in two ways
  have hfix : linForm (r.vhp x w j) = ∑ i, w i • linForm (r.vhp x (Pi.single i 1) j) := by
    have h1 := (hasJacobian_iff _ _ _).1 (hr.vhp x w) j
    have h2 : HasFDerivAt (fun y => ∑ i, r.jac y i j * w i) (∑ i, w i • linForm (r.vhp x (Pi.single i 1) j)) x :=
      HasFDerivAt.fun_sum fun i _ => (hJ i).mul_const (w i)
    exact h1.unique h2
  refine hsum.congr_fderiv ?_
  rw [Finset.sum_add_distrib, ← hfix]
  ext d
  simp only [ContinuousLinearMap.add_apply, ContinuousLinearMap.smul_apply, ContinuousLinearMap.sum_apply, linForm_apply,
    smul_eq_mul, Matrix.add_apply, add_mul, Finset.sum_add_distrib]
  rw [add_comm]
  congr 1
  simp only [Matrix.mul_apply, Finset.mul_sum, Finset.sum_mul, Matrix.transpose_apply]
  rw [Finset.sum_comm]
  have : ∀ k, ∑ i, ∑ l, r.jac x i j * (W i k * (r.jac x k l * d l)) =
      ∑ l, ∑ i, r.jac x i j * W i k * r.jac x k l * d l := by
    intro k
    rw [Finset.sum_comm]
    refine Finset.sum_congr rfl fun l _ => Finset.sum_congr rfl fun i _ => by ring
  rw [Finset.sum_congr rfl fun k _ => this k, Finset.sum_comm]

/-- **C39, Hessian**: on a vector space, with symmetric weights and Gauss-Newton disabled, `computeHessian(x)` after
`call(x)` is the derivative at `x` of the gradient field of the cost's value, and that field is the gradient. -/
theorem C39_hessian (q : QuadCost (Fin n → ℝ) ℝ n p) (hr : SmoothResidual q.residual) (hW : q.weights.IsSymm)
    (hgn : q.gaussNewton = false) (x : Fin n → ℝ) :
    ∃ g : (Fin n → ℝ) → Fin n → ℝ, (∀ y, HasGradient (fun z => (q.call z).2) (g y) y) ∧
      g x = ((q.call x).1.gradient x).2 ∧
      HasJacobian g (((q.call x).1.hessian x).2) x := by
  refine ⟨fun y => (q.residual.jac y).transpose.mulVec (q.weights.mulVec (q.residual.eval y) + q.slope), ?_, ?_, ?_⟩
  · intro y
    exact quad_hasFDerivAt q.residual.eval _ _ _ _ y hW (hr.jac y)
  · exact ((C38_after_call_partial q [] [] x (by simp)).1).symm
  · have hh : ((q.call x).1.hessian x).2 = quadHessian (q.call x).1 x :=
      (C38_after_call_partial q [] [] x (by simp)).2
    rw [hh]
    have : quadHessian (q.call x).1 x = q.residual.vhp x (q.weights.mulVec (q.residual.eval x) + q.slope) +
        (q.residual.jac x).transpose * q.weights * q.residual.jac x := by
      have hf : (q.call x).1.gaussNewton = false := hgn
      unfold quadHessian
      rw [hf]
      simp [QuadCost.call]
    rw [this]
    exact quad_hessian q.residual hr q.weights q.slope x

/-- With Gauss-Newton enabled (the default) the Hessian returned is symmetric positive semidefinite for symmetric
positive semidefinite weights. -/
theorem C39_gauss_newton_psd (q : QuadCost (Fin n → ℝ) ℝ n p) (hW : q.weights.IsSymm)
    (hpsd : ∀ w : Fin p → ℝ, 0 ≤ w ⬝ᵥ q.weights.mulVec w) (hgn : q.gaussNewton = true) (x : Fin n → ℝ) :
    ((q.hessian x).2).IsSymm ∧ ∀ d : Fin n → ℝ, 0 ≤ d ⬝ᵥ ((q.hessian x).2).mulVec d := by
  have he : (q.hessian x).2 = (q.residual.jac x).transpose * q.weights * q.residual.jac x := by
    simp [QuadCost.hessian, hgn]
  rw [he]
  constructor
  · unfold Matrix.IsSymm
    rw [Matrix.transpose_mul, Matrix.transpose_mul, Matrix.transpose_transpose, hW.eq, Matrix.mul_assoc]
  · intro d
    have := hpsd ((q.residual.jac x).mulVec d)
    rw [← Matrix.mulVec_mulVec, ← Matrix.mulVec_mulVec, Matrix.dotProduct_mulVec, Matrix.vecMul_transpose]
    exact this

/-- The weights must be symmetric: for `r(x) = x` on the plane with the weights `[[0,2],[0,0]]` the value is `x0 x1`, its
derivative at `(1,1)` in the first direction is 1, but the first entry of the gradient returned is 2. -/
theorem C39_asymmetric_false :
    let q : QuadCost (Fin 2 → ℚ) ℚ 2 2 :=
      QuadCost.new ⟨fun x => x, fun _ => 1, fun _ _ => 0⟩ !![0, 2; 0, 0] (fun _ => 0) 0
    (∀ t : ℚ, (q.call ![1 + t, 1]).2 = 1 + t) ∧ ((q.call ![1, 1]).1.gradient ![1, 1]).2 0 = 2 := by
  refine ⟨fun t => ?_, ?_⟩
  · simp [QuadCost.new, QuadCost.call, Matrix.mulVec, dotProduct, Fin.sum_univ_succ]
    ring
  · simp [QuadCost.new, QuadCost.call, QuadCost.gradient, Matrix.mulVec, dotProduct, Fin.sum_univ_succ]

/-- non-vacuity: the residual `r(x) = x²` on the line is smooth with the stated derivatives -/
example : SmoothResidual (n := 1) (p := 1)
    ⟨fun x _ => x 0 * x 0, fun x => Matrix.of fun _ _ => 2 * x 0, fun _ v => Matrix.of fun _ _ => 2 * v 0⟩ := by
  constructor
  · intro x
    rw [hasJacobian_iff]
    intro i
    refine ((hasFDerivAt_coord 0 x).mul (hasFDerivAt_coord 0 x)).congr_fderiv ?_
    ext d
    simp [linForm_apply]
    ring
  · intro x v
    rw [hasJacobian_iff]
    intro i
    have := ((hasFDerivAt_coord 0 x).const_mul (2 * v 0))
    refine (this.congr_of_eventuallyEq (Filter.Eventually.of_forall fun y => ?_)).congr_fderiv ?_
    · simp [Matrix.mulVec, dotProduct]; ring
    · ext d
      simp [linForm_apply]

end C39

end ProxNLP
