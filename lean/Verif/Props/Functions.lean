import Verif.Model.Functions
import Verif.Lemmas.Calculus
import Mathlib.LinearAlgebra.Matrix.Notation
import Mathlib.Analysis.Calculus.FDeriv.Equiv
import Mathlib.Analysis.Calculus.Deriv.Basic
import Mathlib.Analysis.Calculus.Deriv.Comp
import Mathlib.Analysis.Calculus.Deriv.Add
import Mathlib.Analysis.Calculus.Deriv.Mul
import Mathlib.Analysis.Calculus.Deriv.Slope
import Mathlib.Analysis.Calculus.Deriv.Prod
import Mathlib.Tactic.Ring
import Mathlib.Tactic.Linarith
import Mathlib.Tactic.FieldSimp
import Mathlib.Tactic.FinCases

/-! Property theorems for C40-C42: composition, finite differences, cost adapters. -/

set_option linter.unusedSectionVars false
namespace ProxNLP

open Matrix Spec

/-! ### C40 -/

section C40

/-- **C40, rejection**: composing is refused exactly when the input size of the outer function differs from the output
size of the inner one. -/
theorem C40_rejects {K : Type} [Field K] (f g : C2Fn K) : compose f g = none ↔ f.nx ≠ g.nr := by
  unfold compose
  split_ifs with h <;> simp [h]

/-- **C40, value and Jacobian**: for an outer function on a vector space of dimension `m` and an inner function with `m`
outputs (on any space), the composition has the value `f (g x)` and the Jacobian `J_f (g x) * J_g x`. -/
theorem C40_value_jacobian {K : Type} [Field K] {m p nx ndx : ℕ} (f : (Fin m → K) → Fin p → K)
    (Jf : (Fin m → K) → Matrix (Fin p) (Fin m) K) (Hf : (Fin m → K) → (Fin p → K) → Matrix (Fin m) (Fin m) K)
    (g : (Fin nx → K) → Fin m → K) (Jg : (Fin nx → K) → Matrix (Fin m) (Fin ndx) K)
    (Hg : (Fin nx → K) → (Fin m → K) → Matrix (Fin ndx) (Fin ndx) K) :
    ∃ H, compose ⟨m, m, p, f, fun y => some (Jf y), Hf⟩ ⟨nx, ndx, m, g, fun x => some (Jg x), Hg⟩ =
      some ⟨nx, ndx, p, fun x => f (g x), fun x => some (Jf (g x) * Jg x), H⟩ := by
  refine ⟨defaultVhp, ?_⟩
  unfold compose
  rw [dif_pos rfl]
  simp

/-- **C40, chain rule**: the Jacobian returned by the composition is the derivative of the composition (along the
retraction of the inner function's space) when those of the two functions are derivatives. -/
theorem C40_chain_rule {m p nx ndx : ℕ} (integrate : (Fin nx → ℝ) → (Fin ndx → ℝ) → Fin nx → ℝ)
    (f : (Fin m → ℝ) → Fin p → ℝ) (Jf : (Fin m → ℝ) → Matrix (Fin p) (Fin m) ℝ)
    (Hf : (Fin m → ℝ) → (Fin p → ℝ) → Matrix (Fin m) (Fin m) ℝ)
    (g : (Fin nx → ℝ) → Fin m → ℝ) (Jg : (Fin nx → ℝ) → Matrix (Fin m) (Fin ndx) ℝ)
    (Hg : (Fin nx → ℝ) → (Fin m → ℝ) → Matrix (Fin ndx) (Fin ndx) ℝ) (x : Fin nx → ℝ) (h0 : integrate x 0 = x)
    (hf : HasJacobian f (Jf (g x)) (g x)) (hg : HasTangentJacobian integrate g (Jg x) x) :
    ∃ (ev : (Fin nx → ℝ) → Fin p → ℝ) (J : (Fin nx → ℝ) → Option (Matrix (Fin p) (Fin ndx) ℝ))
      (H : (Fin nx → ℝ) → (Fin p → ℝ) → Matrix (Fin ndx) (Fin ndx) ℝ) (Jx : Matrix (Fin p) (Fin ndx) ℝ),
      compose ⟨m, m, p, f, fun y => some (Jf y), Hf⟩ ⟨nx, ndx, m, g, fun x => some (Jg x), Hg⟩ = some ⟨nx, ndx, p, ev, J, H⟩ ∧
      J x = some Jx ∧ HasTangentJacobian integrate ev Jx x := by
  obtain ⟨H, hH⟩ := C40_value_jacobian f Jf Hf g Jg Hg
  refine ⟨_, _, H, _, hH, rfl, ?_⟩
  unfold HasTangentJacobian at hg ⊢
  refine hasJacobian_comp (f := f) (g := fun d => g (integrate x d)) ?_ hg
  rw [h0]
  exact hf

/-- `f` has all its derivative information right. -/
structure Spec.SmoothFn {m p : ℕ} (f : (Fin m → ℝ) → Fin p → ℝ) (Jf : (Fin m → ℝ) → Matrix (Fin p) (Fin m) ℝ)
    (Hf : (Fin m → ℝ) → (Fin p → ℝ) → Matrix (Fin m) (Fin m) ℝ) : Prop where
  jac : ∀ x, HasJacobian f (Jf x) x
  vhp : ∀ x v, HasJacobian (fun y => (Jf y).transpose.mulVec v) (Hf x v) x

/-- **C40 is false for the vector-Hessian product**: composing `y ↦ y²` with the identity (both with correct
derivatives) yields a function whose vector-Hessian product is 0, which is not the derivative of its Jacobian. -/
theorem C40_vhp_false :
    ∃ (f g : (Fin 1 → ℝ) → Fin 1 → ℝ) (Jf Jg : (Fin 1 → ℝ) → Matrix (Fin 1) (Fin 1) ℝ)
      (Hf Hg H : (Fin 1 → ℝ) → (Fin 1 → ℝ) → Matrix (Fin 1) (Fin 1) ℝ),
      SmoothFn f Jf Hf ∧ SmoothFn g Jg Hg ∧
      compose ⟨1, 1, 1, f, fun y => some (Jf y), Hf⟩ ⟨1, 1, 1, g, fun x => some (Jg x), Hg⟩ =
        some ⟨1, 1, 1, fun x => f (g x), fun x => some (Jf (g x) * Jg x), H⟩ ∧
      ∀ x v, v 0 ≠ 0 → ¬ HasJacobian (fun y => (Jf (g y) * Jg y).transpose.mulVec v) (H x v) x := by
  have hsq : SmoothFn (fun (x : Fin 1 → ℝ) (_ : Fin 1) => x 0 * x 0) (fun x => Matrix.of fun _ _ => 2 * x 0)
      (fun _ v => Matrix.of fun _ _ => 2 * v 0) := by
    constructor
    · intro x
      rw [hasJacobian_iff]
      intro i
      refine ((hasFDerivAt_coord 0 x).mul (hasFDerivAt_coord 0 x)).congr_fderiv ?_
      ext d
      simp [linForm_apply]
      ring
    · intro x v
      rw [hasJacobian_iff]
      intro i
      have := ((hasFDerivAt_coord 0 x).const_mul (2 * v 0))
      refine (this.congr_of_eventuallyEq (Filter.Eventually.of_forall fun y => ?_)).congr_fderiv ?_
      · simp [Matrix.mulVec, dotProduct]; ring
      · ext d
        simp [linForm_apply]
  refine ⟨fun x _ => x 0 * x 0, fun x => x, fun x => Matrix.of fun _ _ => 2 * x 0, fun _ => 1,
    fun _ v => Matrix.of fun _ _ => 2 * v 0, fun _ _ => 0, fun _ _ => 0, hsq, ?_, ?_, ?_⟩
  · constructor
    · intro x
      rw [hasJacobian_iff]
      intro i
      refine (hasFDerivAt_coord i x).congr_fderiv ?_
      ext d
      rw [Subsingleton.elim i 0]
      simp [linForm_apply]
    · intro x v
      rw [hasJacobian_iff]
      intro i
      refine (hasFDerivAt_const _ _).congr_fderiv ?_
      ext d
      simp [linForm_apply]
  · unfold compose
    rw [dif_pos rfl]
    simp
    rfl
  · intro x v hv hcon
    have h1 : HasJacobian (fun y : Fin 1 → ℝ => ((Matrix.of fun (_ _ : Fin 1) => 2 * y 0) * 1).transpose.mulVec v)
        (Matrix.of fun _ _ => 2 * v 0) x := by
      simpa using hsq.vhp x v
    have := hasJacobian_unique hcon h1
    have h00 := congrFun (congrFun this 0) 0
    simp at h00
    exact hv h00

/-- **C40, partial**: the vector-Hessian product (zero) is right when both functions are affine. Missing: all other
functions, see `C40_vhp_false`. -/
theorem C40_vhp_partial {m p n : ℕ} (A : Matrix (Fin p) (Fin m) ℝ) (b : Fin p → ℝ) (B : Matrix (Fin m) (Fin n) ℝ)
    (c : Fin m → ℝ) :
    ∃ H, compose (linearFn A b) (linearFn B c) =
      some ⟨n, n, p, fun x i => A.mulVec (fun j => B.mulVec x j + c j) i + b i, fun _ => some (A * B), H⟩ ∧
      ∀ x v, HasJacobian (fun _ => (A * B).transpose.mulVec v) (H x v) x := by
  refine ⟨fun _ _ => 0, ?_, ?_⟩
  · unfold linearFn compose
    rw [dif_pos rfl]
    simp
    rfl
  · intro x v
    rw [hasJacobian_iff]
    intro i
    refine (hasFDerivAt_const _ _).congr_fderiv ?_
    ext d
    simp [linForm_apply]

/-- The constructor's check is not enough: with an outer function defined on a manifold whose tangent dimension differs
from its representation size (here 2 and 1), composing is accepted although the Jacobian product is ill-formed. -/
theorem C40_jacobian_defined_false :
    ∃ (f g c : C2Fn ℚ), compose f g = some c ∧ (∀ y, (f.jac y).isSome) ∧ (∀ x, (g.jac x).isSome) ∧ ∀ x, c.jac x = none := by
  refine ⟨⟨2, 1, 1, fun _ _ => 0, fun _ => some 0, fun _ _ => 0⟩, ⟨1, 1, 2, fun _ _ => 0, fun _ => some 0, fun _ _ => 0⟩, _,
    dif_pos rfl, fun _ => rfl, fun _ => rfl, fun _ => ?_⟩
  simp

/-- non-vacuity of `C40_chain_rule`: `y ↦ y²` after `x ↦ 3 x` -/
example : HasJacobian (fun (y : Fin 1 → ℝ) (_ : Fin 1) => y 0 * y 0) (Matrix.of fun _ _ => 2 * 3) (fun _ => 3) := by
  rw [hasJacobian_iff]
  intro i
  refine ((hasFDerivAt_coord 0 _).mul (hasFDerivAt_coord 0 _)).congr_fderiv ?_
  ext d
  simp [linForm_apply]
  ring

end C40

/-! ### C41 -/

section C41
variable {K : Type} [Field K]

theorem fd_fold {n r : ℕ} (col : Fin n → (Fin n → K) → Fin r → K) (eps : K) (l : List (Fin n)) (J0 : Matrix (Fin r) (Fin n) K) :
    l.foldl (fun (s : (Fin n → K) × Matrix (Fin r) (Fin n) K) i =>
      (Function.update (Function.update s.1 i eps) i 0, s.2.updateCol i (col i (Function.update s.1 i eps)))) (0, J0) =
    (0, Matrix.of fun k i => if i ∈ l then col i (Pi.single i eps) k else J0 k i) := by
  induction l generalizing J0 with
  | nil => simp; rfl
  | cons a l ih =>
    rw [List.foldl_cons]
    have h0 : Function.update (Function.update (0 : Fin n → K) a eps) a 0 = 0 := by
      rw [Function.update_idem]; exact Function.update_eq_self a 0
    simp only [h0]
    rw [ih]
    refine Prod.ext rfl ?_
    ext k i
    have hs : Function.update (0 : Fin n → K) a eps = Pi.single a eps := rfl
    simp only [Matrix.of_apply, List.mem_cons, Matrix.updateCol_apply, hs]
    by_cases hia : i = a
    · subst hia; simp
    · simp [hia]

/-- Every column of the finite-difference Jacobian is the central difference in that direction; what was in the output
matrix does not matter. -/
theorem C41_closed_form {X : Type} {n r : ℕ} (integrate : X → (Fin n → K) → X) (f : X → Fin r → K) (eps : K) (x : X)
    (J0 : Matrix (Fin r) (Fin n) K) (k : Fin r) (i : Fin n) :
    fdJacobian integrate f eps x J0 k i =
      (f (integrate x (Pi.single i eps)) k - f (integrate x (-Pi.single i eps)) k) / (2 * eps) := by
  unfold fdJacobian
  have := fd_fold (fun (i : Fin n) (e : Fin n → K) (k : Fin r) =>
    (f (integrate x e) k - f (integrate x (fun j => - e j)) k) / (2 * eps)) eps (List.finRange n) J0
  have h2 := congrArg (fun s => s.2 k i) this
  simp only [Matrix.of_apply, List.mem_finRange, if_true] at h2
  exact h2

theorem fdVhp_closed {X : Type} {n r : ℕ} (integrate : X → (Fin n → K) → X) (jac : X → Matrix (Fin r) (Fin n) K) (eps : K)
    (x : X) (v : Fin r → K) (H0 : Matrix (Fin n) (Fin n) K) (k i : Fin n) :
    fdVhp integrate jac eps x v H0 k i =
      ∑ l, (jac (integrate x (Pi.single i eps)) l k - jac (integrate x (-Pi.single i eps)) l k) / (2 * eps) * v l := by
  unfold fdVhp
  have := fd_fold (fun (i : Fin n) (e : Fin n → K) (k : Fin n) =>
    ∑ l, (jac (integrate x e) l k - jac (integrate x (fun j => - e j)) l k) / (2 * eps) * v l) eps (List.finRange n) H0
  have h2 := congrArg (fun s => s.2 k i) this
  simp only [Matrix.of_apply, List.mem_finRange, if_true] at h2
  exact h2

/-- A polynomial of degree at most two in `n` variables. -/
structure Spec.Quadratic (K : Type) (n : ℕ) where
  c : K
  b : Fin n → K
  Q : Matrix (Fin n) (Fin n) K

/-- its value -/
def Spec.Quadratic.eval {n : ℕ} (q : Spec.Quadratic K n) (x : Fin n → K) : K :=
  q.c + ∑ j, q.b j * x j + ∑ j, ∑ k, x j * q.Q j k * x k

/-- its partial derivatives -/
def Spec.Quadratic.partial {n : ℕ} (q : Spec.Quadratic K n) (x : Fin n → K) (i : Fin n) : K :=
  q.b i + ∑ k, (q.Q i k + q.Q k i) * x k

theorem central_diff {n : ℕ} (q : Spec.Quadratic K n) (x : Fin n → K) (i : Fin n) (eps : K) (h2 : (2 : K) ≠ 0) (he : eps ≠ 0) :
    (q.eval (x + Pi.single i eps) - q.eval (x + -Pi.single i eps)) / (2 * eps) = q.partial x i := by
  have hne : 2 * eps ≠ 0 := mul_ne_zero h2 he
  rw [div_eq_iff hne]
  unfold Spec.Quadratic.eval Spec.Quadratic.partial
  have hb : ∀ s : K, ∑ j, q.b j * (x j + Pi.single (M := fun _ => K) i s j) = ∑ j, q.b j * x j + q.b i * s := by
    intro s
    simp only [mul_add, Finset.sum_add_distrib]
    congr 1
    simp [Pi.single_apply]
  have hQ : ∀ s : K, ∑ j, ∑ k, (x j + Pi.single (M := fun _ => K) i s j) * q.Q j k * (x k + Pi.single (M := fun _ => K) i s k) =
      ∑ j, ∑ k, x j * q.Q j k * x k + s * ∑ k, q.Q i k * x k + s * ∑ k, q.Q k i * x k + s * s * q.Q i i := by
    intro s
    simp only [mul_add, add_mul, Finset.sum_add_distrib]
    have e1 : ∑ j, ∑ k, Pi.single (M := fun _ => K) i s j * q.Q j k * x k = s * ∑ k, q.Q i k * x k := by
      simp [Pi.single_apply, ite_mul, Finset.sum_ite_eq', Finset.mul_sum, mul_assoc]
    have e2 : ∑ j, ∑ k, x j * q.Q j k * Pi.single (M := fun _ => K) i s k = s * ∑ k, q.Q k i * x k := by
      simp only [Pi.single_apply, mul_ite, mul_zero, Finset.sum_ite_eq', Finset.mem_univ, if_true, Finset.mul_sum]
      exact Finset.sum_congr rfl fun j _ => by ring
    have e3 : ∑ j, ∑ k, Pi.single (M := fun _ => K) i s j * q.Q j k * Pi.single (M := fun _ => K) i s k = s * s * q.Q i i := by
      simp [Pi.single_apply]
      ring
    rw [e1, e2, e3]
    ring
  have hneg : -(Pi.single i eps : Fin n → K) = Pi.single i (-eps) := (Pi.single_neg (f := fun _ => K) i eps).symm
  rw [hneg]
  simp only [Pi.add_apply]
  rw [hb, hb, hQ, hQ]
  simp only [add_mul, Finset.sum_add_distrib]
  ring

/-- **C41, Jacobian**: on a vector space (`integrate x d = x + d`), the finite-difference Jacobian of a function all of
whose components are polynomials of degree at most two is the exact Jacobian, for every nonzero step. -/
theorem C41_jacobian_exact {n r : ℕ} (h2 : (2 : K) ≠ 0) (q : Fin r → Spec.Quadratic K n) (eps : K) (he : eps ≠ 0)
    (x : Fin n → K) (J0 : Matrix (Fin r) (Fin n) K) :
    fdJacobian (fun x d => x + d) (fun y k => (q k).eval y) eps x J0 = Matrix.of fun k i => (q k).partial x i := by
  ext k i
  rw [C41_closed_form]
  exact central_diff (q k) x i eps h2 he

/-- **C41, vector-Hessian product**: if the entries of the Jacobian passed in are polynomials of degree at most two (in
particular for quadratic functions, whose Jacobian entries have degree one), the finite-difference product has the
entries `∑_l v_l ∂(J_lk)/∂x_i`, exactly. -/
theorem C41_vhp_exact {n r : ℕ} (h2 : (2 : K) ≠ 0) (q : Fin r → Fin n → Spec.Quadratic K n) (eps : K) (he : eps ≠ 0)
    (x : Fin n → K) (v : Fin r → K) (H0 : Matrix (Fin n) (Fin n) K) :
    fdVhp (fun x d => x + d) (fun y => Matrix.of fun l k => (q l k).eval y) eps x v H0 =
      Matrix.of fun k i => ∑ l, (q l k).partial x i * v l := by
  ext k i
  rw [fdVhp_closed]
  simp only [Matrix.of_apply]
  refine Finset.sum_congr rfl fun l _ => ?_
  rw [central_diff (q l k) x i eps h2 he]

/-- The vector `partial` above is indeed the derivative. -/
theorem C41_partial_is_derivative {n r : ℕ} (q : Fin r → Spec.Quadratic ℝ n) (x : Fin n → ℝ) :
    HasJacobian (fun y k => (q k).eval y) (Matrix.of fun k i => (q k).partial x i) x := by
  rw [hasJacobian_iff]
  intro k
  have h1 : HasFDerivAt (fun y : Fin n → ℝ => ∑ j, (q k).b j * y j) (∑ j, (q k).b j • linForm (Pi.single j 1)) x :=
    HasFDerivAt.fun_sum fun j _ => (hasFDerivAt_coord j x).const_mul _
  have h2 : HasFDerivAt (fun y : Fin n → ℝ => ∑ j, ∑ l, y j * (q k).Q j l * y l)
      (∑ j, ∑ l, ((x j * (q k).Q j l) • linForm (Pi.single l 1) + x l • ((q k).Q j l • linForm (Pi.single j 1)))) x :=
    HasFDerivAt.fun_sum fun j _ => HasFDerivAt.fun_sum fun l _ =>
      ((hasFDerivAt_coord j x).mul_const _).mul (hasFDerivAt_coord l x)
  refine ((h1.const_add (q k).c).add h2).congr_fderiv ?_
  ext d
  have hs : ∀ (j : Fin n), linForm (Pi.single j (1 : ℝ)) d = d j := by
    intro j; simp [linForm_apply, Pi.single_apply]
  simp only [ContinuousLinearMap.add_apply, ContinuousLinearMap.smul_apply, ContinuousLinearMap.sum_apply, hs, smul_eq_mul]
  rw [linForm_apply]
  simp only [Matrix.of_apply, Spec.Quadratic.partial, add_mul, Finset.sum_mul, Finset.sum_add_distrib]
  congr 1
  rw [add_comm]
  congr 1
  · refine Finset.sum_congr rfl fun j _ => Finset.sum_congr rfl fun l _ => by ring
  · rw [Finset.sum_comm]
    refine Finset.sum_congr rfl fun j _ => Finset.sum_congr rfl fun l _ => by ring

/-- **Beyond quadratics**: on any manifold, wherever the function is differentiable along the retraction, the
finite-difference Jacobian tends to the derivative as the step tends to zero. -/
theorem C41_converges {X : Type} {n r : ℕ} (integrate : X → (Fin n → ℝ) → X) (f : X → Fin r → ℝ) (x : X)
    (J J0 : Matrix (Fin r) (Fin n) ℝ) (hJ : HasTangentJacobian integrate f J x) (k : Fin r) (i : Fin n) :
    Filter.Tendsto (fun eps => fdJacobian integrate f eps x J0 k i) (nhdsWithin 0 {0}ᶜ) (nhds (J k i)) := by
  unfold HasTangentJacobian at hJ
  rw [hasJacobian_iff] at hJ
  have hk := hJ k
  have hline : ∀ s : ℝ, HasDerivAt (fun t : ℝ => f (integrate x (Pi.single i (s * t))) k) (s * J k i) 0 := by
    intro s
    have hd : HasDerivAt (fun t : ℝ => (Pi.single i (s * t) : Fin n → ℝ)) (Pi.single i s) 0 := by
      rw [hasDerivAt_pi]
      intro j
      by_cases hj : j = i
      · subst hj
        simpa using (hasDerivAt_id (0 : ℝ)).const_mul s
      · simp only [Pi.single_apply, hj, if_false]
        exact hasDerivAt_const _ _
    have h0 : (fun t : ℝ => (Pi.single i (s * t) : Fin n → ℝ)) 0 = 0 := by simp
    have := HasFDerivAt.comp_hasDerivAt_of_eq (0 : ℝ) hk hd h0.symm
    refine this.congr_deriv ?_
    rw [linForm_apply]
    simp [Pi.single_apply, mul_comm]
  have hp := hline 1
  have hm := hline (-1)
  have hsub := (hp.sub hm).div_const 2
  have hval : (1 * J k i - -1 * J k i) / 2 = J k i := by ring
  rw [hval] at hsub
  rw [hasDerivAt_iff_tendsto_slope] at hsub
  refine hsub.congr fun eps => ?_
  rw [C41_closed_form, slope_def_field, ← Pi.single_neg]
  simp
  ring

/-- non-vacuity and a check of exactness at one cubic: the central difference of `x³` at 0 with step 1 is 1, not 0: the
degree bound is sharp -/
theorem C41_cubic_false :
    fdJacobian (fun x d => x + d) (fun (y : Fin 1 → ℚ) (_ : Fin 1) => y 0 ^ 3) 1 0 0 0 0 = 1 := by
  rw [C41_closed_form]
  norm_num

example : fdJacobian (fun x d => x + d) (fun (y : Fin 2 → ℚ) (_ : Fin 1) => y 0 * y 1) (1 / 3) ![2, 5] 0 = !![5, 2] := by
  ext k i
  rw [C41_closed_form]
  fin_cases k; fin_cases i <;> norm_num

end C41

/-! ### C42 -/

section C42
variable {K : Type} [Field K]

/-- **C42, cost as function**: one output; value, Jacobian row and Hessian times the multiplier. -/
theorem C42_cost_as_function {nx ndx : ℕ} (call : (Fin nx → K) → K) (grad : (Fin nx → K) → Option (Fin ndx → K))
    (hess : (Fin nx → K) → Matrix (Fin ndx) (Fin ndx) K) (x : Fin nx → K) (g : Fin ndx → K) (hg : grad x = some g) :
    ∃ (ev : (Fin nx → K) → Fin 1 → K) (J : (Fin nx → K) → Option (Matrix (Fin 1) (Fin ndx) K))
      (H : (Fin nx → K) → (Fin 1 → K) → Matrix (Fin ndx) (Fin ndx) K),
      CostFn.toFn ⟨nx, ndx, call, grad, hess⟩ = ⟨nx, ndx, 1, ev, J, H⟩ ∧ ev x = (fun _ => call x) ∧
      (∃ Jx, J x = some Jx ∧ ∀ j, Jx 0 j = g j) ∧ ∀ v, H x v = v 0 • hess x := by
  refine ⟨_, _, _, rfl, rfl, ⟨Matrix.of fun _ j => g j, ?_, fun j => rfl⟩, fun v => ?_⟩
  · simp only [hg, Option.map_some]
  · ext i j; simp [mul_comm]

/-- **C42, function as cost**: rejected exactly if the function has not one output. -/
theorem C42_function_as_cost_rejects (f : C2Fn K) : f.toCost = none ↔ f.nr ≠ 1 := by
  unfold C2Fn.toCost
  split_ifs with h <;> simp [h]

/-- **C42, function as cost**: value, gradient and Hessian are those of the only component. -/
theorem C42_function_as_cost {nx ndx : ℕ} (ev : (Fin nx → K) → Fin 1 → K)
    (J : (Fin nx → K) → Option (Matrix (Fin 1) (Fin ndx) K)) (H : (Fin nx → K) → (Fin 1 → K) → Matrix (Fin ndx) (Fin ndx) K) :
    C2Fn.toCost ⟨nx, ndx, 1, ev, J, H⟩ =
      some ⟨nx, ndx, fun x => ev x 0, fun x => (J x).map fun Jx j => Jx 0 j, fun x => H x fun _ => 1⟩ := by
  unfold C2Fn.toCost
  rw [dif_pos rfl]
  rfl

/-- **C42, round trips**: a cost converted to a function and back is the same cost; a one-output function converted to a
cost and back has the same value and Jacobian, and the same vector-Hessian product if that is linear in the
multiplier. -/
theorem C42_roundtrip (c : CostFn K) : c.toFn.toCost = some c := by
  obtain ⟨nx, ndx, call, grad, hess⟩ := c
  rw [CostFn.toFn, C42_function_as_cost]
  congr 2
  · funext x
    simp only
    cases grad x <;> rfl
  · funext x
    ext i j
    simp

theorem C42_roundtrip_function {nx ndx : ℕ} (ev : (Fin nx → K) → Fin 1 → K)
    (J : (Fin nx → K) → Option (Matrix (Fin 1) (Fin ndx) K)) (H : (Fin nx → K) → (Fin 1 → K) → Matrix (Fin ndx) (Fin ndx) K)
    (hlin : ∀ x v, H x v = v 0 • H x fun _ => 1) :
    ∃ c, C2Fn.toCost ⟨nx, ndx, 1, ev, J, H⟩ = some c ∧ c.toFn = ⟨nx, ndx, 1, ev, J, H⟩ := by
  refine ⟨_, C42_function_as_cost ev J H, ?_⟩
  unfold CostFn.toFn
  congr 1
  · funext x i
    rw [Subsingleton.elim i 0]
  · funext x
    simp only
    cases J x with
    | none => rfl
    | some A =>
      simp only [Option.map_some, Option.some.injEq]
      refine Matrix.ext fun i j => ?_
      rw [Subsingleton.elim i 0]
      rfl
  · funext x v
    rw [hlin x v]
    ext i j
    simp [mul_comm]

/-- **C42, `CostFromFunction` in Python:** on a function with one output it has the value, gradient and Hessian of the
only component. -/
theorem C42_python_partial {nx ndx : ℕ} (ev : (Fin nx → K) → Fin 1 → K)
    (J : (Fin nx → K) → Option (Matrix (Fin 1) (Fin ndx) K)) (H : (Fin nx → K) → (Fin 1 → K) → Matrix (Fin ndx) (Fin ndx) K) :
    C2Fn.pyCost ⟨nx, ndx, 1, ev, J, H⟩ =
      ⟨nx, ndx, fun x => some (ev x 0), fun x => (J x).map fun Jx j => Jx 0 j, fun x => some (H x fun _ => 1)⟩ := rfl

/-- **C42, `CostFromFunction` in Python does not check the number of outputs:** a function with two or more outputs
becomes a cost with the value of the first output, and asking for its gradient or Hessian reads or writes outside a
matrix, whatever the function and the point; with no output even the value does. -/
theorem C42_python_false {nx ndx nr : ℕ} (ev : (Fin nx → K) → Fin nr → K)
    (J : (Fin nx → K) → Option (Matrix (Fin nr) (Fin ndx) K)) (H : (Fin nx → K) → (Fin nr → K) → Matrix (Fin ndx) (Fin ndx) K)
    (hnr : nr ≠ 1) :
    ∃ call, C2Fn.pyCost ⟨nx, ndx, nr, ev, J, H⟩ = ⟨nx, ndx, call, fun _ => none, fun _ => none⟩ ∧
      (∀ x (i : Fin nr), i.val = 0 → call x = some (ev x i)) ∧ (nr = 0 → ∀ x, call x = none) := by
  refine ⟨fun x => if h : 0 < nr then some (ev x ⟨0, h⟩) else none, ?_, ?_, ?_⟩
  · unfold C2Fn.pyCost
    simp only [dif_neg hnr, if_neg hnr]
  · rintro x ⟨i, hi⟩ h0
    obtain rfl : i = 0 := h0
    exact dif_pos hi
  · intro h0 x
    exact dif_neg (by omega)

/-- a function with two outputs, `x ↦ (x, 5)`: the cost made from it has value 3 at 3 and no gradient there -/
example : ∃ f : C2Fn ℚ, f.nr = 2 ∧ f.pyCost.call (fun _ => 3) = some 3 ∧
    (f.pyCost.gradient (fun _ => 3)).isNone := by
  refine ⟨⟨1, 1, 2, fun x i => if i = 0 then x 0 else 5, fun _ => some fun i _ => if i = 0 then 1 else 0, fun _ _ => 0⟩, rfl,
    ?_, ?_⟩
  · decide +kernel
  · decide +kernel

/-- non-vacuity: a cost with a nontrivial Hessian -/
example : (CostFn.toFn (⟨1, 1, fun x => x 0 ^ 2, fun x => some fun _ => 2 * x 0, fun _ => 2⟩ : CostFn ℚ)).toCost.isSome := by
  rw [C42_roundtrip]; rfl

end C42

/-! ### Linear functions -/

/-- The linear function's Jacobian and (default) vector-Hessian product are its derivatives. -/
theorem C73_linear_function {r n : ℕ} (A : Matrix (Fin r) (Fin n) ℝ) (b : Fin r → ℝ) :
    ∃ (f : (Fin n → ℝ) → Fin r → ℝ) (J : (Fin n → ℝ) → Matrix (Fin r) (Fin n) ℝ)
      (H : (Fin n → ℝ) → (Fin r → ℝ) → Matrix (Fin n) (Fin n) ℝ),
      linearFn A b = ⟨n, n, r, f, fun x => some (J x), H⟩ ∧ (∀ x, f x = A.mulVec x + b) ∧ SmoothFn f J H := by
  refine ⟨_, fun _ => A, _, rfl, fun x => rfl, ?_, ?_⟩
  · intro x
    have : HasFDerivAt (fun y => A.mulVec y) (LinearMap.toContinuousLinearMap A.mulVecLin) x :=
      (LinearMap.toContinuousLinearMap A.mulVecLin).hasFDerivAt
    exact this.add_const b
  · intro x v
    rw [hasJacobian_iff]
    intro i
    refine (hasFDerivAt_const _ _).congr_fderiv ?_
    ext d
    simp [linForm_apply, defaultVhp]

end ProxNLP
