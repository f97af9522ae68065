import Verif.Lemmas.Merit
import Mathlib.Tactic.FinCases

/-!
Property theorem C22: the slope handed to the line search is the derivative of the function the line search
evaluates.
-/

set_option linter.unusedSectionVars false
namespace ProxNLP

open Spec

/-- A problem on `ℝⁿ` with cost `f` and constraint function `c`, having at `x` the gradient and Jacobian that
the user functions return, and the solver's proximal penalty `rho/2 |x - target|²`. -/
structure Spec.SmoothAt {H : Type} {n m : ℕ} (P : Ctx (Fin n → ℝ) ℝ H n m) (f : (Fin n → ℝ) → ℝ)
    (c : (Fin n → ℝ) → Fin m → ℝ) (x : Fin n → ℝ) : Prop where
  eval : ∀ y, P.eval y = some (f y, c y)
  grad : HasFDerivAt f (dotL (P.grad x)) x
  jac : HasFDerivAt c (matL (P.jac x)) x
  prox : ∀ rho t y, P.proxVal rho t y = rho / 2 * ∑ j, (y j - t j) ^ 2
  proxGrad : ∀ rho t y j, P.proxGrad rho t y j = rho * (y j - t j)

variable {H : Type} {n m : ℕ}

/-- C22 (part: `pdal_beta = 1/2`, the default).  For every smooth problem on `ℝⁿ`, all built-in sets, every
point, multipliers and direction: the line-search function `phi` takes at 0 the value reported as the merit,
and its derivative at 0 is the directional derivative handed to the line search.
Missing: other values of `pdal_beta`, for which the claim is false (`C22_merit_slope_false`). -/
theorem C22_merit_slope_partial (P : Ctx (Fin n → ℝ) ℝ H n m) (S : Settings ℝ) (leaf : Fin m → LeafSet ℝ × ℕ)
    (hsets : P.sets = StackedSet.ofLeaves leaf) (hvalid : ∀ i, ValidAt (leaf i).1 (leaf i).2)
    (f : (Fin n → ℝ) → ℝ) (c : (Fin n → ℝ) → Fin m → ℝ) (x : Fin n → ℝ) (hP : SmoothAt P f c x)
    (mu rho : ℝ) (hmu : 0 < mu) (hrho : 0 ≤ rho) (hbeta : S.pdalBeta = 1 / 2) (target : Fin n → ℝ)
    (lam lamPrev dlam : Fin m → ℝ) (dx : Fin n → ℝ) (ev : EvalOut ℝ n m)
    (hev : evalAt P S mu mu rho target x lam lamPrev = some ev) :
    ∃ phi : ℝ → ℝ,
      (∀ a, phiEval P (fun x v => x + v) S.pdalBeta mu mu rho target x lam lamPrev dx dlam a = some (phi a)) ∧
      phi 0 = ev.merit ∧
      HasDerivAt phi
        (dmeritDir rho S.pdalBeta mu ev.grad ev.proxGrad ev.jac lam ev.lamsPdal dx dlam) 0 := by
  rw [hbeta]
  simp only [evalAt, hP.eval, Option.map_some, Option.some.injEq] at hev
  subst hev
  simp only [hsets, hbeta]
  have hxa : HasDerivAt (fun a : ℝ => x + fun j => a * dx j) dx 0 := by
    have h0 : HasDerivAt (fun a : ℝ => fun j => a * dx j) dx 0 := by
      rw [hasDerivAt_pi]; intro j
      simpa using (hasDerivAt_id (0 : ℝ)).mul_const (dx j)
    simpa using h0.const_add x
  have hx0 : (x + fun j => (0 : ℝ) * dx j) = x := by funext j; simp
  have hx0' : (x + fun _ => (0 : ℝ)) = x := by funext j; simp
  -- the pieces
  have hf : HasDerivAt (fun a : ℝ => f (x + fun j => a * dx j)) (∑ j, P.grad x j * dx j) 0 := by
    have h1 : HasFDerivAt f (dotL (P.grad x)) (x + fun j => (0 : ℝ) * dx j) := by rw [hx0]; exact hP.grad
    exact (h1.comp_hasDerivAt (0 : ℝ) hxa).congr_deriv (by rw [dotL_apply])
  have hc : ∀ i, HasDerivAt (fun a : ℝ => c (x + fun j => a * dx j) i) (∑ j, P.jac x i j * dx j) 0 := by
    have h1 : HasFDerivAt c (matL (P.jac x)) (x + fun j => (0 : ℝ) * dx j) := by rw [hx0]; exact hP.jac
    have h2 := h1.comp_hasDerivAt (0 : ℝ) hxa
    intro i
    exact (hasDerivAt_pi.1 h2 i).congr_deriv (by rw [matL_apply])
  let w : ℝ → Fin m → ℝ := fun a i =>
    c (x + fun j => a * dx j) i + mu * lamPrev i - 1 / 2 * mu * (lam i + a * dlam i)
  have hw : ∀ i, HasDerivAt (fun a => w a i) ((∑ j, P.jac x i j * dx j) - 1 / 2 * mu * dlam i) 0 := by
    intro i
    have h1 : HasDerivAt (fun a : ℝ => 1 / 2 * mu * (lam i + a * dlam i)) (1 / 2 * mu * dlam i) 0 := by
      have := (((hasDerivAt_id (0:ℝ)).mul_const (dlam i)).const_add (lam i)).const_mul (1 / 2 * mu)
      simpa using this
    exact ((hc i).add_const _).sub h1
  have hw0 : ∀ i, w 0 i = c x i + mu * lamPrev i - 1 / 2 * mu * lam i := by
    intro i; simp only [w, zero_mul, hx0', add_zero]
  refine ⟨fun a => (f (x + fun j => a * dx j) + (2 * (∑ i, envAt (leaf i).1 mu (leaf i).2 (w a i))
      + mu * (∑ i, (lam i + a * dlam i) ^ 2) / 4)) +
      rho / 2 * ∑ j, ((x + fun j => a * dx j) j - target j) ^ 2, ?_, ?_, ?_⟩
  · intro a
    simp only [phiEval, hP.eval, hP.prox, meritEvaluate, computeMultipliers, Option.map_some, hsets]
    rw [stacked_env leaf mu (w a)]
  · simp only [zero_mul, hx0', add_zero, hP.prox]
    have := stacked_env leaf mu (w 0)
    rw [← this]
    have e : w 0 = fun i => c x i + mu * lamPrev i - 1 / 2 * mu * lam i := funext hw0
    rw [e]
    split_ifs with h
    · rfl
    · have : rho = 0 := le_antisymm (not_lt.1 h) hrho
      rw [this]; simp
  · have hE : HasDerivAt (fun a => ∑ i, envAt (leaf i).1 mu (leaf i).2 (w a i))
        (∑ i, (leaf i).1.normalAt mu (leaf i).2 (w 0 i) / mu *
          ((∑ j, P.jac x i j * dx j) - 1 / 2 * mu * dlam i)) 0 := by
      refine HasDerivAt.fun_sum fun i _ => ?_
      exact (hasDerivAt_envAt (leaf i).1 mu hmu (leaf i).2 (hvalid i) (w 0 i)).comp 0 (hw i)
    have hL : HasDerivAt (fun a : ℝ => ∑ i, (lam i + a * dlam i) ^ 2) (∑ i, 2 * lam i * dlam i) 0 := by
      refine HasDerivAt.fun_sum fun i _ => ?_
      have := (((hasDerivAt_id (0:ℝ)).mul_const (dlam i)).const_add (lam i)).fun_pow 2
      simpa using this
    have hX : HasDerivAt (fun a : ℝ => ∑ j, ((x + fun j => a * dx j) j - target j) ^ 2)
        (∑ j, 2 * (x j - target j) * dx j) 0 := by
      refine HasDerivAt.fun_sum fun j _ => ?_
      have := ((hasDerivAt_pi.1 hxa j).sub_const (target j)).fun_pow 2
      simpa using this
    have hall := (hf.add ((hE.const_mul 2).add ((hL.const_mul mu).div_const 4))).add (hX.const_mul (rho / 2))
    refine hall.congr_deriv ?_
    simp only [dmeritDir, meritGradient, meritDualGradient, hP.proxGrad, hw0]
    have hp : ∀ j, (if 0 < rho then rho * (x j - target j) else 0) = rho * (x j - target j) := by
      intro j; split_ifs with h
      · rfl
      · have : rho = 0 := le_antisymm (not_lt.1 h) hrho
        rw [this]; simp
    simp only [hp]
    set p : Fin m → ℝ := fun i => (StackedSet.ofLeaves leaf).normal mu
      (fun i => c x i + mu * lamPrev i - 1 / 2 * mu * lam i) i * (1 / mu / (1 / 2)) with hpdef
    have e1 : ∑ j, (P.grad x j + ∑ i, P.jac x i j * p i + rho * (x j - target j)) * dx j
        = ∑ j, P.grad x j * dx j + ∑ i, p i * ∑ j, P.jac x i j * dx j + ∑ j, rho * (x j - target j) * dx j := by
      have : ∑ i, p i * ∑ j, P.jac x i j * dx j = ∑ j, (∑ i, P.jac x i j * p i) * dx j := by
        simp only [Finset.mul_sum, Finset.sum_mul]
        rw [Finset.sum_comm]
        exact Finset.sum_congr rfl fun j _ => Finset.sum_congr rfl fun i _ => by ring
      rw [this, ← Finset.sum_add_distrib, ← Finset.sum_add_distrib]
      exact Finset.sum_congr rfl fun j _ => by ring
    have e2 : rho / 2 * ∑ j, 2 * (x j - target j) * dx j = ∑ j, rho * (x j - target j) * dx j := by
      rw [Finset.mul_sum]; exact Finset.sum_congr rfl fun j _ => by ring
    have e3 : 2 * ∑ i, (leaf i).1.normalAt mu (leaf i).2 (c x i + mu * lamPrev i - 1 / 2 * mu * lam i) / mu *
          ((∑ j, P.jac x i j * dx j) - 1 / 2 * mu * dlam i) + mu * (∑ i, 2 * lam i * dlam i) / 4
        = ∑ i, p i * (∑ j, P.jac x i j * dx j) + ∑ i, 1 / 2 * mu * (lam i - p i) * dlam i := by
      rw [mul_div_right_comm, Finset.mul_sum, Finset.mul_sum, ← Finset.sum_add_distrib,
        ← Finset.sum_add_distrib]
      refine Finset.sum_congr rfl fun i _ => ?_
      simp only [hpdef, StackedSet.ofLeaves]
      field_simp
      ring
    rw [e1, e2, e3]
    ring

namespace Demo

/-- `min x²/2` subject to `x = 0`, on the real line -/
noncomputable def merit1 : Ctx (Fin 1 → ℝ) ℝ Unit 1 1 where
  eval x := some (x 0 ^ 2 / 2, fun _ => x 0)
  grad x _ := x 0
  jac _ _ _ := 1
  sets := StackedSet.ofLeaves fun _ => (.equality, 0)
  neutral _ := 0
  proxVal rho t y := rho / 2 * ∑ j, (y j - t j) ^ 2
  proxGrad rho t y j := rho * (y j - t j)
  updHess h _ _ _ := h
  enterInner h := h
  step _ := .error ""

theorem merit1_smooth (x : Fin 1 → ℝ) :
    Spec.SmoothAt merit1 (fun x => x 0 ^ 2 / 2) (fun x _ => x 0) x where
  eval _ := rfl
  grad := by
    have h : HasFDerivAt (fun x : Fin 1 → ℝ => x 0) (ContinuousLinearMap.proj (R := ℝ) 0) x :=
      hasFDerivAt_apply 0 x
    have h2 := ((hasDerivAt_pow 2 (x 0)).div_const 2).comp_hasFDerivAt x h
    refine h2.congr_fderiv ?_
    ext v; simp [merit1]
  jac := by
    rw [hasFDerivAt_pi']
    intro i
    refine (hasFDerivAt_apply (0 : Fin 1) x).congr_fderiv ?_
    ext v; simp [merit1]
  prox _ _ _ := rfl
  proxGrad _ _ _ _ := rfl

noncomputable def meritSettings (beta : ℝ) : Settings ℝ :=
  { targetTol := 1, muInit := 1, rhoInit := 0, muLower := 1, muUpper := 1, innerTol0 := 1, primTol0 := 1,
    innerTolMin := 1, pdalBeta := beta, primAlpha := 1, primBeta := 1, dualAlpha := 1, dualBeta := 1,
    muUpdateFactor := 1, rhoUpdateFactor := 1, maxIters := 1, maxAlIters := 1, mode := .newton, kkt := .classic,
    pow := fun a _ => a }

end Demo

/-- non-vacuity of C22: at `x = 1`, zero multipliers, `mu = 1`, direction `(1,1)`, the hypotheses hold and the
slope is `1 + 2 - 1 = 2`. -/
example : ∃ phi : ℝ → ℝ,
    (∀ a, phiEval Demo.merit1 (fun x v => x + v) (1 / 2) 1 1 0 (fun _ => 0) (fun _ => 1) (fun _ => 0) (fun _ => 0)
      (fun _ => 1) (fun _ => 1) a = some (phi a)) ∧ HasDerivAt phi 2 0 := by
  obtain ⟨phi, h1, _, h3⟩ := C22_merit_slope_partial Demo.merit1 (Demo.meritSettings (1 / 2))
    (fun _ => (.equality, 0)) rfl (fun _ => trivial) _ _ (fun _ => 1) (Demo.merit1_smooth _) 1 0 one_pos le_rfl rfl
    (fun _ => 0) (fun _ => 0) (fun _ => 0) (fun _ => 1) (fun _ => 1) _ rfl
  refine ⟨phi, h1, h3.congr_deriv ?_⟩
  simp [dmeritDir, meritGradient, meritDualGradient, Demo.merit1, Demo.meritSettings, StackedSet.ofLeaves,
    LeafSet.normalAt]

/-- C22, failure for `pdal_beta ≠ 1/2`: with `pdal_beta = 1` on `min x²/2 s.t. x = 0` the slope handed to the line
search differs from the derivative of the function it evaluates. -/
theorem C22_merit_slope_false :
    ∃ (P : Ctx (Fin 1 → ℝ) ℝ Unit 1 1) (S : Settings ℝ) (f : (Fin 1 → ℝ) → ℝ) (c : (Fin 1 → ℝ) → Fin 1 → ℝ)
      (x dx : Fin 1 → ℝ) (lam lamPrev dlam : Fin 1 → ℝ) (ev : EvalOut ℝ 1 1) (phi : ℝ → ℝ) (slope : ℝ),
      P.sets = StackedSet.ofLeaves (fun _ => (.equality, 0)) ∧ SmoothAt P f c x ∧ S.pdalBeta = 1 ∧
      evalAt P S 1 1 0 x x lam lamPrev = some ev ∧
      (∀ a, phiEval P (fun x v => x + v) S.pdalBeta 1 1 0 x x lam lamPrev dx dlam a = some (phi a)) ∧
      HasDerivAt phi slope 0 ∧
      slope ≠ dmeritDir 0 S.pdalBeta 1 ev.grad ev.proxGrad ev.jac lam ev.lamsPdal dx dlam := by
  obtain ⟨phi, h1, _, h3⟩ := C22_merit_slope_partial Demo.merit1 (Demo.meritSettings (1 / 2))
    (fun _ => (.equality, 0)) rfl (fun _ => trivial) _ _ (fun _ => 1) (Demo.merit1_smooth _) 1 0 one_pos le_rfl rfl
    (fun _ => 1) (fun _ => 0) (fun _ => 0) (fun _ => 0) (fun _ => 1) _ rfl
  refine ⟨Demo.merit1, Demo.meritSettings 1, _, _, fun _ => 1, fun _ => 1, fun _ => 0, fun _ => 0, fun _ => 0, _,
    phi, _, rfl, Demo.merit1_smooth _, rfl, rfl, h1, h3, ?_⟩
  simp [dmeritDir, meritGradient, meritDualGradient, Demo.merit1, Demo.meritSettings, StackedSet.ofLeaves,
    LeafSet.normalAt]

end ProxNLP
