import Verif.Lemmas.Merit
import Verif.Spec.Kkt
import Mathlib.Tactic.LinearCombination
import Mathlib.Tactic.FinCases

/-!
Property theorem C23: the symmetrised KKT system and the semismooth Newton system have the same solutions.
-/

set_option linter.unusedSectionVars false
namespace ProxNLP

open Spec Matrix

variable {K : Type} [Field K] [LinearOrder K] [IsStrictOrderedRing K] {n m : ℕ}

/-- C23: for both KKT systems, all sets, data, multipliers and `mu ≠ 0`: a step solves the symmetrised
system assembled by the solver (matrix, right-hand side and correction) exactly when it solves the Newton system
of the optimality residual `(rhsPrimal, rhsDual)`. -/
theorem C23_symmetric_iff_newton (sys : KktSys) (sets : StackedSet K m) (mu setMu beta rho : K) (hmu : mu ≠ 0)
    (Hs : Matrix (Fin n) (Fin n) K) (J : Fin m → Fin n → K) (grad proxGrad : Fin n → K)
    (c lam lamPrev : Fin m → K) (dx : Fin n → K) (dlam : Fin m → K) (M : Mults K m)
    (hM : M = computeMultipliers sets mu setMu beta c lam lamPrev) :
    kktMatrix Hs (maskRows (keptRows sys sets setMu M) J) (kktDual sys mu (keptRows sys sets setMu M)) *ᵥ
        Sum.elim dx dlam =
      -Sum.elim (fun j => rhsPrimal rho grad proxGrad J lam j +
          rhsCorrection sys J (maskRows (keptRows sys sets setMu M) J) M lam j) (rhsDual sys mu M lam) ↔
    Newton sys mu Hs J (fun i => keptRows sys sets setMu M i = true)
      (rhsPrimal rho grad proxGrad J lam) (rhsDual sys mu M lam) dx dlam := by
  have e0 : ∀ (a : Fin n → K) (b : Fin m → K) (v : Fin n ⊕ Fin m → K),
      v = -Sum.elim a b ↔ (∀ j, v (.inl j) = - a j) ∧ ∀ i, v (.inr i) = - b i := by
    intro a b v
    constructor
    · rintro rfl; simp
    · rintro ⟨h1, h2⟩; funext k; cases k <;> simp [h1, h2]
  rw [e0]
  simp only [kktMatrix, fromBlocks_mulVec, Sum.elim_inl, Sum.elim_inr, Sum.elim_comp_inl, Sum.elim_comp_inr,
    Pi.add_apply]
  simp only [mulVec, dotProduct, transpose_apply, of_apply]
  -- bottom rows agree, and then the top ones
  have hbot : (∀ i, ∑ k, maskRows (keptRows sys sets setMu M) J i k * dx k +
        ∑ k, diagonal (kktDual sys mu (keptRows sys sets setMu M)) i k * dlam k = -rhsDual sys mu M lam i) ↔
      match sys with
      | .classic => ∀ i, (if keptRows sys sets setMu M i = true then ∑ k, J i k * dx k else 0) - mu * dlam i
          = -rhsDual sys mu M lam i
      | .primalDual => ∀ i, (if keptRows sys sets setMu M i = true then ∑ k, J i k * dx k - mu / 2 * dlam i else 0)
          - mu / 2 * dlam i = -rhsDual sys mu M lam i := by
    have hd : ∀ (d : Fin m → K) i, ∑ k, diagonal d i k * dlam k = d i * dlam i := by
      intro d i
      simp [diagonal_apply]
    generalize keptRows sys sets setMu M = kp
    cases sys <;> refine forall_congr' fun i => ?_ <;> rw [hd] <;>
      by_cases h : kp i = true <;>
      simp only [maskRows, kktDual, h, if_true, if_false, Bool.false_eq_true, zero_mul, Finset.sum_const_zero] <;>
      constructor <;> intro hh <;> linear_combination hh
  unfold Newton
  refine (and_congr_right' hbot).trans (and_congr_left fun hb => forall_congr' fun j => ?_)
  -- rows not kept: `dlam i = estimate - lam i`
  have key : ∑ i, J i j * dlam i = ∑ i, maskRows (keptRows sys sets setMu M) J i j * dlam i
      + rhsCorrection sys J (maskRows (keptRows sys sets setMu M) J) M lam j := by
    unfold rhsCorrection
    cases sys
    · simp only [zero_sub]
      rw [← Finset.sum_neg_distrib, ← Finset.sum_add_distrib, ← Finset.sum_add_distrib, ← Finset.sum_add_distrib]
      refine Finset.sum_congr rfl fun i _ => ?_
      have hi := hb i
      have hrep : M.lamsPlusReproj i = if keptRows .classic sets setMu M i then 0 else M.lamsPlus i := by
        subst hM; rfl
      rw [hrep]
      by_cases h : keptRows .classic sets setMu M i = true
      · simp only [maskRows, h, if_true]; ring
      · simp only [h, if_false, rhsDual, zero_sub, Bool.false_eq_true] at hi
        have hi' : dlam i = M.lamsPlus i - lam i := mul_left_cancel₀ hmu (by linear_combination -hi)
        simp only [maskRows, h, if_false, Bool.false_eq_true, hi']; ring
    · simp only [zero_sub]
      rw [← Finset.sum_neg_distrib, ← Finset.sum_add_distrib, ← Finset.sum_add_distrib, ← Finset.sum_add_distrib]
      refine Finset.sum_congr rfl fun i _ => ?_
      have hi := hb i
      have hrep : M.lamsPdalReproj i = if keptRows .primalDual sets setMu M i then 0 else M.lamsPdal i := by
        subst hM; rfl
      rw [hrep]
      by_cases h : keptRows .primalDual sets setMu M i = true
      · simp only [maskRows, h, if_true]; ring
      · simp only [h, if_false, rhsDual, zero_sub, Bool.false_eq_true] at hi
        have hi' : dlam i = M.lamsPdal i - lam i := mul_left_cancel₀ hmu (by linear_combination -2 * hi)
        simp only [maskRows, h, if_false, Bool.false_eq_true, hi']; ring
  rw [key]
  constructor <;> intro hh <;> linear_combination hh

/-- C23, second half: the Newton system above is the linearisation of the residual.  On `ℝⁿ`, with built-in
sets, `pdal_beta = 1/2` for the primal-dual system, a Hessian block that is the derivative of the gradient of the
(proximal) Lagrangian, and shifted constraint values off the kinks: the step `(dx, dlam)` solves the assembled
symmetrised system exactly when the derivative of the residual (the uncorrected right-hand side `kkt_rhs` computed
by the solver at `(x + a dx, lam + a dlam)`) along the step is minus the residual.
Missing: the Hessian block the solver assembles in mode EXACT is not that derivative unless the constraints are
affine or the primal-dual multiplier estimate equals the multiplier (`C23_exact_mode_false`); other values of
`pdal_beta` in the primal-dual system; kinks. -/
theorem C23_symmetric_iff_linearised_residual_partial {H : Type} (P : Ctx (Fin n → ℝ) ℝ H n m) (S : Settings ℝ)
    (leaf : Fin m → LeafSet ℝ × ℕ) (hsets : P.sets = StackedSet.ofLeaves leaf)
    (hvalid : ∀ i, ValidAt (leaf i).1 (leaf i).2) (c : (Fin n → ℝ) → Fin m → ℝ) (f : (Fin n → ℝ) → ℝ)
    (mu rho : ℝ) (hmu : 0 < mu) (hbeta : S.kkt = .primalDual → S.pdalBeta = 1 / 2)
    (target x : Fin n → ℝ) (lam lamPrev : Fin m → ℝ) (Hs : Matrix (Fin n) (Fin n) ℝ)
    (heval : ∀ y, P.eval y = some (f y, c y)) (hc : HasFDerivAt c (matL (P.jac x)) x) (hJ : ContinuousAt P.jac x)
    (hHs : HasFDerivAt (fun y j => P.grad y j + (∑ i, P.jac y i j * lam i) +
      if 0 < rho then P.proxGrad rho target y j else 0) (matL Hs) x)
    (dx : Fin n → ℝ) (dlam : Fin m → ℝ) (ev : ℝ → EvalOut ℝ n m)
    (hev : ∀ a, evalAt P S mu mu rho target (fun j => x j + a * dx j) (fun i => lam i + a * dlam i) lamPrev
      = some (ev a))
    (hk : ∀ i, ¬ Kink (leaf i).1 mu (leaf i).2
      (match S.kkt with | .classic => (ev 0).shift i | .primalDual => (ev 0).shiftPdal i))
    (M : Mults ℝ m) (hM : M = computeMultipliers P.sets mu mu S.pdalBeta (c x) lam lamPrev) :
    kktMatrix Hs (maskRows (keptRows S.kkt P.sets mu M) (P.jac x))
          (kktDual S.kkt mu (keptRows S.kkt P.sets mu M)) *ᵥ Sum.elim dx dlam =
        -Sum.elim (fun j => (ev 0).rhsTop j +
          rhsCorrection S.kkt (P.jac x) (maskRows (keptRows S.kkt P.sets mu M) (P.jac x)) M lam j) (ev 0).rhsBot ↔
      HasDerivAt (fun a => (ev a).rhsTop) (-(ev 0).rhsTop) 0 ∧
      HasDerivAt (fun a => (ev a).rhsBot) (-(ev 0).rhsBot) 0 := by
  have hx0 : (fun j => x j + 0 * dx j) = x := by funext j; simp
  simp only [evalAt, heval, Option.map_some, Option.some.injEq] at hev
  -- top and bottom right-hand side as functions of `a`
  have htop : ∀ a j, (ev a).rhsTop j = (P.grad (fun j => x j + a * dx j) j +
      (∑ i, P.jac (fun j => x j + a * dx j) i j * lam i) +
        (if 0 < rho then P.proxGrad rho target (fun j => x j + a * dx j) j else 0)) +
      ∑ i, (P.jac (fun j => x j + a * dx j) i j * a) * dlam i := by
    intro a j
    rw [← hev a]
    simp only
    have : ∑ i, P.jac (fun j => x j + a * dx j) i j * (lam i + a * dlam i) =
        ∑ i, P.jac (fun j => x j + a * dx j) i j * lam i +
        ∑ i, (P.jac (fun j => x j + a * dx j) i j * a) * dlam i := by
      rw [← Finset.sum_add_distrib]; exact Finset.sum_congr rfl fun i _ => by ring
    split_ifs <;> simp only [this] <;> ring
  have htop0 : (ev 0).rhsTop = rhsPrimal rho (P.grad x) (P.proxGrad rho target x) (P.jac x) lam := by
    funext j
    rw [htop 0 j]; simp [rhsPrimal]
  have hbot0 : (ev 0).rhsBot = rhsDual S.kkt mu M lam := by
    rw [← hev 0, hM]
    simp only [zero_mul, add_zero]
    cases S.kkt <;> rfl
  have hxa : HasDerivAt (fun (a : ℝ) j => x j + a * dx j) dx 0 := by
    rw [hasDerivAt_pi]; intro j
    simpa using ((hasDerivAt_id (0 : ℝ)).mul_const (dx j)).const_add (x j)
  have hderTop : HasDerivAt (fun a => (ev a).rhsTop)
      (fun j => ∑ k, Hs j k * dx k + ∑ i, P.jac x i j * dlam i) 0 := by
    rw [hasDerivAt_pi]; intro j
    have e : (fun a => (ev a).rhsTop j) = fun a => _ := funext fun a => htop a j
    rw [e]
    refine HasDerivAt.add ?_ ?_
    · have h1 : HasFDerivAt (fun y j => P.grad y j + (∑ i, P.jac y i j * lam i) +
        if 0 < rho then P.proxGrad rho target y j else 0) (matL Hs) ((fun (a : ℝ) j => x j + a * dx j) 0) := by
        simpa only [hx0] using hHs
      have h2 := h1.comp_hasDerivAt (0 : ℝ) hxa
      exact (hasDerivAt_pi.1 h2 j).congr_deriv (matL_apply Hs dx j)
    · refine HasDerivAt.fun_sum fun i _ => HasDerivAt.mul_const ?_ _
      have hcont : ContinuousAt (fun a : ℝ => P.jac (fun j => x j + a * dx j) i j) 0 := by
        have h3 : ContinuousAt P.jac ((fun (a : ℝ) j => x j + a * dx j) 0) := by simpa only [hx0] using hJ
        have h4 : ContinuousAt (fun a : ℝ => P.jac (fun j => x j + a * dx j)) 0 :=
          ContinuousAt.comp (f := fun (a : ℝ) j => x j + a * dx j) h3 hxa.continuousAt
        exact continuousAt_pi.1 (continuousAt_pi.1 h4 i) j
      have := hasDerivAt_mul_of_continuousAt hcont
      simpa only [hx0] using this
  have hcd : ∀ i, HasDerivAt (fun a : ℝ => c (fun j => x j + a * dx j) i) (∑ j, P.jac x i j * dx j) 0 := by
    have h1 : HasFDerivAt c (matL (P.jac x)) ((fun (a : ℝ) j => x j + a * dx j) 0) := by simpa only [hx0] using hc
    have h2 := h1.comp_hasDerivAt (0 : ℝ) hxa
    intro i
    exact (hasDerivAt_pi.1 h2 i).congr_deriv (by rw [matL_apply])
  have hla : ∀ i, HasDerivAt (fun a : ℝ => lam i + a * dlam i) (dlam i) 0 := fun i => by
    simpa using ((hasDerivAt_id (0 : ℝ)).mul_const (dlam i)).const_add (lam i)
  have key := C23_symmetric_iff_newton S.kkt P.sets mu mu S.pdalBeta rho hmu.ne' Hs (P.jac x) (P.grad x)
    (P.proxGrad rho target x) (c x) lam lamPrev dx dlam M hM
  rw [htop0, hbot0, key, ← htop0, ← hbot0]
  unfold Newton
  have uniq : ∀ {k : ℕ} {F : ℝ → Fin k → ℝ} {d r : Fin k → ℝ}, HasDerivAt F d 0 →
      ((∀ j, d j = r j) ↔ HasDerivAt F r 0) := by
    intro k F d r hd
    constructor
    · intro h; rwa [← funext h]
    · intro h j; rw [hd.unique h]
  refine and_congr (uniq hderTop) ?_
  cases hsys : S.kkt with
  | classic =>
    simp only
    have hd : HasDerivAt (fun a => (ev a).rhsBot) (fun i => (if keptRows .classic P.sets mu M i = true then
        ∑ k, P.jac x i k * dx k else 0) - mu * dlam i) 0 := by
      rw [hasDerivAt_pi]; intro i
      have e : (fun a => (ev a).rhsBot i) = fun a => (leaf i).1.normalAt mu (leaf i).2
          (c (fun j => x j + a * dx j) i + mu * lamPrev i) - mu * (lam i + a * dlam i) := by
        funext a
        rw [← hev a]
        simp only [hsys, hsets, StackedSet.ofLeaves]
        field_simp
      rw [e]
      refine HasDerivAt.sub ?_ ((hla i).const_mul mu)
      have hki := hk i
      simp only [hsys] at hki
      have e2 : (ev 0).shift i = c (fun j => x j + 0 * dx j) i + mu * lamPrev i := by rw [← hev 0]
      rw [e2] at hki
      have h5 := hasDerivAt_normalAt (leaf i).1 mu hmu.le (leaf i).2 (hvalid i) _ hki
      have h6 := h5.comp (0:ℝ) ((hcd i).add_const (mu * lamPrev i))
      refine h6.congr_deriv ?_
      have e3 : keptRows .classic P.sets mu M i = (leaf i).1.activeAt mu (leaf i).2
          (c (fun j => x j + 0 * dx j) i + mu * lamPrev i) := by
        rw [hx0, hM, hsets]; rfl
      rw [e3]
      split_ifs <;> simp
    exact uniq hd
  | primalDual =>
    simp only
    have hb := hbeta hsys
    have hd : HasDerivAt (fun a => (ev a).rhsBot) (fun i => (if keptRows .primalDual P.sets mu M i = true then
        ∑ k, P.jac x i k * dx k - mu / 2 * dlam i else 0) - mu / 2 * dlam i) 0 := by
      rw [hasDerivAt_pi]; intro i
      have e : (fun a => (ev a).rhsBot i) = fun a => (leaf i).1.normalAt mu (leaf i).2
          (c (fun j => x j + a * dx j) i + mu * lamPrev i - 1 / 2 * mu * (lam i + a * dlam i))
          - mu / 2 * (lam i + a * dlam i) := by
        funext a
        rw [← hev a]
        simp only [hsys, hsets, StackedSet.ofLeaves, hb]
        field_simp
      rw [e]
      refine HasDerivAt.sub ?_ ((hla i).const_mul (mu / 2))
      have hki := hk i
      simp only [hsys] at hki
      have e2 : (ev 0).shiftPdal i = c (fun j => x j + 0 * dx j) i + mu * lamPrev i -
          1 / 2 * mu * (lam i + 0 * dlam i) := by rw [← hev 0]
      rw [e2] at hki
      have h5 := hasDerivAt_normalAt (leaf i).1 mu hmu.le (leaf i).2 (hvalid i) _ hki
      have h6 := h5.comp (0:ℝ) (((hcd i).add_const (mu * lamPrev i)).sub ((hla i).const_mul (1 / 2 * mu)))
      refine h6.congr_deriv ?_
      have e3 : keptRows .primalDual P.sets mu M i = (leaf i).1.activeAt mu (leaf i).2
          (c (fun j => x j + 0 * dx j) i + mu * lamPrev i - 1 / 2 * mu * (lam i + 0 * dlam i)) := by
        rw [hx0, hM, hsets, zero_mul, add_zero]; rfl
      rw [e3]
      split_ifs with h
      · rw [one_mul]; ring
      · rw [zero_mul]
    exact uniq hd

/-- C23, failure in mode EXACT: the constraint Hessians are weighted with the primal-dual multiplier estimate, not
with the multiplier of the residual.  For `c(x) = x²`, zero cost, at `x = 1`, `lam = 0`, `mu = 1` the solution of
the assembled system does not solve the linearised residual equation. -/
theorem C23_exact_mode_false :
    ∃ (P : Ctx (Fin 1 → ℝ) ℝ Unit 1 1) (S : Settings ℝ) (x : Fin 1 → ℝ) (M : Mults ℝ 1) (dx dlam : Fin 1 → ℝ)
      (ev : ℝ → EvalOut ℝ 1 1),
      (∀ y, P.eval y = some (0, fun _ => y 0 ^ 2)) ∧ (∀ y, P.grad y = 0) ∧ (∀ y i j, P.jac y i j = 2 * y 0) ∧
      P.sets = StackedSet.ofLeaves (fun _ => (.equality, 0)) ∧ S.kkt = .classic ∧ S.pdalBeta = 1 / 2 ∧
      M = computeMultipliers P.sets 1 1 S.pdalBeta (fun _ => x 0 ^ 2) 0 0 ∧
      (∀ a, evalAt P S 1 1 0 x (fun j => x j + a * dx j) (fun i => 0 + a * dlam i) 0 = some (ev a)) ∧
      kktMatrix (kktHessian true 0 0 0 [(true, fun _ _ => 2 * M.lamsPdal 0)])
          (maskRows (keptRows S.kkt P.sets 1 M) (P.jac x)) (kktDual S.kkt 1 (keptRows S.kkt P.sets 1 M)) *ᵥ
          Sum.elim dx dlam =
        -Sum.elim (fun j => (ev 0).rhsTop j +
          rhsCorrection S.kkt (P.jac x) (maskRows (keptRows S.kkt P.sets 1 M) (P.jac x)) M 0 j) (ev 0).rhsBot ∧
      ¬ HasDerivAt (fun a => (ev a).rhsTop) (-(ev 0).rhsTop) 0 := by
  let P : Ctx (Fin 1 → ℝ) ℝ Unit 1 1 :=
    { eval := fun y => some (0, fun _ => y 0 ^ 2), grad := fun _ => 0, jac := fun y _ _ => 2 * y 0,
      sets := StackedSet.ofLeaves fun _ => (.equality, 0), neutral := fun _ => 0, proxVal := fun _ _ _ => 0,
      proxGrad := fun _ _ _ _ => 0, updHess := fun h _ _ _ => h, enterInner := fun h => h,
      step := fun _ => .error "" }
  let S : Settings ℝ :=
    { targetTol := 1, muInit := 1, rhoInit := 0, muLower := 1, muUpper := 1, innerTol0 := 1, primTol0 := 1,
      innerTolMin := 1, pdalBeta := 1 / 2, primAlpha := 1, primBeta := 1, dualAlpha := 1, dualBeta := 1,
      muUpdateFactor := 1, rhoUpdateFactor := 1, maxIters := 1, maxAlIters := 1, mode := .newton, kkt := .classic,
      pow := fun a _ => a }
  refine ⟨P, S, fun _ => 1, _, fun _ => -1 / 4, fun _ => 1 / 2, _, fun _ => rfl, fun _ => rfl, fun _ _ _ => rfl, rfl,
    rfl, rfl, rfl, fun _ => rfl, ?_, ?_⟩
  · rw [kktMatrix, fromBlocks_mulVec]
    funext k
    rcases k with j | i
    · simp [mulVec, dotProduct, P, S, kktHessian, maskRows, keptRows, computeMultipliers, StackedSet.ofLeaves,
        LeafSet.activeAt, LeafSet.normalAt, rhsCorrection]
      show (0 + 2 * 2) * (-1 / 4) + 1 = (0 : ℝ)
      norm_num
    · simp [mulVec, dotProduct, P, S, maskRows, keptRows, computeMultipliers, StackedSet.ofLeaves, kktDual,
        LeafSet.activeAt, LeafSet.normalAt]
      norm_num
  · intro h
    have h1 := hasDerivAt_pi.1 h 0
    have h2 : HasDerivAt (fun a : ℝ => 2 * (1 + a * (-1 / 4)) * (a * (1 / 2))) 1 0 := by
      have e1 : HasDerivAt (fun a : ℝ => 2 * (1 + a * (-1 / 4))) (2 * (1 * (-1 / 4))) 0 :=
        (((hasDerivAt_id (0:ℝ)).mul_const (-1 / 4)).const_add 1).const_mul 2
      have e2 : HasDerivAt (fun a : ℝ => a * (1 / 2)) (1 * (1 / 2)) 0 := (hasDerivAt_id (0:ℝ)).mul_const (1 / 2)
      refine (e1.mul e2).congr_deriv ?_
      norm_num
    have h3 : (1 : ℝ) = _ := h2.unique (h1.congr_of_eventuallyEq (Filter.Eventually.of_forall fun a => ?_))
    · simp [P] at h3
    · simp [P]

/-- non-vacuity of C23: one active and one inactive row of a nonpositivity constraint, classic system. -/
example : ∃ M : Mults ℚ 2,
    M = computeMultipliers (StackedSet.ofLeaves fun _ => (.negOrthant, 0)) 1 1 (1 / 2) ![1, -1] ![0, 1] ![0, 0] ∧
    keptRows .classic (StackedSet.ofLeaves fun _ => (.negOrthant, 0)) 1 M = ![true, false] ∧
    kktMatrix (n := 1) (fun _ _ => 1) (maskRows ![true, false] fun _ _ => 1) (kktDual .classic 1 ![true, false]) *ᵥ
        Sum.elim ![-1 / 2] ![1 / 2, -1] =
      -Sum.elim (fun j => rhsPrimal 0 ![0] ![0] (fun _ _ => 1) ![0, 1] j +
          rhsCorrection .classic (fun _ _ => 1) (maskRows ![true, false] fun _ _ => 1) M ![0, 1] j)
        (rhsDual .classic 1 M ![0, 1]) := by
  refine ⟨_, rfl, ?_, ?_⟩
  · funext i; fin_cases i <;>
      norm_num [keptRows, computeMultipliers, StackedSet.ofLeaves, LeafSet.activeAt]
  · have hk : keptRows .classic (StackedSet.ofLeaves fun _ => (.negOrthant, 0)) (1 : ℚ)
        (computeMultipliers (StackedSet.ofLeaves fun _ => (.negOrthant, 0)) 1 1 (1 / 2) ![1, -1] ![0, 1] ![0, 0])
        = ![true, false] := by
      funext i; fin_cases i <;>
        norm_num [keptRows, computeMultipliers, StackedSet.ofLeaves, LeafSet.activeAt]
    rw [← hk]
    refine (C23_symmetric_iff_newton .classic _ 1 1 (1 / 2) 0 one_ne_zero (fun _ _ => 1) (fun _ _ => 1) ![0] ![0]
      ![1, -1] ![0, 1] ![0, 0] ![-1 / 2] ![1 / 2, -1] _ rfl).2 ?_
    rw [hk]
    constructor
    · intro j; fin_cases j; norm_num [rhsPrimal, Fin.sum_univ_two]
    · intro i; fin_cases i <;>
        norm_num [rhsDual, computeMultipliers, StackedSet.ofLeaves, LeafSet.normalAt]

end ProxNLP
