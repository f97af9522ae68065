import Verif.Lemmas.ConvexConvLoop
import Verif.Props.Convex

/-!
C85: convergence with inequality constraints.
-/

set_option linter.unusedSectionVars false
namespace ProxNLP

open Spec

variable {K : Type} {n m : ℕ} [Field K] [LinearOrder K] [IsStrictOrderedRing K]

/-- The optimality conditions are sufficient: with a convex cost the point is a minimiser over all points that satisfy the constraints. -/
theorem C85_solution_minimises {H : Type} (P : Ctx (Fin n → K) K H n m) (f : (Fin n → K) → K) (A : Fin m → Fin n → K)
    (b : Fin m → K) (leaf : Fin m → LeafSet K × ℕ) (hP : Composite P f A b leaf) (xs : Fin n → K) (ls : Fin m → K)
    (hk : KktPoint P.grad A b leaf xs ls) (y : Fin n → K) (hy : Feasible leaf (affine A b y)) : f xs ≤ f y := by
  have h1 := hP.convex xs y
  have e : ∑ i, ls i * (affine A b y i - affine A b xs i) = ∑ j, (∑ i, A i j * ls i) * (y j - xs j) := by
    have : ∀ i, ls i * (affine A b y i - affine A b xs i) = ∑ j, A i j * ls i * (y j - xs j) := by
      intro i
      have : affine A b y i - affine A b xs i = ∑ j, A i j * (y j - xs j) := by
        simp only [affine, mul_sub, Finset.sum_sub_distrib]
        ring
      rw [this, Finset.mul_sum]
      exact Finset.sum_congr rfl fun j _ => by ring
    simp only [this]
    rw [Finset.sum_comm]
    exact Finset.sum_congr rfl fun j _ => by rw [Finset.sum_mul]
  have h2 : ∑ i, ls i * (affine A b y i - affine A b xs i) ≤ 0 := Finset.sum_nonpos fun i _ => hk.normal i _ (hy i)
  have h3 : ∑ j, P.grad xs j * (y j - xs j) = -∑ i, ls i * (affine A b y i - affine A b xs i) := by
    rw [e, ← Finset.sum_neg_distrib]
    refine Finset.sum_congr rfl fun j _ => ?_
    have := hk.stationary j
    have e2 : P.grad xs j = -∑ i, A i j * ls i := by linarith
    rw [e2]; ring
  linarith

/-- Distance to the solution of a pair whose residuals are below `tol`.  The last term carries `tol / mu` (see `C84_warm_start_false`). -/
theorem C85_residuals_bound_distance {H : Type} (P : Ctx (Fin n → K) K H n m) (A : Fin m → Fin n → K)
    (b : Fin m → K) (leaf : Fin m → LeafSet K × ℕ) (heval : ∀ x, ∃ v, P.eval x = some (v, affine A b x)) (hjac : ∀ x, P.jac x = A)
    (hsets : P.sets = StackedSet.ofLeaves leaf) (hbox : ∀ i lo hi, (leaf i).1 = .box lo hi → lo (leaf i).2 ≤ hi (leaf i).2)
    (hl : OnlySets leaf) (h : K) (hm : StronglyMonotone P.grad h) (xs : Fin n → K) (ls : Fin m → K)
    (hk : KktPoint P.grad A b leaf xs ls) (mu tol : K) (hmu : 0 < mu) (x : Fin n → K) (lam : Fin m → K)
    (hcert : Certified P mu tol x lam) :
    h * ∑ j, (x j - xs j) ^ 2 ≤ tol * (∑ j, |x j - xs j| + ∑ i, |lam i - ls i|) +
      tol / mu * ∑ i, |affine A b x i - affine A b xs i| := by
  obtain ⟨v, c, he, h1, h2⟩ := hcert
  obtain ⟨v', he'⟩ := heval x
  rw [he'] at he
  cases he
  rw [hsets] at h1
  have hv : ∀ i, ValidAt (leaf i).1 (leaf i).2 := by
    intro i
    have := hbox i
    cases h : (leaf i).1 with
    | box lo hi => exact this lo hi h
    | _ => trivial
  set c := affine A b x with hc
  set cs := affine A b xs with hcs
  set z : Fin m → K := fun i => (leaf i).1.projAt mu (leaf i).2 (c i + mu * lam i) with hz
  have h1' : ∀ i, |c i - z i| < tol := h1
  have hrow : ∀ i, -((lam i - ls i) * (c i - cs i)) ≤ tol * |lam i - ls i| + tol / mu * |c i - cs i| := by
    intro i
    have a1 := normalAt_mul_le (leaf i).1 mu (leaf i).2 (c i + mu * lam i) (cs i) (indAt_of_set _ _ (hv i) (hl i))
      ((rowMem_iff _ _ _).1 (hk.feasible i))
    have a2 := hk.normal i (z i) ((rowMem_iff _ _ _).2 (projAt_mem _ _ _ _ (hv i)))
    have e := projAt_add_normalAt (leaf i).1 mu (leaf i).2 (c i + mu * lam i)
    have e' : (leaf i).1.normalAt mu (leaf i).2 (c i + mu * lam i) = mu * lam i + (c i - z i) := by
      simp only [hz]; linarith
    rw [e'] at a1
    have a1' : (mu * lam i + (c i - z i)) * (cs i - z i) ≤ 0 := a1
    set d := c i - z i with hd
    have hd1 : |d| < tol := h1' i
    have a3 : (lam i + d / mu) * (cs i - z i) ≤ 0 := by
      have : (mu * lam i + d) * (cs i - z i) = mu * ((lam i + d / mu) * (cs i - z i)) := by field_simp
      rw [this] at a1'
      exact nonpos_of_mul_nonpos_right a1' hmu
    have ezi : z i = c i - d := by rw [hd]; ring
    rw [ezi] at a3 a2
    have b1 : -((lam i - ls i) * d) ≤ tol * |lam i - ls i| := by
      have : |(lam i - ls i) * d| ≤ tol * |lam i - ls i| := by
        rw [abs_mul, mul_comm]; exact mul_le_mul_of_nonneg_right hd1.le (abs_nonneg _)
      linarith [neg_abs_le ((lam i - ls i) * d)]
    have b2 : d / mu * (c i - cs i) ≤ tol / mu * |c i - cs i| := by
      have : |d / mu * (c i - cs i)| ≤ tol / mu * |c i - cs i| := by
        rw [abs_mul, abs_div, abs_of_pos hmu]
        exact mul_le_mul_of_nonneg_right (div_le_div_of_nonneg_right hd1.le hmu.le) (abs_nonneg _)
      linarith [le_abs_self (d / mu * (c i - cs i))]
    have b3 : 0 ≤ d / mu * d := by
      have : d / mu * d = d ^ 2 / mu := by ring
      rw [this]; positivity
    have a2' : ls i * (c i - d - cs i) ≤ 0 := a2
    have e5 : -((lam i - ls i) * (c i - cs i)) = (lam i + d / mu) * (cs i - (c i - d)) + ls i * (c i - d - cs i) -
        (lam i - ls i) * d + d / mu * (c i - cs i) - d / mu * d := by ring
    rw [e5]
    linarith
  have hsum := Finset.sum_le_sum fun i (_ : i ∈ Finset.univ) => hrow i
  simp only [Finset.sum_add_distrib, ← Finset.mul_sum, Finset.sum_neg_distrib] at hsum
  have hstep : ∑ j, (P.grad x j - P.grad xs j) * (x j - xs j) ≤ tol * ∑ j, |x j - xs j| - ∑ i, (lam i - ls i) * (c i - cs i) := by
    have e1 : ∑ i, (lam i - ls i) * (c i - cs i) = ∑ j, (∑ i, A i j * (lam i - ls i)) * (x j - xs j) := by
      have : ∀ i, (lam i - ls i) * (c i - cs i) = ∑ j, A i j * (lam i - ls i) * (x j - xs j) := by
        intro i
        have : c i - cs i = ∑ j, A i j * (x j - xs j) := by
          simp only [hc, hcs, affine, mul_sub, Finset.sum_sub_distrib]
          ring
        rw [this, Finset.mul_sum]
        exact Finset.sum_congr rfl fun j _ => by ring
      simp only [this]
      rw [Finset.sum_comm]
      exact Finset.sum_congr rfl fun j _ => by rw [Finset.sum_mul]
    rw [e1, Finset.mul_sum, ← Finset.sum_sub_distrib]
    refine Finset.sum_le_sum fun j _ => ?_
    have hb : |P.grad x j + ∑ i, A i j * lam i| ≤ tol := by
      have := h2 j
      rw [hjac] at this
      exact this.le
    have hs := hk.stationary j
    have es : ∑ i, A i j * (lam i - ls i) = ∑ i, A i j * lam i - ∑ i, A i j * ls i := by
      rw [← Finset.sum_sub_distrib]; exact Finset.sum_congr rfl fun i _ => by ring
    have : |(P.grad x j + ∑ i, A i j * lam i) * (x j - xs j)| ≤ tol * |x j - xs j| := by
      rw [abs_mul]; exact mul_le_mul_of_nonneg_right hb (abs_nonneg _)
    have h3 := le_abs_self ((P.grad x j + ∑ i, A i j * lam i) * (x j - xs j))
    rw [es]
    have e2 : P.grad xs j = -∑ i, A i j * ls i := by linarith
    rw [e2]
    linarith
  have := hm.bound x xs
  linarith

/-- Convergence from every starting point: on a smooth strongly convex problem with affine constraints in equality, orthant and box sets
that has a solution, with the primal-dual KKT system, there is an iteration limit `N` such that all runs with `max_iters ≥ N` return the
same result, and it is flagged SUCCESS after fewer than `(levels + 1) (rounds + 1)` outer iterations, unless some outer iteration ended
with its residual exactly equal to the target tolerance (there the inner loop stops on `≤` and the outer loop on `<`;
`C80_success_false` has such a run). -/
theorem C85_converges [Archimedean K] (p : InertiaParams K) (hp : GoodParams p) (hp0 : p.deltaInit = 0) (hpm : 0 ≤ p.deltaMax)
    (lso : LSOptions K) (hls : GoodLS lso) :
    ∃ F, ∀ (C : StepCfg (Fin n → K) K n m) (f : (Fin n → K) → K) (A : Fin m → Fin n → K) (b : Fin m → K)
      (leaf : Fin m → LeafSet K × ℕ) (k : ConvexConst K), C.inertia = p → C.ls = lso → F ≤ C.fuel → ConvexSolver C f A b leaf k →
      OnlySets leaf → ∀ (h : K), StronglyMonotone C.grad h → ∀ (xs : Fin n → K) (ls : Fin m → K), KktPoint C.grad A b leaf xs ls →
      ∀ (S : Settings K), ConvexSettings S lso k A →
      ∀ (theta beta R0 R : K) (levels rounds : ℕ), ConvexConvergence S A h theta beta R0 R levels rounds →
        (levels + 1) * (rounds + 1) ≤ S.maxAlIters →
      ∀ (st : St (Fin n → K) K (Hidden K n m) m) (x0 : Fin n → K) (lams0 : Fin m → K), st.hasSetup = true →
        (C.approx = .identity → ∀ p ∈ st.hidden.vhps, p.2 = 0) → ∑ i, (lams0 i - ls i) ^ 2 ≤ R0 ^ 2 →
        ∃ N st', (∀ maxIters, N ≤ maxIters → solve (concreteCtx C) { S with maxIters := maxIters } st x0 m lams0 = .ok st') ∧
          st'.numIters < N ∧
          ((st'.converged = .success ∧ st'.alIters < (levels + 1) * (rounds + 1)) ∨
            ∃ e ∈ st'.endLog, max e.prim e.dual = S.targetTol) := by
  obtain ⟨F, hF⟩ := C72_step_returns (n := n) (m := m) p hp (by rw [hp0]; exact hpm) lso hls
  refine ⟨F, fun C f A b leaf k hCp hCl hf hC hl h hm xs ls hk S hS theta beta R0 R levels rounds hV hal st x0 lams0 hset hv hR0 => ?_⟩
  obtain ⟨M, q, hM0, hq0, hq1, hM, hsh⟩ := hV.shrink
  obtain ⟨-, -, -, -, -, i0, ic, i1, i2, i3, -, -, -, i4, ip, i5⟩ := initSolve_outerLog S st x0 m lams0
  have hlp : (initSolve S st x0 m lams0).lamsPrev = lams0 := by
    unfold initSolve
    simp only [dif_pos]
    rfl
  have hrad := hV.radius
  have hth := hV.theta0
  have hbe := hV.beta0
  have hmt : 0 ≤ (m : K) * theta := by positivity
  have hrad' : R0 ≤ R - (((levels + 1) * (rounds + 1) : ℕ) : K) * (beta + 2 * (m * theta)) := by
    push_cast
    have : 2 * (m : K) * theta = 2 * (m * theta) := by ring
    rw [this] at hrad
    linarith
  have hup := hsh S.muInit hS.lower_le le_rfl
  obtain ⟨N, st', h1, h2, h3⟩ := cvConv_outer C f A b leaf k hC (hF C hCp hCl hf hC.backend.entries) hl S (hCl ▸ hS) h hm xs ls hk theta beta
    R0 R M q levels rounds hV hq0 hq1 hM hsh ((levels + 1) * (rounds + 1)) 0 0 (initSolve S st x0 m lams0) (by
      refine ⟨⟨?_, ?_, ?_, ?_, ?_, ?_⟩, ic, ?_, ?_, Nat.zero_le _, ?_, ?_, ?_, Nat.zero_le _, ?_, ?_, ?_⟩
      · rw [i3, hS.rho]
      · rw [i2, i1]
      · rw [i1]; exact hS.lower_le
      · rw [i1]
      · rw [i5]; exact le_max_right _ _
      · rw [i4]; exact hv
      · rw [i5, i1]
        exact max_le (hV.accuracy _ hS.lower_le le_rfl) (le_trans hV.accuracyMin (mul_le_mul_of_nonneg_left hS.lower_le hth))
      · rw [i1, pow_zero, mul_one]; exact le_max_left _ _
      · rw [i5, pow_zero, mul_one]; exact max_le_max hup.1 le_rfl
      · rw [ip, pow_zero, mul_one]; exact max_le_max hup.2.1 le_rfl
      · rw [ip]; exact le_max_right _ _
      · exact le_trans hV.R0_nonneg hrad'
      · rw [hlp]; exact le_trans hR0 (pow_le_pow_left₀ hV.R0_nonneg hrad' 2)
      · rw [Nat.sub_zero, Nat.sub_zero, add_mul]; omega) (by rw [i0]; omega)
  refine ⟨N, invokeCallbacks st', fun J hJ => ?_, h2, ?_⟩
  · unfold solve
    rw [if_neg (by simp [hset])]
    have : initSolve { S with maxIters := J } st x0 m lams0 = initSolve S st x0 m lams0 := rfl
    rw [this, h1 J hJ]
  · rw [i0] at h3
    rw [Nat.zero_add] at h3
    exact h3

/-! ### A concrete instance -/

namespace Demo

/-- minimise `x² + xy + 3y²/2 - x` with `x + y = 1`, `x - 2y ≤ 0`, `-1 ≤ y ≤ 1`: the solution is `(2/3, 1/3)` -/
def ineqQp : Qp ℚ 2 3 where
  H := Matrix.of ![![2, 1], ![1, 3]]
  g := ![-1, 0]
  A := ![![1, 1], ![1, -2], ![0, 1]]
  b := ![1, 0, 0]

def ineqLeaf : Fin 3 → LeafSet ℚ × ℕ := ![(.equality, 0), (.negOrthant, 0), (.box (fun _ => -1) (fun _ => 1), 0)]

def ineqLs : LSOptions ℚ :=
  { lsOpts .cubic (1 / 10000) (1 / 10 ^ 20) with dphiThresh := 1 / 10 ^ 40, maxNumSteps := 300 }

def ineqCfg (B : Backend ℚ 2 3) (fuel : ℕ) : StepCfg (Fin 2 → ℚ) ℚ 2 3 :=
  { qpCfg ineqQp .primalDual B fuel with sets := StackedSet.ofLeaves ineqLeaf, ls := ineqLs }

/-- target tolerance 1e-4, penalties from 1/100 down to 1e-8, inner tolerances from 1e-5 times the penalty down to 1e-13 -/
def ineqSettings : Settings ℚ :=
  { qpSettings with kkt := .primalDual, targetTol := 1 / 10000, muLower := 1 / 10 ^ 8, innerTol0 := 1 / 100000, innerTolMin := 1 / 10 ^ 13 }

theorem ineqQp_convex : ineqQp.StronglyConvex 1 where
  pos := by norm_num
  symm := by show (Matrix.of ![![(2 : ℚ), 1], ![1, 3]]).IsSymm; decide +kernel
  bound := by
    intro v
    simp [ineqQp, Fin.sum_univ_two]
    nlinarith [sq_nonneg (v 0 + v 1), sq_nonneg (v 1)]

theorem ineqLs_good : GoodLS ineqLs := by constructor <;> norm_num [ineqLs, lsOpts]

theorem ineqSolver (B : Backend ℚ 2 3) (hB : LibraryBackend B) (fuel : ℕ) :
    ConvexSolver (ineqCfg B fuel) ineqQp.cost ineqQp.A ineqQp.b ineqLeaf (ineqQp.convexConst 1) where
  convex := C83_quadratic_programs ineqQp 1 ineqQp_convex ineqLeaf (by
      intro i lo hi h
      fin_cases i <;> simp only [ineqLeaf] at h <;> first | (cases h; norm_num) | (exfalso; revert h; simp))
    _ (fun _ => rfl) (fun _ => rfl) (fun _ => rfl) (fun _ => rfl)
    (by intro x l p hp; simp only [ineqCfg, qpCfg, List.mem_singleton] at hp; rw [hp]) (fun _ _ => rfl) rfl (Or.inl rfl) rfl rfl
    (by intro t x; simp [ineqCfg, qpCfg])
  hi0 := by decide +kernel
  params := inertiaDefaults_good
  deltaInit := rfl
  deltaMax := by norm_num [ineqCfg, qpCfg, inertiaDefaults]
  backend := hB
  ls := ineqLs_good
  sing := by intro _ _ _ _ _ _ h; simp [ineqCfg, qpCfg, singNaN] at h

theorem ineqSettings_ok : ConvexSettings ineqSettings ineqLs (ineqQp.convexConst 1) ineqQp.A where
  beta := rfl
  kkt := rfl
  rho := rfl
  lower := by norm_num [ineqSettings]
  lower_le := by norm_num [ineqSettings, qpSettings]
  factor_le := by norm_num [ineqSettings, qpSettings]
  tolMin := by norm_num [ineqSettings, qpSettings]
  search := C83_search_budget ineqLs _ _ (1 / 10 ^ 8) (1 / 100) (1 / 10 ^ 13) (1 / 10 ^ 10) (by norm_num) (by decide +kernel) (by decide +kernel)
    (by norm_num [ineqLs, lsOpts]) (by norm_num [ineqLs, lsOpts]) (by norm_num [ineqLs, lsOpts]) (by norm_num [ineqLs, lsOpts])
    (by norm_num [ineqLs, lsOpts]) (by norm_num [ineqLs, lsOpts]) (by decide +kernel) (by decide +kernel) 110 (by decide +kernel) (by decide +kernel)
    (by decide +kernel)

theorem ineq_monotone (B : Backend ℚ 2 3) (fuel : ℕ) : StronglyMonotone (ineqCfg B fuel).grad 1 where
  pos := by norm_num
  bound x y := by
    simp [ineqCfg, qpCfg, Qp.gradient, ineqQp, Fin.sum_univ_two]
    nlinarith [sq_nonneg (x 0 - y 0 + (x 1 - y 1)), sq_nonneg (x 1 - y 1)]

theorem ineq_kkt (B : Backend ℚ 2 3) (fuel : ℕ) :
    KktPoint (ineqCfg B fuel).grad ineqQp.A ineqQp.b ineqLeaf ![2 / 3, 1 / 3] ![-1, 1 / 3, 0] where
  stationary j := by
    fin_cases j <;> simp [ineqCfg, qpCfg, Qp.gradient, ineqQp, Fin.sum_univ_succ] <;> norm_num
  feasible i := by
    fin_cases i <;> simp [rowMem, affine, ineqLeaf, ineqQp, Fin.sum_univ_succ] <;> norm_num
  normal i y h := by
    fin_cases i <;> simp [rowMem, affine, ineqLeaf, ineqQp, Fin.sum_univ_succ] at h ⊢ <;> linarith

theorem ineq_convergence : ConvexConvergence ineqSettings ineqQp.A 1 (1 / 100000) 2 2 100 3 7 where
  newton := rfl
  target := by norm_num [ineqSettings, qpSettings]
  factor_nonneg := by norm_num [ineqSettings, qpSettings]
  theta0 := by norm_num
  accuracy mu h1 h2 := by simp [ineqSettings, qpSettings]
  accuracyMin := by norm_num [ineqSettings, qpSettings]
  shrink := ⟨1, 1 / 100, by norm_num, by norm_num, by norm_num, by norm_num [ineqSettings, qpSettings], fun mu h1 h2 => by
    simp only [ineqSettings, qpSettings] at h1 h2 ⊢
    norm_num
    refine ⟨by linarith, by linarith⟩⟩
  reach := by norm_num [ineqSettings, qpSettings]
  beta0 := by norm_num
  growth := by decide +kernel
  R0_nonneg := by norm_num
  radius := by norm_num
  room := by norm_num [ineqSettings, qpSettings]

/-- non-vacuity of C85: an equality, an orthant and a box constraint, two of them active at the solution, every linear solver of the
library, every starting point, multipliers started at zero -/
example (B : Backend ℚ 2 3) (hB : LibraryBackend B) : ∃ F, ∀ x0 : Fin 2 → ℚ, ∃ N st', (∀ maxIters, N ≤ maxIters →
    solve (concreteCtx (ineqCfg B F)) { ineqSettings with maxIters := maxIters } (qpReady (ineqCfg B F) ineqSettings) x0 3
      (fun _ => 0) = .ok st') ∧ ((st'.converged = .success ∧ st'.alIters < 32) ∨ ∃ e ∈ st'.endLog, max e.prim e.dual = 1 / 10000) := by
  obtain ⟨F, hF⟩ := C85_converges (n := 2) (m := 3) inertiaDefaults inertiaDefaults_good rfl (by norm_num [inertiaDefaults]) ineqLs ineqLs_good
  refine ⟨F, fun x0 => ?_⟩
  obtain ⟨N, st', h1, -, h3⟩ := hF _ _ _ _ _ _ rfl rfl le_rfl (ineqSolver B hB F) (by intro i; fin_cases i <;> simp [ineqLeaf]) 1
    (ineq_monotone B F) _ _ (ineq_kkt B F) ineqSettings ineqSettings_ok _ _ _ _ _ _ ineq_convergence (by decide)
    (qpReady (ineqCfg B F) ineqSettings) x0 (fun _ => 0) rfl (by intro h; cases h) (by norm_num [Fin.sum_univ_succ])
  exact ⟨N, st', h1, h3⟩

theorem ineq_composite (B : Backend ℚ 2 3) (fuel : ℕ) :
    Composite (concreteCtx (ineqCfg B fuel)) ineqQp.cost ineqQp.A ineqQp.b ineqLeaf where
  eval _ := rfl
  jac _ := rfl
  convex x y := by
    simp [concreteCtx, ineqCfg, qpCfg, Qp.cost, Qp.gradient, ineqQp, Fin.sum_univ_two]
    nlinarith [sq_nonneg (x 0 - y 0 + (x 1 - y 1)), sq_nonneg (x 1 - y 1), sq_nonneg (x 0 - y 0)]
  sets := rfl
  boxes := by
    intro i lo hi h
    fin_cases i <;> simp only [ineqLeaf] at h <;> first | (cases h; norm_num) | (exfalso; revert h; simp)

/-- non-vacuity of `C85_solution_minimises` -/
example (B : Backend ℚ 2 3) (y : Fin 2 → ℚ) (h1 : y 0 + y 1 = 1) (h2 : y 0 ≤ 2 * y 1) (h3 : -1 ≤ y 1) (h4 : y 1 ≤ 1) :
    ineqQp.cost ![2 / 3, 1 / 3] ≤ ineqQp.cost y := by
  refine C85_solution_minimises _ _ _ _ _ (ineq_composite B 0) _ _ (ineq_kkt B 0) y fun i => ?_
  fin_cases i <;> simp [rowMem, affine, ineqLeaf, ineqQp, Fin.sum_univ_succ]
  · linarith
  · linarith
  · exact ⟨h3, h4⟩

/-- non-vacuity of `C85_residuals_bound_distance`: a pair near the solution -/
example (B : Backend ℚ 2 3) : Certified (concreteCtx (ineqCfg B 0)) (1 / 100) (1 / 100) ![667 / 1000, 333 / 1000] ![-1, 1 / 3, 0] := by
  refine ⟨_, _, rfl, ?_, ?_⟩
  · intro i
    have : ∀ i : Fin 3, |ineqQp.residual ![667 / 1000, 333 / 1000] i - (StackedSet.ofLeaves ineqLeaf).projection (1 / 100)
        (fun i => ineqQp.residual ![667 / 1000, 333 / 1000] i + 1 / 100 * (![-1, 1 / 3, 0] : Fin 3 → ℚ) i) i| < 1 / 100 := by decide +kernel
    exact this i
  · intro j
    have : ∀ j : Fin 2, |ineqQp.gradient ![667 / 1000, 333 / 1000] j + ∑ i, ineqQp.A i j * (![-1, 1 / 3, 0] : Fin 3 → ℚ) i| < 1 / 100 := by
      decide +kernel
    exact this j

end Demo

end ProxNLP
