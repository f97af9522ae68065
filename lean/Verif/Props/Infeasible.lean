import Verif.Lemmas.Infeasible
import Verif.Props.Certificate

/-!
C113: problems without solution.
-/

set_option linter.unusedSectionVars false
namespace ProxNLP

open Spec

variable {K : Type} {n m : ℕ} [Field K] [LinearOrder K] [IsStrictOrderedRing K]

/-- a positive bound on both residuals makes a certificate -/
theorem certified_of_residuals {X H : Type} (P : Ctx X K H n m) (mu tol : K) (x : X) (lam : Fin m → K) (f : K) (c : Fin m → K)
    (he : P.eval x = some (f, c))
    (h : max (inftyNorm fun i => c i - P.sets.projection mu (fun j => c j + mu * lam j) i)
      (inftyNorm fun j => P.grad x j + ∑ i, P.jac x i j * lam i) < tol) : Certified P mu tol x lam :=
  ⟨f, c, he, fun i => lt_of_le_of_lt (((inftyNorm_le_iff (fun i => c i - P.sets.projection mu (fun j => c j + mu * lam j) i) _).1 le_rfl).2 i)
      (lt_of_le_of_lt (le_max_left _ _) h),
    fun j => lt_of_le_of_lt (((inftyNorm_le_iff (fun j => P.grad x j + ∑ i, P.jac x i j * lam i) _).1 le_rfl).2 j)
      (lt_of_le_of_lt (le_max_right _ _) h)⟩

/-- what a run that does not succeed returns -/
theorem not_success_flag {X H : Type} (P : Ctx X K H n m) (S : Settings K) (st st' : St X K H m) (x0 : X) (k : ℕ) (lams0 : Fin k → K)
    (h : solve P S st x0 k lams0 = .ok st') (h1 : 0 < S.maxIters) (hs : st'.converged ≠ .success) :
    (st'.converged = .maxIters ∧ st'.numIters = S.maxIters) ∨ (st'.converged = .uninit ∧ st'.alIters = S.maxAlIters) := by
  obtain ⟨-, -, a, b, -⟩ := C15_flag_truth_partial P S st st' x0 k lams0 h
  cases hc : st'.converged with
  | success => exact absurd hc hs
  | maxIters => exact Or.inl ⟨rfl, (((a h1).1 hc)).1⟩
  | uninit =>
    rcases b hc with h0 | h0
    · omega
    · exact Or.inr ⟨rfl, h0.2⟩

/-- **C113, infeasible problems.**  If at every point some constraint is violated by at least `delta ≥ target_tol`, no call of `solve`
returns SUCCESS, whatever the start, the warm start, the settings, the linear solver, the line search and the earlier history of the
solver: it uses up a budget, and the primal infeasibility it reports is at least `delta`. -/
theorem C113_infeasible {X H : Type} (P : Ctx X K H n m) (leaf : Fin m → LeafSet K × ℕ) (hsets : P.sets = StackedSet.ofLeaves leaf)
    (hbox : ∀ i lo hi, (leaf i).1 = .box lo hi → lo (leaf i).2 ≤ hi (leaf i).2) (delta : K) (hfar : FarFromFeasible P leaf delta)
    (S : Settings K) (hlow : 0 < S.muLower) (hle : S.muLower ≤ S.muInit) (hf1 : S.muUpdateFactor ≤ 1) (h1 : 0 < S.maxIters)
    (h2 : 0 < S.maxAlIters) (st st' : St X K H m) (x0 : X) (k : ℕ) (lams0 : Fin k → K) (h : solve P S st x0 k lams0 = .ok st') :
    delta ≤ st'.prim ∧ (S.targetTol ≤ delta →
      (st'.converged = .maxIters ∧ st'.numIters = S.maxIters) ∨ (st'.converged = .uninit ∧ st'.alIters = S.maxAlIters)) := by
  have hp : delta ≤ st'.prim := by
    refine solve_residuals P S hle hf1 hlow (fun p _ => delta ≤ p) ?_ st st' x0 k lams0 h h1 h2
    intro x lam mu f c _ _ he
    obtain ⟨i, hi⟩ := hfar x f c he
    have hv : ValidAt (leaf i).1 (leaf i).2 := by
      have := hbox i
      cases hl : (leaf i).1 with
      | box lo hi => exact this lo hi hl
      | _ => trivial
    refine le_trans (hi _ ((rowMem_iff _ _ _).2 (projAt_mem _ mu _ (c i + mu * lam i) hv))) ?_
    have := ((inftyNorm_le_iff (fun i => c i - P.sets.projection mu (fun j => c j + mu * lam j) i) _).1 le_rfl).2 i
    rw [hsets] at this ⊢
    exact this
  refine ⟨hp, fun ht => not_success_flag P S st st' x0 k lams0 h h1 fun hs => ?_⟩
  have := (C15_flag_truth_partial P S st st' x0 k lams0 h).1 hs
  exact absurd (lt_of_le_of_lt (hp.trans (le_max_left _ _)) this) (not_lt.2 ht)

/-- **C113, affine constraints.**  A Farkas vector with margin `delta` shows that every point is at least `delta` away from feasibility. -/
theorem C113_farkas {H : Type} (P : Ctx (Fin n → K) K H n m) (A : Fin m → Fin n → K) (b : Fin m → K) (leaf : Fin m → LeafSet K × ℕ)
    (hP : ∀ x f c, P.eval x = some (f, c) → c = affine A b x) (delta : K) (y : Fin m → K) (hy : FarkasVector A b leaf delta y) :
    FarFromFeasible P leaf delta := by
  intro x f c he
  by_contra hc
  push Not at hc
  choose z hz hd using hc
  rw [hP x f c he] at hd
  have hsep := hy.separates z hz
  have e1 : ∑ i, y i * affine A b x i = -∑ i, y i * b i := by
    have : ∑ i, y i * ∑ j, A i j * x j = 0 := by
      simp only [Finset.mul_sum]
      rw [Finset.sum_comm]
      refine Finset.sum_eq_zero fun j _ => ?_
      have : ∀ i, y i * (A i j * x j) = y i * A i j * x j := fun i => by ring
      simp only [this]
      rw [← Finset.sum_mul, hy.kernel j, zero_mul]
    simp only [affine, mul_sub, Finset.sum_sub_distrib, this]
    ring
  have e2 : ∑ i, y i * affine A b x i - ∑ i, y i * z i < delta * ∑ i, |y i| := by
    rw [← Finset.sum_sub_distrib, Finset.mul_sum]
    obtain ⟨i0, hi0⟩ := hy.nonzero
    refine Finset.sum_lt_sum (fun i _ => ?_) ⟨i0, Finset.mem_univ _, ?_⟩
    · rw [← mul_sub]
      refine (le_abs_self _).trans ?_
      rw [abs_mul, mul_comm]
      exact mul_le_mul_of_nonneg_right (hd i).le (abs_nonneg _)
    · rw [← mul_sub]
      refine (le_abs_self _).trans_lt ?_
      rw [abs_mul, mul_comm]
      exact mul_lt_mul_of_pos_right (hd i0) (abs_pos.2 hi0)
  linarith

/-- **C113, unbounded problems.**  Convex cost, affine constraints: if there is a ray of feasible points along which the cost decreases
faster than `tol (|d|₁ + |A d|₁ / mu_lower)`, the two infeasibilities `solve` reports are never both below `tol`; so it never returns
SUCCESS when `target_tol ≤ tol`, in any mode, and uses up a budget. -/
theorem C113_unbounded {H : Type} (P : Ctx (Fin n → K) K H n m) (f : (Fin n → K) → K) (A : Fin m → Fin n → K) (b : Fin m → K)
    (leaf : Fin m → LeafSet K × ℕ) (hP : Composite P f A b leaf) (y d : Fin n → K) (s tol : K) (hray : DescentRay f A b leaf y d s)
    (S : Settings K) (hlow : 0 < S.muLower) (hle : S.muLower ≤ S.muInit) (hf1 : S.muUpdateFactor ≤ 1) (h1 : 0 < S.maxIters)
    (h2 : 0 < S.maxAlIters) (htol : 0 < tol) (hs : tol * (∑ j, |d j| + (∑ i, |∑ j, A i j * d j|) / S.muLower) < s)
    (st st' : St (Fin n → K) K H m) (x0 : Fin n → K) (k : ℕ) (lams0 : Fin k → K) (h : solve P S st x0 k lams0 = .ok st') :
    tol ≤ max st'.prim st'.dual ∧ (S.targetTol ≤ tol →
      (st'.converged = .maxIters ∧ st'.numIters = S.maxIters) ∨ (st'.converged = .uninit ∧ st'.alIters = S.maxAlIters)) := by
  have hp : tol ≤ max st'.prim st'.dual := by
    refine solve_residuals P S hle hf1 hlow (fun p q => tol ≤ max p q) ?_ st st' x0 k lams0 h h1 h2
    intro x lam mu f0 c hm _ he
    by_contra hc
    have hmu : 0 < mu := hlow.trans_le hm
    obtain ⟨z, -, -, hz⟩ := C84_residuals_bound_suboptimality P f A b leaf hP mu tol hmu x lam
      (certified_of_residuals P mu tol x lam f0 c he (not_le.1 hc))
    -- the bound along the ray, affine in `t`
    set L := ∑ j, |d j| + (∑ i, |∑ j, A i j * d j|) / mu with hL
    have hLs : tol * L < s := by
      refine lt_of_le_of_lt (mul_le_mul_of_nonneg_left ?_ htol.le) hs
      rw [hL]
      gcongr
    set C := f y + penalties leaf (affine A b y) + tol * ∑ j, |y j - x j| +
      ∑ i, (tol * (|lam i| + tol / mu) + tol / mu * |affine A b y i - affine A b x i|) - (f x + penalties leaf z) with hC
    have key : ∀ t, 0 ≤ t → (s - tol * L) * t ≤ C := by
      intro t ht
      have a1 := hz _ (hray.feasible t ht)
      have a2 := hray.decrease t ht
      have a3 : ∑ j, |y j + t * d j - x j| ≤ ∑ j, |y j - x j| + t * ∑ j, |d j| := by
        rw [Finset.mul_sum, ← Finset.sum_add_distrib]
        refine Finset.sum_le_sum fun j _ => ?_
        have : y j + t * d j - x j = (y j - x j) + t * d j := by ring
        rw [this]
        refine (abs_add_le _ _).trans (add_le_add le_rfl ?_)
        rw [abs_mul, abs_of_nonneg ht]
      have a4 : ∀ i, affine A b (fun j => y j + t * d j) i = affine A b y i + t * ∑ j, A i j * d j := by
        intro i
        simp only [affine, mul_add, Finset.sum_add_distrib, Finset.mul_sum]
        have : ∀ j, A i j * (t * d j) = t * (A i j * d j) := fun j => by ring
        simp only [this]
        ring
      have a5 : ∑ i, (tol * (|lam i| + tol / mu) + tol / mu * |affine A b (fun j => y j + t * d j) i - affine A b x i|) ≤
          ∑ i, (tol * (|lam i| + tol / mu) + tol / mu * |affine A b y i - affine A b x i|) +
            t * (tol / mu * ∑ i, |∑ j, A i j * d j|) := by
        rw [Finset.mul_sum, Finset.mul_sum, ← Finset.sum_add_distrib]
        refine Finset.sum_le_sum fun i _ => ?_
        rw [a4 i]
        have : affine A b y i + t * ∑ j, A i j * d j - affine A b x i = (affine A b y i - affine A b x i) + t * ∑ j, A i j * d j := by ring
        rw [this]
        have h3 : |affine A b y i - affine A b x i + t * ∑ j, A i j * d j| ≤
            |affine A b y i - affine A b x i| + t * |∑ j, A i j * d j| := by
          refine (abs_add_le _ _).trans (add_le_add le_rfl ?_)
          rw [abs_mul, abs_of_nonneg ht]
        have h4 := mul_le_mul_of_nonneg_left h3 (by positivity : 0 ≤ tol / mu)
        linarith
      have a6 := mul_le_mul_of_nonneg_left a3 htol.le
      have e : tol * L = tol * ∑ j, |d j| + tol / mu * ∑ i, |∑ j, A i j * d j| := by rw [hL]; ring
      have e2 : (s - tol * L) * t = s * t - t * (tol * ∑ j, |d j|) - t * (tol / mu * ∑ i, |∑ j, A i j * d j|) := by rw [e]; ring
      rw [e2, hC]
      linarith
    have hpos : 0 < s - tol * L := by linarith
    have hk := key ((|C| + 1) / (s - tol * L)) (by positivity)
    rw [mul_div_cancel₀ _ hpos.ne'] at hk
    linarith [le_abs_self C]
  refine ⟨hp, fun ht => not_success_flag P S st st' x0 k lams0 h h1 fun hs => ?_⟩
  have := (C15_flag_truth_partial P S st st' x0 k lams0 h).1 hs
  exact absurd (hp.trans_lt this) (not_lt.2 ht)

/-! ### Concrete problems -/

namespace Demo

/-- minimise `x²/2` subject to `x = 0` and `x = 1` -/
def clashQp : Qp ℚ 1 2 where
  H := Matrix.of ![![1]]
  g := ![0]
  A := ![![1], ![1]]
  b := ![0, 1]

def clashCfg : StepCfg (Fin 1 → ℚ) ℚ 1 2 := qpCfg clashQp .classic (denseBackend 0 (DenseObj.init 3)) 40

def clashLeaf : Fin 2 → LeafSet ℚ × ℕ := fun _ => (.equality, 0)

theorem clash_far : FarFromFeasible (concreteCtx clashCfg) clashLeaf (1 / 2) := by
  refine C113_farkas _ clashQp.A clashQp.b clashLeaf (fun x f c he => ?_) _ ![1, -1] ⟨⟨0, by simp⟩, ?_, fun z hz => ?_⟩
  · cases he; rfl
  · intro j
    simp [clashQp, Fin.sum_univ_two]
  · have h0 : z 0 = 0 := hz 0
    have h1 : z 1 = 0 := hz 1
    simp [clashQp, Fin.sum_univ_two, h0, h1]
    norm_num

/-- minimise `-x` subject to `-x ≤ 0` -/
def rayQp : Qp ℚ 1 1 where
  H := Matrix.of ![![0]]
  g := ![-1]
  A := ![![-1]]
  b := ![0]

def rayCfg (kkt : KktSys) : StepCfg (Fin 1 → ℚ) ℚ 1 1 :=
  { qpCfg rayQp kkt (denseBackend 0 (DenseObj.init 2)) 40 with sets := StackedSet.ofLeaves farLeaf }

theorem ray_composite (kkt : KktSys) : Composite (concreteCtx (rayCfg kkt)) rayQp.cost rayQp.A rayQp.b farLeaf where
  eval _ := rfl
  jac _ := rfl
  convex x y := by
    simp [concreteCtx, rayCfg, qpCfg, Qp.cost, Qp.gradient, rayQp]
  sets := rfl
  boxes := by intro i lo hi h; simp [farLeaf] at h

theorem ray_descends : DescentRay rayQp.cost rayQp.A rayQp.b farLeaf ![0] ![1] 1 where
  feasible t ht i := by
    show affine _ _ _ i ≤ 0
    fin_cases i
    simp [affine, rayQp]
    exact ht
  decrease t ht := by
    simp [Qp.cost, rayQp, penalties, farLeaf, rowPen]

end Demo

/-- non-vacuity: a solver set up for the infeasible problem runs, uses up its steps and reports an infeasibility of at least 1/2 -/
example : ∃ st', solve (concreteCtx Demo.clashCfg) { Demo.qpSettings with maxIters := 3 }
      (Demo.qpReady Demo.clashCfg { Demo.qpSettings with maxIters := 3 }) ![7] 2 ![0, 0] = .ok st' ∧ st'.converged = .maxIters ∧
      1 / 2 ≤ st'.prim := by
  obtain ⟨a, ha, hpa⟩ := checkSolve_sound (concreteCtx Demo.clashCfg) { Demo.qpSettings with maxIters := 3 } 20
    (Demo.qpReady Demo.clashCfg { Demo.qpSettings with maxIters := 3 }) ![7] 2 ![0, 0]
    (fun s => decide (s.converged = .maxIters)) (by decide +kernel)
  refine ⟨a, ha, of_decide_eq_true hpa, (C113_infeasible _ Demo.clashLeaf rfl (by intro i lo hi h; simp [Demo.clashLeaf] at h) _
    Demo.clash_far _ ?_ ?_ ?_ ?_ ?_ _ _ _ _ _ ha).1⟩ <;> norm_num [Demo.qpSettings]

/-- **C113 for unbounded problems fails without the margin**: on `min -x  s.t.  x ≥ 0`, which has no solution, a call with a warm start
of the wrong sign and a penalty below the tolerance returns SUCCESS at once: the sign of a multiplier is only tested after multiplication
with the penalty. -/
theorem C113_wrong_sign_false (kkt : KktSys) : ∃ st', solve (concreteCtx (Demo.rayCfg kkt))
      { Demo.l1Settings kkt with muInit := 1 / 10000000 }
      (Demo.qpReady (Demo.rayCfg kkt) (Demo.l1Settings kkt)) ![5] 1 ![-1] = .ok st' ∧
      st'.converged = .success ∧ st'.xOpt 0 = 5 ∧ st'.lamsOpt 0 = -1 ∧
      DescentRay Demo.rayQp.cost Demo.rayQp.A Demo.rayQp.b Demo.farLeaf ![0] ![1] 1 := by
  cases kkt
  · obtain ⟨a, ha, hpa⟩ := checkSolve_sound (concreteCtx (Demo.rayCfg .classic)) { Demo.l1Settings .classic with muInit := 1 / 10000000 } 20
      (Demo.qpReady (Demo.rayCfg .classic) (Demo.l1Settings .classic)) ![5] 1 ![-1]
      (fun s => decide (s.converged = .success ∧ s.xOpt 0 = 5 ∧ s.lamsOpt 0 = -1)) (by decide +kernel)
    obtain ⟨h1, h2, h3⟩ := of_decide_eq_true hpa
    exact ⟨a, ha, h1, h2, h3, Demo.ray_descends⟩
  · obtain ⟨a, ha, hpa⟩ := checkSolve_sound (concreteCtx (Demo.rayCfg .primalDual))
      { Demo.l1Settings .primalDual with muInit := 1 / 10000000 } 20
      (Demo.qpReady (Demo.rayCfg .primalDual) (Demo.l1Settings .primalDual)) ![5] 1 ![-1]
      (fun s => decide (s.converged = .success ∧ s.xOpt 0 = 5 ∧ s.lamsOpt 0 = -1)) (by decide +kernel)
    obtain ⟨h1, h2, h3⟩ := of_decide_eq_true hpa
    exact ⟨a, ha, h1, h2, h3, Demo.ray_descends⟩

/-- non-vacuity of `C113_unbounded`: the same problem with `mu_lower = 1/1000` meets the margin for the default tolerance -/
example (kkt : KktSys) : Composite (concreteCtx (Demo.rayCfg kkt)) Demo.rayQp.cost Demo.rayQp.A Demo.rayQp.b Demo.farLeaf ∧
    (1 / 1000000 : ℚ) * (∑ j, |(![1] : Fin 1 → ℚ) j| + (∑ i, |∑ j, Demo.rayQp.A i j * (![1] : Fin 1 → ℚ) j|) / (1 / 1000)) < 1 :=
  ⟨Demo.ray_composite kkt, by simp [Demo.rayQp]; norm_num⟩

end ProxNLP
