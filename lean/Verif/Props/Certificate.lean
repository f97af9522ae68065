import Verif.Spec.Composite
import Verif.Lemmas.Sets
import Verif.Lemmas.SolverEval
import Verif.Props.Qp
import Verif.Props.Solver

/-!
C84: what SUCCESS says about optimality.
-/

set_option linter.unusedSectionVars false
namespace ProxNLP

open Spec

variable {K : Type} {n m : ℕ} [Field K] [LinearOrder K] [IsStrictOrderedRing K]

theorem rowMem_iff (s : LeafSet K) (i : ℕ) (y : K) : rowMem s i y ↔ MemAt s i y := by
  cases s <;> simp [rowMem, MemAt]

/-- the normal part divided by the parameter is a subgradient of the nonsmooth term at the projected point -/
theorem normalAt_subgrad (s : LeafSet K) (mu : K) (hmu : 0 < mu) (i : ℕ) (hv : ValidAt s i) (z y : K) (hy : rowMem s i y) :
    s.normalAt mu i z * (y - s.projAt mu i z) ≤ mu * (rowPen s y - rowPen s (s.projAt mu i z)) := by
  have hind : IndAt s i → s.normalAt mu i z * (y - s.projAt mu i z) ≤ 0 := fun hi =>
    normalAt_mul_le s mu i z y hi ((rowMem_iff s i y).1 hy)
  cases s with
  | equality => simpa [rowPen] using hind trivial
  | negOrthant => simpa [rowPen] using hind trivial
  | box lo hi => simpa [rowPen] using hind hv
  | l1 =>
    simp only [rowPen, LeafSet.normalAt, LeafSet.projAt]
    rcases lt_trichotomy z 0 with hz | hz | hz
    · rw [signK, if_neg (not_lt.2 hz.le), if_pos hz, abs_of_neg hz]
      rcases le_total (-z - mu) 0 with h | h
      · rw [max_eq_right h]
        simp only [mul_zero, sub_zero, abs_zero]
        nlinarith [abs_nonneg y, neg_abs_le y]
      · rw [max_eq_left h, abs_of_nonpos (by linarith : -1 * (-z - mu) ≤ 0)]
        nlinarith [abs_nonneg y, neg_abs_le y]
    · subst hz
      simp [signK]
      positivity
    · rw [signK, if_pos hz, abs_of_pos hz]
      rcases le_total (z - mu) 0 with h | h
      · rw [max_eq_right h]
        simp only [mul_zero, sub_zero, abs_zero]
        nlinarith [abs_nonneg y, le_abs_self y]
      · rw [max_eq_left h, abs_of_nonneg (by linarith : 0 ≤ 1 * (z - mu))]
        nlinarith [abs_nonneg y, le_abs_self y]

/-- A problem with convex differentiable cost and affine constraints in built-in sets (a box is not empty). -/
structure Spec.Composite {H : Type} (P : Ctx (Fin n → K) K H n m) (f : (Fin n → K) → K) (A : Fin m → Fin n → K) (b : Fin m → K)
    (leaf : Fin m → LeafSet K × ℕ) : Prop where
  eval : ∀ x, P.eval x = some (f x, affine A b x)
  jac : ∀ x, P.jac x = A
  convex : ∀ x y, f x + ∑ j, P.grad x j * (y j - x j) ≤ f y
  sets : P.sets = StackedSet.ofLeaves leaf
  boxes : ∀ i lo hi, (leaf i).1 = .box lo hi → lo (leaf i).2 ≤ hi (leaf i).2

/-- What the test of the solver says about optimality: if the residuals at `x`, `lam` with penalty `mu` are below `tol` then there is a
point `z` of the sets within `tol` of the constraint values such that no feasible `y` is better than `(x, z)` by more than the right-hand
side.  The last term carries `tol / mu`: see `C84_small_penalty_false`, `C84_warm_start_false`. -/
theorem C84_residuals_bound_suboptimality {H : Type} (P : Ctx (Fin n → K) K H n m) (f : (Fin n → K) → K) (A : Fin m → Fin n → K)
    (b : Fin m → K) (leaf : Fin m → LeafSet K × ℕ) (hP : Composite P f A b leaf) (mu tol : K) (hmu : 0 < mu) (x : Fin n → K)
    (lam : Fin m → K) (hcert : Certified P mu tol x lam) :
    ∃ z, Feasible leaf z ∧ (∀ i, |affine A b x i - z i| < tol) ∧ ∀ y, Feasible leaf (affine A b y) →
      f x + penalties leaf z ≤ f y + penalties leaf (affine A b y) + tol * ∑ j, |y j - x j| +
        ∑ i, (tol * (|lam i| + tol / mu) + tol / mu * |affine A b y i - affine A b x i|) := by
  obtain ⟨v, c, he, h1, h2⟩ := hcert
  rw [hP.eval] at he
  cases he
  rw [hP.sets] at h1
  have hv : ∀ i, ValidAt (leaf i).1 (leaf i).2 := by
    intro i
    have := hP.boxes i
    cases h : (leaf i).1 with
    | box lo hi => exact this lo hi h
    | _ => trivial
  set c := affine A b x with hc
  set z : Fin m → K := fun i => (leaf i).1.projAt mu (leaf i).2 (c i + mu * lam i) with hz
  have h1' : ∀ i, |c i - z i| < tol := h1
  refine ⟨z, fun i => (rowMem_iff _ _ _).2 (projAt_mem _ _ _ _ (hv i)), h1', fun y hy => ?_⟩
  set cy := affine A b y with hcy
  have hrow : ∀ i, rowPen (leaf i).1 (z i) + lam i * (cy i - c i) ≤
      rowPen (leaf i).1 (cy i) + (tol * (|lam i| + tol / mu) + tol / mu * |cy i - c i|) := by
    intro i
    have hs := normalAt_subgrad (leaf i).1 mu hmu (leaf i).2 (hv i) (c i + mu * lam i) (cy i) (hy i)
    have e := projAt_add_normalAt (leaf i).1 mu (leaf i).2 (c i + mu * lam i)
    have e' : (leaf i).1.normalAt mu (leaf i).2 (c i + mu * lam i) = mu * lam i + (c i - z i) := by
      simp only [hz]; linarith
    rw [e'] at hs
    have hs' : (mu * lam i + (c i - z i)) * (cy i - z i) ≤ mu * (rowPen (leaf i).1 (cy i) - rowPen (leaf i).1 (z i)) := hs
    set d := c i - z i with hd
    have hd1 : |d| < tol := h1' i
    have hs2 : (lam i + d / mu) * (cy i - z i) ≤ rowPen (leaf i).1 (cy i) - rowPen (leaf i).1 (z i) := by
      have : (mu * lam i + d) * (cy i - z i) = mu * ((lam i + d / mu) * (cy i - z i)) := by field_simp
      rw [this] at hs'
      exact le_of_mul_le_mul_left hs' hmu
    have e2 : (lam i + d / mu) * (cy i - z i) = lam i * (cy i - c i) + lam i * d + d / mu * (cy i - c i) + d ^ 2 / mu := by
      have : cy i - z i = cy i - c i + d := by rw [hd]; ring
      rw [this]
      ring
    have b1 : -(|lam i| * tol) ≤ lam i * d := by
      have : |lam i * d| ≤ |lam i| * tol := by rw [abs_mul]; exact mul_le_mul_of_nonneg_left hd1.le (abs_nonneg _)
      linarith [neg_abs_le (lam i * d)]
    have b2 : -(tol / mu * |cy i - c i|) ≤ d / mu * (cy i - c i) := by
      have : |d / mu * (cy i - c i)| ≤ tol / mu * |cy i - c i| := by
        rw [abs_mul, abs_div, abs_of_pos hmu]
        exact mul_le_mul_of_nonneg_right (div_le_div_of_nonneg_right hd1.le hmu.le) (abs_nonneg _)
      linarith [neg_abs_le (d / mu * (cy i - c i))]
    have b3 : 0 ≤ d ^ 2 / mu := by positivity
    have b4 : 0 ≤ tol * (tol / mu) := by
      have : 0 ≤ tol := le_trans (abs_nonneg _) hd1.le
      positivity
    rw [e2] at hs2
    nlinarith
  have hsum := Finset.sum_le_sum fun i (_ : i ∈ Finset.univ) => hrow i
  simp only [Finset.sum_add_distrib] at hsum
  have hlag : ∑ j, P.grad x j * (y j - x j) + ∑ i, lam i * (cy i - c i) ≥ -(tol * ∑ j, |y j - x j|) := by
    have e1 : ∑ i, lam i * (cy i - c i) = ∑ j, (∑ i, A i j * lam i) * (y j - x j) := by
      have : ∀ i, lam i * (cy i - c i) = ∑ j, A i j * lam i * (y j - x j) := by
        intro i
        have : cy i - c i = ∑ j, A i j * (y j - x j) := by
          simp only [hcy, hc, affine, mul_sub, Finset.sum_sub_distrib]
          ring
        rw [this, Finset.mul_sum]
        exact Finset.sum_congr rfl fun j _ => by ring
      simp only [this]
      rw [Finset.sum_comm]
      exact Finset.sum_congr rfl fun j _ => by rw [Finset.sum_mul]
    rw [e1, ← Finset.sum_add_distrib, Finset.mul_sum, ← Finset.sum_neg_distrib]
    refine Finset.sum_le_sum fun j _ => ?_
    rw [← add_mul]
    have hb : |P.grad x j + ∑ i, A i j * lam i| ≤ tol := by
      have := h2 j
      rw [hP.jac] at this
      exact this.le
    have : |(P.grad x j + ∑ i, A i j * lam i) * (y j - x j)| ≤ tol * |y j - x j| := by
      rw [abs_mul]; exact mul_le_mul_of_nonneg_right hb (abs_nonneg _)
    linarith [neg_abs_le ((P.grad x j + ∑ i, A i j * lam i) * (y j - x j))]
  have hf := hP.convex x y
  unfold penalties
  rw [Finset.sum_add_distrib]
  linarith

/-- the same for what `solve` returns with SUCCESS in mode NEWTON -/
theorem C84_success_bounds_suboptimality {H : Type} (P : Ctx (Fin n → K) K H n m) (f : (Fin n → K) → K) (A : Fin m → Fin n → K)
    (b : Fin m → K) (leaf : Fin m → LeafSet K × ℕ) (hP : Composite P f A b leaf) (S : Settings K) (st st' : St (Fin n → K) K H m)
    (x0 : Fin n → K) (k : ℕ) (lams0 : Fin k → K) (hmode : S.mode = .newton) (h : solve P S st x0 k lams0 = .ok st')
    (hs : st'.converged = .success) (hmu : 0 < st'.resMu) :
    ∃ z, Feasible leaf z ∧ (∀ i, |affine A b st'.xOpt i - z i| < S.targetTol) ∧ ∀ y, Feasible leaf (affine A b y) →
      f st'.xOpt + penalties leaf z ≤ f y + penalties leaf (affine A b y) + S.targetTol * ∑ j, |y j - st'.xOpt j| +
        ∑ i, (S.targetTol * (|st'.lamsOpt i| + S.targetTol / st'.resMu) +
          S.targetTol / st'.resMu * |affine A b y i - affine A b st'.xOpt i|) :=
  C84_residuals_bound_suboptimality P f A b leaf hP st'.resMu S.targetTol hmu st'.xOpt st'.lamsOpt
    (C13_success_certifies_partial P S st st' x0 k lams0 hmode h hs)

/-- In the primal-dual KKT system the L1 penalty counts twice: a point at which the right-hand side of that system vanishes for the
multiplier estimate `lam` itself has a multiplier in twice the subdifferential of the absolute value. -/
theorem C84_primal_dual_doubles_l1 {H : Type} (P : Ctx (Fin n → K) K H n m) (S : Settings K) (hb : S.pdalBeta = 1 / 2)
    (hk : S.kkt = .primalDual) (mu : K) (hmu : 0 < mu) (t x : Fin n → K) (lam : Fin m → K) (leaf : Fin m → LeafSet K × ℕ)
    (hsets : P.sets = StackedSet.ofLeaves leaf) (ev : EvalOut K n m) (hev : evalAt P S mu mu 0 t x lam lam = some ev)
    (hcrit : ev.innerCrit = 0) (i : Fin m) (hi : (leaf i).1 = .l1) :
    |lam i| ≤ 2 ∧ (0 < ev.c i → lam i = 2) ∧ (ev.c i < 0 → lam i = -2) := by
  have hbot : ev.rhsBot i = 0 := by
    have h0 : inftyNorm ev.rhsBot ≤ 0 := hcrit ▸ le_max_right _ _
    have := ((inftyNorm_le_iff _ _).1 h0).2 i
    exact abs_nonpos_iff.1 this
  unfold evalAt at hev
  cases he : P.eval x with
  | none => rw [he] at hev; cases hev
  | some fc =>
    rw [he] at hev
    simp only [Option.map_some, Option.some.injEq] at hev
    subst hev
    simp only [hk] at hbot ⊢
    have hn : P.sets.normal mu (fun i => fc.2 i + mu * lam i - 1 / 2 * mu * lam i) i =
        (leaf i).1.normalAt mu (leaf i).2 (fc.2 i + mu * lam i - 1 / 2 * mu * lam i) := by rw [hsets]; rfl
    rw [hn, hi, hb] at hbot
    simp only [LeafSet.normalAt] at hbot
    set c := fc.2 i with hc
    set l := lam i with hl
    have ez : c + mu * l - 1 / 2 * mu * l = c + mu / 2 * l := by ring
    rw [ez] at hbot
    have hN : c + mu / 2 * l - signK (c + mu / 2 * l) * max (|c + mu / 2 * l| - mu) 0 = mu / 2 * l := by
      have : 1 / 2 * mu * ((c + mu / 2 * l - signK (c + mu / 2 * l) * max (|c + mu / 2 * l| - mu) 0) * (1 / mu / (1 / 2)) - l) =
          (c + mu / 2 * l - signK (c + mu / 2 * l) * max (|c + mu / 2 * l| - mu) 0) - mu / 2 * l := by
        field_simp
      linarith
    have hcs : c = signK (c + mu / 2 * l) * max (|c + mu / 2 * l| - mu) 0 := by linarith
    set w := c + mu / 2 * l with hw
    have hl2 : ∀ a : K, mu / 2 * l = mu / 2 * a → l = a := fun a h => mul_left_cancel₀ (by positivity) h
    rcases le_total (|w| - mu) 0 with h | h
    · rw [max_eq_right h, mul_zero] at hcs
      refine ⟨?_, fun h0 => by linarith, fun h0 => by linarith⟩
      have hw' : w = mu / 2 * l := by rw [hw, hcs]; ring
      rw [hw', abs_mul, abs_of_pos (by positivity : 0 < mu / 2)] at h
      nlinarith
    · rw [max_eq_left h] at hcs
      have hw0 : 0 < |w| := by linarith
      rcases lt_or_gt_of_ne (abs_pos.1 hw0) with hneg | hpos
      · rw [signK, if_neg (not_lt.2 hneg.le), if_pos hneg, abs_of_neg hneg] at hcs
        rw [abs_of_neg hneg] at h
        have : l = -2 := hl2 _ (by linarith)
        refine ⟨by rw [this]; norm_num, fun h0 => by linarith, fun _ => this⟩
      · rw [signK, if_pos hpos, abs_of_pos hpos] at hcs
        rw [abs_of_pos hpos] at h
        have : l = 2 := hl2 _ (by linarith)
        refine ⟨by rw [this]; norm_num, fun _ => this, fun h0 => by linarith⟩

/-! ### Runs that report SUCCESS away from the solution -/

namespace Demo

/-- minimise `x²/2 + |x - 3|`: the minimiser is 1 -/
def l1Qp : Qp ℚ 1 1 where
  H := Matrix.of ![![1]]
  g := ![0]
  A := ![![1]]
  b := ![3]

def l1Leaf : Fin 1 → LeafSet ℚ × ℕ := fun _ => (.l1, 0)

def l1Cfg (kkt : KktSys) : StepCfg (Fin 1 → ℚ) ℚ 1 1 :=
  { qpCfg l1Qp kkt (denseBackend 0 (DenseObj.init 2)) 40 with sets := StackedSet.ofLeaves l1Leaf }

def l1Settings (kkt : KktSys) : Settings ℚ := { qpSettings with kkt := kkt }

theorem l1_composite (kkt : KktSys) : Composite (concreteCtx (l1Cfg kkt)) l1Qp.cost l1Qp.A l1Qp.b l1Leaf where
  eval _ := rfl
  jac _ := rfl
  convex x y := by
    simp [concreteCtx, l1Cfg, qpCfg, Qp.cost, Qp.gradient, l1Qp]
    nlinarith [sq_nonneg (x 0 - y 0)]
  sets := rfl
  boxes := by intro i lo hi h; simp [l1Leaf] at h

theorem l1_minimiser (y : ℚ) : (1 : ℚ) ^ 2 / 2 + |1 - 3| ≤ y ^ 2 / 2 + |y - 3| := by
  have h1 : |(1 : ℚ) - 3| = 2 := by norm_num [abs_of_neg]
  rw [h1]
  nlinarith [neg_abs_le (y - 3), sq_nonneg (y - 1)]

/-- minimise `x²/2` subject to `x ≤ 100` -/
def farQp : Qp ℚ 1 1 := { l1Qp with b := ![100] }

def farLeaf : Fin 1 → LeafSet ℚ × ℕ := fun _ => (.negOrthant, 0)

def farCfg (kkt : KktSys) : StepCfg (Fin 1 → ℚ) ℚ 1 1 :=
  { qpCfg farQp kkt (denseBackend 0 (DenseObj.init 2)) 40 with sets := StackedSet.ofLeaves farLeaf }

theorem far_composite (kkt : KktSys) : Composite (concreteCtx (farCfg kkt)) farQp.cost farQp.A farQp.b farLeaf where
  eval _ := rfl
  jac _ := rfl
  convex x y := by
    simp [concreteCtx, farCfg, qpCfg, Qp.cost, Qp.gradient, farQp, l1Qp]
    nlinarith [sq_nonneg (x 0 - y 0)]
  sets := rfl
  boxes := by intro i lo hi h; simp [farLeaf] at h

end Demo

/-- With the primal-dual KKT system the solver reports SUCCESS at `x = 2` on `min x²/2 + |x - 3|`, whose minimiser is `x = 1`
(`l1_minimiser`): the penalty counts twice and the test only sees the error multiplied by a penalty parameter driven to 1e-8. -/
theorem C84_small_penalty_false : ∃ st', solve (concreteCtx (Demo.l1Cfg .primalDual)) (Demo.l1Settings .primalDual)
      (Demo.qpReady (Demo.l1Cfg .primalDual) (Demo.l1Settings .primalDual)) ![0] 1 ![0] = .ok st' ∧
      st'.converged = .success ∧ st'.xOpt 0 = 2 ∧ (st'.xOpt 0) ^ 2 / 2 + |st'.xOpt 0 - 3| = 3 ∧ (1 : ℚ) ^ 2 / 2 + |1 - 3| = 5 / 2 := by
  obtain ⟨a, ha, hpa⟩ := checkSolve_sound (concreteCtx (Demo.l1Cfg .primalDual)) (Demo.l1Settings .primalDual) 20
    (Demo.qpReady (Demo.l1Cfg .primalDual) (Demo.l1Settings .primalDual)) ![0] 1 ![0]
    (fun s => decide (s.converged = .success ∧ s.xOpt 0 = 2 ∧ (s.xOpt 0) ^ 2 / 2 + |s.xOpt 0 - 3| = 3)) (by decide +kernel)
  obtain ⟨h1, h2, h3⟩ := of_decide_eq_true hpa
  exact ⟨a, ha, h1, h2, h3, by norm_num [abs_of_neg]⟩

/-- non-vacuity of `C84_primal_dual_doubles_l1`: the pair the run stops at -/
example : ∃ ev, evalAt (concreteCtx (Demo.l1Cfg .primalDual)) (Demo.l1Settings .primalDual) (1 / 100) (1 / 100) 0 ![0] ![2] ![-2] ![-2] = some ev ∧
    ev.innerCrit = 0 ∧ ev.c 0 = -1 := by
  refine ⟨_, rfl, ?_, ?_⟩ <;> decide +kernel

/-- the classic KKT system finds the minimiser -/
example : ∃ st', solve (concreteCtx (Demo.l1Cfg .classic)) (Demo.l1Settings .classic)
      (Demo.qpReady (Demo.l1Cfg .classic) (Demo.l1Settings .classic)) ![0] 1 ![0] = .ok st' ∧
      st'.converged = .success ∧ st'.xOpt 0 = 1 ∧ 0 < st'.resMu := by
  obtain ⟨a, ha, hpa⟩ := checkSolve_sound (concreteCtx (Demo.l1Cfg .classic)) (Demo.l1Settings .classic) 20
    (Demo.qpReady (Demo.l1Cfg .classic) (Demo.l1Settings .classic)) ![0] 1 ![0]
    (fun s => decide (s.converged = .success ∧ s.xOpt 0 = 1 ∧ 0 < s.resMu)) (by decide +kernel)
  exact ⟨a, ha, of_decide_eq_true hpa⟩

/-- Warm start with a small penalty: on `min x²/2  s.t.  x ≤ 100` from `x = -5` with multiplier 5 and `mu_init = 1e-7` the solver reports
SUCCESS at once, in both KKT modes, although the constraint is inactive and the minimiser is 0. -/
theorem C84_warm_start_false (kkt : KktSys) : ∃ st', solve (concreteCtx (Demo.farCfg kkt))
      { Demo.l1Settings kkt with muInit := 1 / 10000000 }
      (Demo.qpReady (Demo.farCfg kkt) (Demo.l1Settings kkt)) ![-5] 1 ![5] = .ok st' ∧
      st'.converged = .success ∧ st'.numIters = 0 ∧ st'.xOpt 0 = -5 ∧ st'.lamsOpt 0 = 5 := by
  cases kkt
  · obtain ⟨a, ha, hpa⟩ := checkSolve_sound (concreteCtx (Demo.farCfg .classic)) { Demo.l1Settings .classic with muInit := 1 / 10000000 } 20
      (Demo.qpReady (Demo.farCfg .classic) (Demo.l1Settings .classic)) ![-5] 1 ![5]
      (fun s => decide (s.converged = .success ∧ s.numIters = 0 ∧ s.xOpt 0 = -5 ∧ s.lamsOpt 0 = 5)) (by decide +kernel)
    exact ⟨a, ha, of_decide_eq_true hpa⟩
  · obtain ⟨a, ha, hpa⟩ := checkSolve_sound (concreteCtx (Demo.farCfg .primalDual))
      { Demo.l1Settings .primalDual with muInit := 1 / 10000000 } 20
      (Demo.qpReady (Demo.farCfg .primalDual) (Demo.l1Settings .primalDual)) ![-5] 1 ![5]
      (fun s => decide (s.converged = .success ∧ s.numIters = 0 ∧ s.xOpt 0 = -5 ∧ s.lamsOpt 0 = 5)) (by decide +kernel)
    exact ⟨a, ha, of_decide_eq_true hpa⟩

end ProxNLP
