import Verif.Lemmas.DescentLoop

/-!
C83: with the primal-dual KKT system every inner loop ends by its own test on smooth problems with affine constraints in built-in
sets, after a number of steps bounded by the initial merit value; `solve` can then fail only by its budget of outer iterations.
The statements are about `innerLoop` and `solve` of `Model.Solver` with the concrete step of `Model.Step`.
-/

set_option linter.unusedSectionVars false
namespace ProxNLP

open Spec

variable {K : Type} {n m : ℕ} [Field K] [LinearOrder K] [IsStrictOrderedRing K]

/-- Every step made by the inner loop from a point whose criterion exceeds `tol` lowers the merit function by at least `decrease`. -/
theorem C83_step_decreases (C : StepCfg (Fin n → K) K n m) (f : (Fin n → K) → K) (A : Fin m → Fin n → K) (b : Fin m → K)
    (leaf : Fin m → LeafSet K × ℕ) (k : ConvexConst K) (hC : ConvexSolver C f A b leaf k) (S : Settings K) (hb : S.pdalBeta = 1 / 2)
    (hk : S.kkt = .primalDual) (st : St (Fin n → K) K (Hidden K n m) m) (hr : st.rho = 0) (hm : st.setMu = st.mu) (hmu : 0 < st.mu)
    (tol : K) (htol : 0 < tol) (hsb : SearchBudget C.ls k A st.mu tol)
    (hv : C.approx = .identity → ∀ p ∈ st.hidden.vhps, p.2 = 0)
    (ev : EvalOut K n m) (hev : evalAt (concreteCtx C) S st.mu st.setMu st.rho st.target st.xOpt st.lamsOpt st.lamsPrev = some ev)
    (hcrit : tol < ev.innerCrit)
    (o : StepOut (Fin n → K) K (Hidden K n m) m) (ho : stepFull C (stepIn (afterEval (concreteCtx C) st ev) ev) = .ok o) :
    ∃ ev', evalAt (concreteCtx C) S st.mu st.setMu st.rho st.target o.x o.lam st.lamsPrev = some ev' ∧
      ev'.merit ≤ ev.merit - k.decrease A C.ls st.mu tol ∧ 0 < k.decrease A C.ls st.mu tol := by
  obtain ⟨ev1, hev1, e1, e2, e3, e4, e5⟩ := cv_eval C f A b leaf k hC.convex S hb hk st.mu st.target st.xOpt st.lamsOpt st.lamsPrev
  rw [hm, hr, hev1] at hev
  cases hev
  obtain ⟨ev2, hev2, -, -, -, f4, -⟩ := cv_eval C f A b leaf k hC.convex S hb hk st.mu st.target o.x o.lam st.lamsPrev
  obtain ⟨h1, h2⟩ := cv_hess C f A b leaf k hC.convex st ev hv
  obtain ⟨hd, -⟩ := cv_step C f A b leaf k hC.convex hC.hi0 hC.params hC.deltaInit hC.deltaMax hC.backend hC.ls hC.sing
    (stepIn (afterEval (concreteCtx C) st ev) ev)
    { rho := hr, mu := hmu, setMu := hm, c := e1, grad := e2, jac := e3, merit := e4, hess := h1, vhps := h2 }
    tol htol hsb (by rw [e5] at hcrit; exact hcrit) o ho
  refine ⟨ev2, by rw [hm, hr]; exact hev2, ?_, ConvexConst.decrease_pos k A C.ls hC.ls st.mu tol hmu htol hC.convex.lo0 hC.convex.L0 hC.hi0 hsb⟩
  rw [f4]
  exact hd

/-- The inner loop ends by its own test.  If the merit value at entry is below `low + t * decrease` then fewer than `t` steps are made
(and their number is at most `(merit - low) / decrease`), the loop stops at a point that meets the inner tolerance or the target
tolerance, and this point does not depend on the iteration limit as soon as the latter leaves room for `t` steps. -/
theorem C83_inner_loop_ends (C : StepCfg (Fin n → K) K n m) (f : (Fin n → K) → K) (A : Fin m → Fin n → K) (b : Fin m → K)
    (leaf : Fin m → LeafSet K × ℕ) (k : ConvexConst K) (hC : ConvexSolver C f A b leaf k) (hret : ∀ i, ∃ o, stepFull C i = .ok o)
    (S : Settings K) (hb : S.pdalBeta = 1 / 2) (hk : S.kkt = .primalDual)
    (st : St (Fin n → K) K (Hidden K n m) m) (hr : st.rho = 0) (hm : st.setMu = st.mu) (hmu : 0 < st.mu)
    (htol : 0 < st.innerTol) (hsb : SearchBudget C.ls k A st.mu st.innerTol)
    (hv : C.approx = .identity → ∀ p ∈ st.hidden.vhps, p.2 = 0)
    (ev : EvalOut K n m) (hev : evalAt (concreteCtx C) S st.mu st.setMu st.rho st.target st.xOpt st.lamsOpt st.lamsPrev = some ev)
    (t : ℕ) (ht : ev.merit < k.low + t * k.decrease A C.ls st.mu st.innerTol) :
    ∃ st', (∀ N, st.numIters + t ≤ N → innerLoop (concreteCtx C) { S with maxIters := N } st = .ok st') ∧
      st.numIters ≤ st'.numIters ∧
      ((st'.numIters - st.numIters : ℕ) : K) * k.decrease A C.ls st.mu st.innerTol ≤ ev.merit - k.low ∧
      st'.converged = st.converged ∧
      ∃ ev', evalAt (concreteCtx C) S st'.mu st'.setMu st'.rho st'.target st'.xOpt st'.lamsOpt st'.lamsPrev = some ev' ∧
        (ev'.innerCrit ≤ st.innerTol ∨ ev'.outerCrit ≤ S.targetTol) := by
  obtain ⟨ev1, hev1, e1, e2, e3, e4, e5⟩ := cv_eval C f A b leaf k hC.convex S hb hk st.mu st.target st.xOpt st.lamsOpt st.lamsPrev
  rw [hm, hr, hev1] at hev
  cases hev
  rw [e4] at ht ⊢
  obtain ⟨st', h1, h2, h3, h4, ⟨ev', h5, h6⟩, -⟩ := cv_inner C f A b leaf k hC hret S hb hk t st hr hm hmu htol hsb hv ht
  have hin := h1 (st.numIters + t) le_rfl
  have hle : st.numIters ≤ st'.numIters := innerLoop_numIters_le _ _ _ _ hin
  refine ⟨st', h1, hle, ?_, h3, ev', h5, ?_⟩
  · rw [Nat.cast_sub hle]; exact h4
  · have := (innerLoop_frame _ _ _ _ hin).innerTol
    rcases h6 with h6 | h6
    · left; rwa [← this]
    · exact Or.inr h6

/-- `solve` fails at most by its outer budget: for every starting point there are an iteration limit `N` and a result that every run
with `max_iters ≥ N` returns; it is not flagged MAX_ITERS_REACHED, fewer than `N` steps were made, and unless it is flagged SUCCESS the
outer budget `max_al_iters` was used up. -/
theorem C83_solve_ends [Archimedean K] (p : InertiaParams K) (hp : GoodParams p) (hp0 : p.deltaInit = 0) (hpm : 0 ≤ p.deltaMax)
    (lso : LSOptions K) (hls : GoodLS lso) :
    ∃ F, ∀ (C : StepCfg (Fin n → K) K n m) (f : (Fin n → K) → K) (A : Fin m → Fin n → K) (b : Fin m → K)
      (leaf : Fin m → LeafSet K × ℕ) (k : ConvexConst K), C.inertia = p → C.ls = lso → F ≤ C.fuel → ConvexSolver C f A b leaf k →
      ∀ (S : Settings K), ConvexSettings S lso k A →
      ∀ (st : St (Fin n → K) K (Hidden K n m) m) (x0 : Fin n → K) (l : ℕ) (lams0 : Fin l → K), st.hasSetup = true →
        (C.approx = .identity → ∀ p ∈ st.hidden.vhps, p.2 = 0) →
        ∃ N st', (∀ maxIters, N ≤ maxIters → solve (concreteCtx C) { S with maxIters := maxIters } st x0 l lams0 = .ok st') ∧
          st'.converged ≠ .maxIters ∧ st'.numIters < N ∧ (st'.converged ≠ .success → st'.alIters = S.maxAlIters) := by
  obtain ⟨F, hF⟩ := C72_step_returns (n := n) (m := m) p hp (by rw [hp0]; exact hpm) lso hls
  refine ⟨F, fun C f A b leaf k hCp hCl hf hC S hS st x0 l lams0 hset hv => ?_⟩
  obtain ⟨N, st', h1, h2, h3, h4⟩ := cv_outer C f A b leaf k hC (hF C hCp hCl hf hC.backend.entries) S (hCl ▸ hS) (S.maxAlIters - 0)
    (initSolve S st x0 l lams0) (by
      obtain ⟨-, -, -, -, -, -, -, i1, i2, i3, -, -, -, i4, -, i5⟩ := initSolve_outerLog S st x0 l lams0
      refine ⟨?_, ?_, ?_, ?_, ?_, ?_⟩
      · rw [i3, hS.rho]
      · rw [i2, i1]
      · rw [i1]; exact hS.lower_le
      · rw [i1]
      · rw [i5]; exact le_max_right _ _
      · rw [i4]; exact hv) (by
      obtain ⟨-, -, -, -, -, i0, -⟩ := initSolve_outerLog S st x0 l lams0
      rw [i0]; omega)
  refine ⟨N, invokeCallbacks st', fun M hM => ?_, ?_, h3, fun hc => h4 hc⟩
  · unfold solve
    rw [if_neg (by simp [hset])]
    have : initSolve { S with maxIters := M } st x0 l lams0 = initSolve S st x0 l lams0 := rfl
    rw [this, h1 M hM]
  · show st'.converged ≠ .maxIters
    rcases h2 with h2 | h2
    · rw [h2, (initSolve_outerLog S st x0 l lams0).2.2.2.2.2.2.1]; decide
    · rw [h2]; decide

/-! ### Quadratic programs -/

/-- constants of a quadratic cost -/
def Spec.Qp.convexConst (q : Qp K n m) (h : K) : ConvexConst K where
  L := ∑ j, ∑ k, |q.H j k|
  lo := h
  hi := ∑ j, ∑ k, |q.H j k|
  low := -((∑ j, q.g j ^ 2) / (2 * h))

/-- a quadratic form is at most the sum of the absolute values of its entries times the squared norm -/
theorem quad_le_abs (H : Matrix (Fin n) (Fin n) K) (v : Fin n → K) : quad H v ≤ (∑ j, ∑ k, |H j k|) * ∑ j, v j ^ 2 := by
  unfold quad
  rw [Finset.sum_mul]
  refine Finset.sum_le_sum fun i _ => ?_
  rw [Finset.sum_mul, Finset.mul_sum]
  refine Finset.sum_le_sum fun j _ => ?_
  have hi : v i ^ 2 ≤ ∑ j, v j ^ 2 := Finset.single_le_sum (f := fun j => v j ^ 2) (fun _ _ => sq_nonneg _) (Finset.mem_univ i)
  have hj : v j ^ 2 ≤ ∑ j, v j ^ 2 := Finset.single_le_sum (f := fun j => v j ^ 2) (fun _ _ => sq_nonneg _) (Finset.mem_univ j)
  have h1 : v i * (H i j * v j) ≤ |H i j| * (|v i| * |v j|) := by
    calc v i * (H i j * v j) ≤ |v i * (H i j * v j)| := le_abs_self _
      _ = |H i j| * (|v i| * |v j|) := by rw [abs_mul, abs_mul]; ring
  have h2 : |v i| * |v j| ≤ ∑ j, v j ^ 2 := by
    nlinarith [sq_nonneg (|v i| - |v j|), sq_abs (v i), sq_abs (v j)]
  exact le_trans h1 (mul_le_mul_of_nonneg_left h2 (abs_nonneg _))

/-- Strictly convex quadratic programs with constraints in any of the built-in sets are in the class: for these C83 has no hypothesis
on the cost left. -/
theorem C83_quadratic_programs (q : Qp K n m) (h : K) (hc : q.StronglyConvex h) (leaf : Fin m → LeafSet K × ℕ)
    (hbox : ∀ i lo hi, (leaf i).1 = .box lo hi → lo (leaf i).2 ≤ hi (leaf i).2)
    (C : StepCfg (Fin n → K) K n m) (h1 : ∀ x, C.eval x = some (q.cost x, q.residual x)) (h2 : ∀ x, C.grad x = q.gradient x)
    (h3 : ∀ x, C.jac x = q.A) (h4 : ∀ x, C.objHess x = q.H) (h5 : ∀ x l, ∀ p ∈ C.cstrVhp x l, p.2 = 0)
    (h6 : ∀ x d, C.integrate x d = x + d) (h7 : C.sets = StackedSet.ofLeaves leaf) (h8 : C.approx = .exact ∨ C.approx = .gaussNewton)
    (h9 : C.beta = 1 / 2) (h10 : C.kkt = .primalDual) (h11 : ∀ t x, C.proxVal 0 t x = 0) :
    IsConvex C q.cost q.A q.b leaf (q.convexConst h) where
  eval := h1
  jac := h3
  smooth x d := by
    have hq : quad q.H d = ∑ j, d j * ∑ k, q.H j k * d k := by
      unfold quad
      exact Finset.sum_congr rfl fun j _ => by rw [Finset.mul_sum]
    rw [q.cost_add hc.symm, h2, ← hq]
    have := quad_le_abs q.H d
    simp only [Spec.Qp.convexConst]
    linarith
  below x := by
    unfold Qp.cost
    have hb := hc.bound x
    have hpos := hc.pos
    simp only [Spec.Qp.convexConst]
    have key : ∑ j, (h / 2 * x j ^ 2 + q.g j * x j + q.g j ^ 2 / (2 * h)) ≥ 0 := Finset.sum_nonneg fun j _ => by
      have : h / 2 * x j ^ 2 + q.g j * x j + q.g j ^ 2 / (2 * h) = (h * x j + q.g j) ^ 2 / (2 * h) := by
        field_simp
        ring
      rw [this]
      positivity
    simp only [Finset.sum_add_distrib, ← Finset.mul_sum, ← Finset.sum_div] at key
    linarith
  L0 := by
    show 0 ≤ ∑ j, ∑ k, |q.H j k|
    exact Finset.sum_nonneg fun _ _ => Finset.sum_nonneg fun _ _ => abs_nonneg _
  lo0 := hc.pos
  hess := Or.inr ⟨h8, fun x => by
    rw [h4]
    refine ⟨hc.symm, fun v => ?_, fun v => quad_le_abs q.H v⟩
    have hq : quad q.H v = ∑ j, v j * ∑ k, q.H j k * v k := by
      unfold quad
      exact Finset.sum_congr rfl fun j _ => by rw [Finset.mul_sum]
    rw [hq]
    exact hc.bound v⟩
  vhp := h5
  integrate := h6
  sets := h7
  boxes := hbox
  beta := h9
  kkt := h10
  prox := h11

/-- A sufficient condition on the options: it has to be checked at the worst penalties only. -/
theorem C83_search_budget (o : LSOptions K) (k : ConvexConst K) (A : Fin m → Fin n → K) (lower init tol a : K) (hl : 0 < lower)
    (hL : 0 ≤ k.L) (hlo : 0 < k.lo) (c1pos : 0 < o.armijoC1) (c1 : o.armijoC1 < 1) (half_lo : o.contractionMin ≤ 1 / 2)
    (half_hi : 1 / 2 ≤ o.contractionMax) (thresh : 0 < o.dphiThresh) (cmin : 0 < o.contractionMin) (ha : a * k.kappa A lower ≤ 1 - o.armijoC1)
    (alphaMin : o.alphaMin ≤ o.contractionMin * a) (t : ℕ) (ht : o.contractionMax ^ t ≤ a) (hsteps : 2 * t + 1 ≤ o.maxNumSteps)
    (htol : (2 * k.hi + 4 * frob A / lower + 2 * init) * o.dphiThresh ≤ tol ^ 2) (mu : K) (h1 : lower ≤ mu) (h2 : mu ≤ init) :
    SearchBudget o k A mu tol := by
  have hmu : 0 < mu := lt_of_lt_of_le hl h1
  have hF := frob_nonneg A
  have hd : frob A / mu ≤ frob A / lower := div_le_div_of_nonneg_left hF hl h1
  have hkap := ConvexConst.kappa_pos k A mu hmu hlo hL
  have hk : k.kappa A mu ≤ k.kappa A lower := by
    unfold ConvexConst.kappa
    have : (k.L / 2 + 2 * frob A / mu) / k.lo ≤ (k.L / 2 + 2 * frob A / lower) / k.lo := by
      refine div_le_div_of_nonneg_right ?_ hlo.le
      rw [mul_div_assoc, mul_div_assoc]
      linarith
    linarith
  have ha0 : 0 ≤ a := le_trans (pow_nonneg (by linarith) t) ht
  have hab : a ≤ k.abar A o.armijoC1 mu := by
    unfold ConvexConst.abar
    rw [le_div_iff₀ hkap]
    exact le_trans (mul_le_mul_of_nonneg_left hk ha0) ha
  refine ⟨c1pos, c1, half_lo, half_hi, thresh, le_trans alphaMin (mul_le_mul_of_nonneg_left hab cmin.le), ⟨t, le_trans ht hab, hsteps⟩, ?_⟩
  refine le_trans (mul_le_mul_of_nonneg_right ?_ thresh.le) htol
  unfold ConvexConst.gain
  rw [mul_div_assoc, mul_div_assoc]
  linarith

/-! ### A concrete instance -/

namespace Demo

/-- minimise `x² + xy + 3y²/2 - x` with `x + y = 1`, `x - 2y ≤ 0`, `-1 ≤ y ≤ 1` and the penalty `|x - 3|` -/
def cvQp : Qp ℚ 2 4 where
  H := Matrix.of ![![2, 1], ![1, 3]]
  g := ![-1, 0]
  A := ![![1, 1], ![1, -2], ![0, 1], ![1, 0]]
  b := ![1, 0, 0, 3]

def cvLeaf : Fin 4 → LeafSet ℚ × ℕ := ![(.equality, 0), (.negOrthant, 0), (.box (fun _ => -1) (fun _ => 1), 0), (.l1, 0)]

/-- options of the line search: the defaults but for more steps, a smaller least step and a smaller threshold on the slope -/
def cvLs : LSOptions ℚ :=
  { lsOpts .cubic (1 / 10000) (1 / 100000000) with dphiThresh := 1 / 10 ^ 30, maxNumSteps := 200 }

def cvCfg (approx : HessApprox) (B : Backend ℚ 2 4) (fuel : ℕ) : StepCfg (Fin 2 → ℚ) ℚ 2 4 :=
  { qpCfg cvQp .primalDual B fuel with sets := StackedSet.ofLeaves cvLeaf, ls := cvLs, approx := approx }

/-- as `qpSettings` with penalties from 1/100 down to 1/100000 -/
def cvSettings : Settings ℚ := { qpSettings with kkt := .primalDual, muLower := 1 / 100000 }

theorem cvQp_convex : cvQp.StronglyConvex 1 where
  pos := by norm_num
  symm := by show (Matrix.of ![![(2 : ℚ), 1], ![1, 3]]).IsSymm; decide +kernel
  bound := by
    intro v
    simp [cvQp, Fin.sum_univ_two]
    nlinarith [sq_nonneg (v 0 + v 1), sq_nonneg (v 1)]

theorem cvLs_good : GoodLS cvLs := by constructor <;> norm_num [cvLs, lsOpts]

theorem cvSolver (B : Backend ℚ 2 4) (hB : LibraryBackend B) (fuel : ℕ) :
    ConvexSolver (cvCfg .exact B fuel) cvQp.cost cvQp.A cvQp.b cvLeaf (cvQp.convexConst 1) where
  convex := C83_quadratic_programs cvQp 1 cvQp_convex cvLeaf (by
      intro i lo hi h
      fin_cases i <;> simp only [cvLeaf] at h <;> first | (cases h; norm_num) | (exfalso; revert h; simp))
    _ (fun _ => rfl) (fun _ => rfl) (fun _ => rfl) (fun _ => rfl)
    (by intro x l p hp; simp only [cvCfg, qpCfg, List.mem_singleton] at hp; rw [hp]) (fun _ _ => rfl) rfl (Or.inl rfl) rfl rfl
    (by intro t x; simp [cvCfg, qpCfg])
  hi0 := by decide +kernel
  params := inertiaDefaults_good
  deltaInit := rfl
  deltaMax := by norm_num [cvCfg, qpCfg, inertiaDefaults]
  backend := hB
  ls := cvLs_good
  sing := by intro _ _ _ _ _ _ h; simp [cvCfg, qpCfg, singNaN] at h

theorem cvSettings_ok : ConvexSettings cvSettings cvLs (cvQp.convexConst 1) cvQp.A where
  beta := rfl
  kkt := rfl
  rho := rfl
  lower := by norm_num [cvSettings]
  lower_le := by norm_num [cvSettings, qpSettings]
  factor_le := by norm_num [cvSettings, qpSettings]
  tolMin := by norm_num [cvSettings, qpSettings]
  search := C83_search_budget cvLs _ _ (1 / 100000) (1 / 100) (1 / 1000000000) (1 / 10 ^ 7) (by norm_num) (by decide +kernel) (by decide +kernel)
    (by norm_num [cvLs, lsOpts]) (by norm_num [cvLs, lsOpts]) (by norm_num [cvLs, lsOpts]) (by norm_num [cvLs, lsOpts])
    (by norm_num [cvLs, lsOpts]) (by norm_num [cvLs, lsOpts]) (by decide +kernel) (by decide +kernel) 80 (by decide +kernel) (by decide +kernel)
    (by decide +kernel)

/-- non-vacuity of C83: four kinds of constraints, every linear solver of the library, every starting point -/
example (B : Backend ℚ 2 4) (hB : LibraryBackend B) : ∃ F, ∀ x0 : Fin 2 → ℚ, ∃ N st', (∀ maxIters, N ≤ maxIters →
    solve (concreteCtx (cvCfg .exact B F)) { cvSettings with maxIters := maxIters } (qpReady (cvCfg .exact B F) cvSettings) x0 4
      (fun _ => 0) = .ok st') ∧ st'.converged ≠ .maxIters := by
  obtain ⟨F, hF⟩ := C83_solve_ends (n := 2) (m := 4) inertiaDefaults inertiaDefaults_good rfl (by norm_num [inertiaDefaults]) cvLs cvLs_good
  refine ⟨F, fun x0 => ?_⟩
  obtain ⟨N, st', h1, h2, -, -⟩ := hF _ _ _ _ _ _ rfl rfl le_rfl (cvSolver B hB F) cvSettings cvSettings_ok
    (qpReady (cvCfg .exact B F) cvSettings) x0 4 (fun _ => 0) rfl (by intro h; cases h)
  exact ⟨N, st', h1, h2⟩

/-! ### The threshold on the slope -/

/-- minimise `x²`, no constraint -/
def sqQp : Qp ℚ 1 0 where
  H := Matrix.of ![![2]]
  g := ![0]
  A := Fin.elim0
  b := Fin.elim0

/-- the default options of the line search, identity approximation of the Hessian -/
def sqCfg (B : Backend ℚ 1 0) (fuel : ℕ) : StepCfg (Fin 1 → ℚ) ℚ 1 0 :=
  { qpCfg sqQp .primalDual B fuel with ls := lsOpts .cubic (1 / 10000) (1 / 1000000), approx := .identity }

def sqSettings : Settings ℚ :=
  { qpSettings with kkt := .primalDual, targetTol := 1 / 100000000, innerTol0 := 1 / 10000000 }

theorem sq_convex (B : Backend ℚ 1 0) (fuel : ℕ) :
    IsConvex (sqCfg B fuel) sqQp.cost sqQp.A sqQp.b Fin.elim0 ⟨2, 1, 1, 0⟩ where
  eval _ := rfl
  jac _ := rfl
  smooth x d := by
    simp [sqCfg, qpCfg, Qp.cost, Qp.gradient, sqQp]
    nlinarith [sq_nonneg (d 0)]
  below x := by
    simp [Qp.cost, sqQp]
    nlinarith [sq_nonneg (x 0)]
  L0 := by norm_num
  lo0 := by norm_num
  hess := Or.inl ⟨rfl, le_rfl, le_rfl⟩
  vhp := by intro x l p hp; simp only [sqCfg, qpCfg, List.mem_singleton] at hp; rw [hp]
  integrate _ _ := rfl
  sets := by
    show StackedSet.ofLeaves _ = StackedSet.ofLeaves _
    congr 1
    funext i
    exact i.elim0
  boxes i := i.elim0
  beta := rfl
  kkt := rfl
  prox := by intro t x; simp [sqCfg, qpCfg]

theorem lsFirst_one (phi : ℚ → Option ℚ) (amin : ℚ) (fuel : ℕ) (r : ℚ × LSSample ℚ × List ℚ) (hphi : phi 1 ≠ none)
    (h : lsFirst phi amin fuel 1 [] = some r) : r.1 = 1 := by
  cases fuel with
  | zero => simp [lsFirst] at h
  | succ k =>
    rw [lsFirst] at h
    cases hv : phi 1 with
    | none => exact absurd hv hphi
    | some v => simp [hv] at h; rw [← h]

/-- near the minimiser the step is the full one, from `x` to `-x` -/
theorem sq_step (B : Backend ℚ 1 0) (hB : LibraryBackend B) (fuel : ℕ) (i : StepIn (Fin 1 → ℚ) ℚ (Hidden ℚ 1 0) 1 0)
    (hi : CvInput (sqCfg B fuel) sqQp.cost sqQp.A sqQp.b Fin.elim0 ⟨2, 1, 1, 0⟩ i) (hh : i.hidden.hess = 1) (ha : |i.x 0| = 1 / 10000000)
    (o : StepOut (Fin 1 → ℚ) ℚ (Hidden ℚ 1 0) 0) (ho : stepFull (sqCfg B fuel) i = .ok o) : o.x 0 = -i.x 0 := by
  set C := sqCfg B fuel with hCdef
  obtain ⟨d, st, r, hd, hr, hx, -, -, -⟩ := stepFull_ok C i o ho
  set M := computeMultipliers C.sets i.mu i.setMu C.beta i.ev.c i.lam i.lamPrev with hM
  set keep := keptRows C.kkt C.sets i.setMu M with hkeep
  have hmat : stepMatrix C i M = kktMatrix i.hidden.hess (maskRows keep sqQp.A) (kktDual C.kkt i.mu keep) := by
    unfold stepMatrix
    simp only [← hkeep, hi.jac, hi.rho, kktHessian_zero _ _ _ _ hi.vhps]
  obtain ⟨hsol, -, -⟩ := stepDirection_exact C inertiaDefaults_good rfl (by norm_num [hCdef, sqCfg, qpCfg, inertiaDefaults]) i M (by
    rw [hmat]; exact C79_exact hB _ hi.hess.symm (hi.hess.posDef one_pos) _ _ (kktDual_neg C.kkt i.mu hi.mu _)) d st hd
  have hg : i.ev.grad 0 = 2 * i.x 0 := by
    rw [hi.grad]
    simp [hCdef, sqCfg, qpCfg, Qp.gradient, sqQp]
  have hdx : d (.inl 0) = -(2 * i.x 0) := by
    have := congrFun hsol (.inl 0)
    rw [hmat, hh] at this
    simp [kktMatrix, Matrix.mulVec, dotProduct, Fintype.sum_sum_type, stepRhs, rhsPrimal, hi.rho] at this
    rw [this, hg]
    have hz : rhsCorrection C.kkt i.ev.jac (maskRows (keptRows C.kkt C.sets i.setMu M) i.ev.jac) M i.lam 0 = 0 := by
      unfold rhsCorrection
      split <;> simp
    rw [hz, neg_zero, zero_add]
  have hslope : dmeritDir i.rho C.beta i.setMu i.ev.grad i.ev.proxGrad i.ev.jac i.lam M.lamsPdal (fun j => d (.inl j)) (fun k => d (.inr k)) =
      -(4 * i.x 0 ^ 2) := by
    simp only [dmeritDir, meritGradient, Finset.univ_eq_empty, Finset.sum_empty, add_zero, hi.rho, lt_irrefl, if_false, hg, hdx,
      Finset.univ_unique, Fin.default_eq_zero, Finset.sum_singleton]
    ring
  rw [hslope] at hr
  have hal : r.alpha = 1 := by
    unfold lsRun at hr
    split at hr
    · cases hr
    · rename_i alpha latest tr hf
      have h1 := lsFirst_one _ _ _ _ (by
        simp [stepPhi, hCdef, sqCfg, qpCfg]) hf
      rw [if_pos (by
        rw [abs_neg, abs_mul, ← sq_abs (i.x 0), ha]
        norm_num [hCdef, sqCfg, lsOpts])] at hr
      cases hr
      exact h1
  rw [hx, hal]
  show i.x 0 + 1 * d (.inl 0) = _
  rw [hdx]
  ring

end Demo

/-- The condition of C83 that ties the inner tolerance to the threshold on the slope is needed.  With the default options of the line
search (`dphi_thresh = 1e-13`) and the identity approximation of the Hessian, minimising `x²` from `1e-7` with target tolerance `1e-8`
jumps between `1e-7` and `-1e-7` until the iterations are used up, however many there are: slopes below the threshold are not searched. -/
theorem C83_threshold_false (B : Backend ℚ 1 0) (hB : LibraryBackend B) :
    ∃ F, ∀ fuel, F ≤ fuel → ∀ maxIters maxAlIters, 0 < maxIters → 0 < maxAlIters →
      ∀ st : St (Fin 1 → ℚ) ℚ (Hidden ℚ 1 0) 0, st.hasSetup = true → (∀ p ∈ st.hidden.vhps, p.2 = 0) →
      ∃ st', solve (concreteCtx (Demo.sqCfg B fuel)) { Demo.sqSettings with maxIters := maxIters, maxAlIters := maxAlIters } st
          ![1 / 10000000] 0 Fin.elim0 = .ok st' ∧ st'.converged = .maxIters ∧ |st'.xOpt 0| = 1 / 10000000 := by
  obtain ⟨F, hF⟩ := C72_solve_returns (n := 1) (m := 0) Demo.inertiaDefaults Demo.inertiaDefaults_good (by norm_num [Demo.inertiaDefaults])
    (Demo.lsOpts .cubic (1 / 10000) (1 / 1000000)) (by constructor <;> norm_num [Demo.lsOpts])
  refine ⟨F, fun fuel hf a c ha hc st hset hv => ?_⟩
  set C := Demo.sqCfg B fuel with hCdef
  set S : Settings ℚ := { Demo.sqSettings with maxIters := a, maxAlIters := c } with hS
  obtain ⟨st', h⟩ := hF C rfl rfl hf hB.entries (fun _ => by simp [hCdef, Demo.sqCfg, Demo.qpCfg]) S st ![1 / 10000000] 0 Fin.elim0 hset
  refine ⟨st', h, ?_⟩
  obtain ⟨stf, hfo, rfl⟩ := solve_outer _ _ _ _ _ _ _ h
  show stf.converged = _ ∧ |stf.xOpt 0| = _
  have hcv := Demo.sq_convex B fuel
  -- the inner loop never stops by its own test
  have key : ∀ s s' : St (Fin 1 → ℚ) ℚ (Hidden ℚ 1 0) 0, innerLoop (concreteCtx C) S s = .ok s' →
      s.rho = 0 → s.setMu = s.mu → 0 < s.mu → s.innerTol = 1 / 1000000000 → (∀ p ∈ s.hidden.vhps, p.2 = 0) → |s.xOpt 0| = 1 / 10000000 →
      s'.converged = .maxIters ∧ |s'.xOpt 0| = 1 / 10000000 ∧ S.maxIters ≤ s'.numIters ∧ S.targetTol ≤ s'.dual := by
    intro s s' hin
    have hnot : ∀ (s : St (Fin 1 → ℚ) ℚ (Hidden ℚ 1 0) 0) ev, s.innerTol = 1 / 1000000000 → |s.xOpt 0| = 1 / 10000000 → s.rho = 0 →
        s.setMu = s.mu → evalSt (concreteCtx C) S s = some ev → ¬ stopTest S s ev ∧ S.targetTol ≤ ev.dual := by
      intro s ev h1 h2 hr hm hev
      have hgr : |C.grad s.xOpt 0| = 2 / 10000000 := by
        have : C.grad s.xOpt 0 = 2 * s.xOpt 0 := by simp [hCdef, Demo.sqCfg, Demo.qpCfg, Qp.gradient, Demo.sqQp]
        rw [this, abs_mul, h2]; norm_num
      obtain ⟨ev1, hev1, e1, e2, e3, e4, e5⟩ := cv_eval C _ _ _ _ _ hcv S rfl rfl s.mu s.target s.xOpt s.lamsOpt s.lamsPrev
      have hev' := hev
      unfold evalSt at hev
      rw [hr, hm, hev1] at hev
      cases hev
      have hd : (2 / 10000000 : ℚ) ≤ ev.dual := by
        have hdd : ev.dual = dualResidual (C.grad s.xOpt) (C.jac s.xOpt) s.lamsOpt := by
          unfold evalAt at hev1
          rw [show (concreteCtx C).eval s.xOpt = some _ from hcv.eval s.xOpt] at hev1
          cases hev1
          rfl
        rw [hdd, ← hgr]
        have := ((inftyNorm_le_iff (fun j => C.grad s.xOpt j + ∑ i, C.jac s.xOpt i j * s.lamsOpt i) _).1 le_rfl).2 0
        simpa [dualResidual] using this
      have hinn : (2 / 10000000 : ℚ) ≤ ev.innerCrit := by
        rw [e5, ← hgr]
        refine le_trans ?_ (le_max_left _ _)
        have := ((inftyNorm_le_iff (fun j => C.grad s.xOpt j + ∑ l, Demo.sqQp.A l j * s.lamsOpt l) _).1 le_rfl).2 0
        simpa using this
      have ht : S.targetTol = 1 / 100000000 := rfl
      refine ⟨?_, by rw [ht]; linarith⟩
      rintro (hx | hx)
      · rw [h1] at hx; linarith
      · have : ev.dual ≤ ev.outerCrit := le_max_right _ _
        rw [ht] at hx
        linarith
    refine innerLoop_ind (concreteCtx C) S (R := fun s s' => s.rho = 0 → s.setMu = s.mu → 0 < s.mu → s.innerTol = 1 / 1000000000 →
      (∀ p ∈ s.hidden.vhps, p.2 = 0) → |s.xOpt 0| = 1 / 10000000 → s'.converged = .maxIters ∧ |s'.xOpt 0| = 1 / 10000000 ∧
      S.maxIters ≤ s'.numIters ∧ S.targetTol ≤ s'.dual) ?_ ?_ ?_ s s' hin
    · intro s ev hev hst hr hm hmu ht hvv hx
      exact absurd hst (hnot s ev ht hx hr hm hev).1
    all_goals
      first
      | intro s s' ev o hev hst ho hmx hrec ih hr hm hmu ht hvv hx
      | intro s ev o hev hst ho hmx hr hm hmu ht hvv hx
      obtain ⟨ev1, hev1, e1, e2, e3, e4, e5⟩ := cv_eval C _ _ _ _ _ hcv S rfl rfl s.mu s.target s.xOpt s.lamsOpt s.lamsPrev
      have hev2 := hev
      unfold evalSt at hev2
      rw [hr, hm, hev1] at hev2
      cases hev2
      obtain ⟨g1, g2⟩ := cv_hess C _ _ _ _ _ hcv s ev (fun _ => hvv)
      have hox := Demo.sq_step B hB fuel (stepIn (afterEval (concreteCtx C) s ev) ev)
        { rho := hr, mu := hmu, setMu := hm, c := e1, grad := e2, jac := e3, merit := e4, hess := g1, vhps := g2 } rfl hx o ho
      have hox' : |o.x 0| = 1 / 10000000 := by rw [hox, abs_neg]; exact hx
    · exact ⟨rfl, hox', hmx, (hnot s ev ht hx hr hm hev).2⟩
    · obtain ⟨_, _, _, _, _, _, _, hoh⟩ := stepFull_ok C _ o ho
      exact ih hr hm hmu ht (by
        show ∀ p ∈ o.hidden.vhps, _
        rw [hoh.2]
        exact g2) hox'
  obtain ⟨-, -, -, -, j0, j1, -, i1, i2, i3, i6, -, -, i4, -, i5⟩ := initSolve_outerLog S st ![1 / 10000000] 0 Fin.elim0
  rw [outerLoop, if_pos (by rw [j0, j1]; exact ⟨ha, hc⟩)] at hfo
  split at hfo
  · cases hfo
  · rename_i s1 hin
    obtain ⟨k1, k2, k3, k4⟩ := key _ s1 hin (by exact i3) (by exact i2.trans i1.symm)
      (by show 0 < (initSolve S st ![1 / 10000000] 0 Fin.elim0).mu; rw [i1]; norm_num [hS, Demo.sqSettings, Demo.qpSettings])
      (by
        show (initSolve S st ![1 / 10000000] 0 Fin.elim0).innerTol = _
        rw [i5]; norm_num [hS, Demo.sqSettings, Demo.qpSettings])
      (by
        show ∀ p ∈ (initSolve S st ![1 / 10000000] 0 Fin.elim0).hidden.vhps, _
        rw [i4]; exact hv)
      (by
        show |(initSolve S st ![1 / 10000000] 0 Fin.elim0).xOpt 0| = _
        rw [i6]; norm_num)
    simp only at hfo
    rw [if_neg (by
      rw [afterInner_prim, afterInner_dual]
      exact not_lt.2 (le_trans k4 (le_max_right _ _)))] at hfo
    rw [outerLoop, if_neg (by
      show ¬ ((afterInner S s1).numIters < _ ∧ _)
      rw [afterInner_numIters]
      exact fun hx => absurd hx.1 (not_lt.2 k3))] at hfo
    cases hfo
    refine ⟨?_, ?_⟩
    · show (afterInner S s1).converged = _
      rw [afterInner_converged, k1]
    · show |(afterInner S s1).xOpt 0| = _
      rw [afterInner_xOpt, k2]

/-- the theorem applies to a solver that was just set up -/
example (B : Backend ℚ 1 0) (hB : LibraryBackend B) : ∃ F, ∃ st', solve (concreteCtx (Demo.sqCfg B F))
    { Demo.sqSettings with maxIters := 1000, maxAlIters := 100 } (Demo.qpReady (Demo.sqCfg B F) Demo.sqSettings) ![1 / 10000000] 0 Fin.elim0 =
      .ok st' ∧ st'.converged = .maxIters := by
  obtain ⟨F, hF⟩ := C83_threshold_false B hB
  obtain ⟨st', h1, h2, -⟩ := hF F le_rfl 1000 100 (by norm_num) (by norm_num) (Demo.qpReady (Demo.sqCfg B F) Demo.sqSettings) rfl
    (by intro p hp; cases hp)
  exact ⟨F, st', h1, h2⟩

end ProxNLP
