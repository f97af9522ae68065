import Verif.Lemmas.NewtonLoop
import Verif.Lemmas.NewtonTaylor
import Verif.Props.Qp
import Verif.Props.Convex
import Mathlib.LinearAlgebra.Matrix.Notation
import Mathlib.Tactic.FinCases

/-!
**C115**: near a solution the solver converges quadratically.  On a program with a smooth cost and affine equality constraints, with
exact second derivatives, every step of the inner loop is a full Newton step as soon as the Newton step is short compared with the
convexity and the Lipschitz constant of the Hessian; the residual is then squared with every step.
-/

set_option linter.unusedSectionVars false
namespace ProxNLP

open Spec

variable {K : Type} {n m : ℕ} [Field K] [LinearOrder K] [IsStrictOrderedRing K]

/-- **C115, digits**: in units of `2h/L` the lengths of the steps are squared each time; `k` steps raise the first one to the power `2^k`. -/
theorem C115_digits (h L δ : K) (k : ℕ) :
    L / (2 * h) * newtonLength h L δ k = (L / (2 * h) * δ) ^ 2 ^ k := by
  induction k with
  | zero => simp [newtonLength]
  | succ k ih =>
    rw [pow_succ 2 k, pow_mul, ← ih]
    show L / (2 * h) * (L / (2 * h) * newtonLength h L δ k ^ 2) = _
    ring

/-- **C115, one step**: from a point within `δ` in the sense of `FastStart`, a step of the inner loop moves by at most `δ`, makes the
second block of the optimality conditions of the subproblem zero, and leaves a gradient of the Lagrangian of norm at most `L/2 δ²`. -/
theorem C115_step (C : StepCfg (Fin n → K) K n m) (P : SmoothProgram K n m) (hP : IsSmooth C P) (hC : NewtonSolver C)
    (S : Settings K) (hb : S.pdalBeta = 1 / 2) (st : St (Fin n → K) K (Hidden K n m) m) (hr : st.rho = 0) (hm : st.setMu = st.mu)
    (hmu : 0 < st.mu) (h L δ : K) (hR : RegularOn P st.xOpt δ h L)
    (hF : FastStart P h L δ C.ls.armijoC1 st.mu st.lamsPrev st.xOpt st.lamsOpt) (ev : EvalOut K n m)
    (hev : evalAt (concreteCtx C) S st.mu st.setMu st.rho st.target st.xOpt st.lamsOpt st.lamsPrev = some ev)
    (o : StepOut (Fin n → K) K (Hidden K n m) m) (ho : stepFull C (stepIn (afterEval (concreteCtx C) st ev) ev) = .ok o) :
    InBall st.xOpt δ o.x ∧ ∑ j, P.lagrangian o.x o.lam j ^ 2 ≤ (L / 2 * δ ^ 2) ^ 2 ∧
      ∀ i, P.shifted st.mu st.lamsPrev o.x o.lam i = 0 := by
  obtain ⟨ev', hev', e1, e2, e3, e4, -⟩ := sm_eval C P hP S hb st.mu hmu st.target st.xOpt st.lamsOpt st.lamsPrev
  rw [hm, hr, hev'] at hev
  obtain rfl : ev' = ev := Option.some.inj hev
  have hh : (afterEval (concreteCtx C) st ev').hidden.hess = P.hess st.xOpt ∧
      ∀ p ∈ (afterEval (concreteCtx C) st ev').hidden.vhps, p.2 = 0 := by
    show (hessUpdate C st.hidden st.xOpt ev'.grad ev'.lamsPdal).hess = _ ∧
      ∀ p ∈ (hessUpdate C st.hidden st.xOpt ev'.grad ev'.lamsPdal).vhps, _
    unfold hessUpdate
    rcases hP.approx with ha | ha <;> rw [ha] <;> exact ⟨hP.hess _, hP.vhp _ _⟩
  have hw : ∀ d : Fin n → K, ∑ j, d j ^ 2 ≤ δ ^ 2 → InBall st.xOpt δ (st.xOpt + d) := by
    intro d hd
    show ∑ j, ((st.xOpt + d) j - st.xOpt j) ^ 2 ≤ δ ^ 2
    simpa using hd
  have hself : InBall st.xOpt δ st.xOpt := by
    show ∑ j, (st.xOpt j - st.xOpt j) ^ 2 ≤ δ ^ 2
    simpa using sq_nonneg δ
  obtain ⟨d, g1, g2, g3, g4⟩ := sm_step C P hP hC st.xOpt δ h L hR δ hF.nonneg hF.armijo
    (stepIn (afterEval (concreteCtx C) st ev') ev')
    { rho := hr, mu := hmu, setMu := hm, c := e1, grad := e2, jac := e3, merit := e4, hess := hh.1, vhps := hh.2 }
    hself hw hF.first o ho
  have g1' : o.x = st.xOpt + d := g1
  exact ⟨by rw [g1']; exact hw d g2, g3, g4⟩

/-- **C115, inner loop**: from a fast start the inner loop ends by its own test after at most `N` steps, for every `N ≥ 1` with
`h δ_N ≤ inner_tol`, where `δ_0 = δ`, `δ_{k+1} = L/(2h) δ_k²`.  It stays within `2δ` of where it started, and after the `s` steps it
makes the gradient of the Lagrangian has norm at most `h δ_s`. -/
theorem C115_inner_loop [Archimedean K] (p : InertiaParams K) (hp : GoodParams p) (hp0 : p.deltaInit = 0) (hpm : 0 ≤ p.deltaMax)
    (lso : LSOptions K) (hls : GoodLS lso) :
    ∃ F, ∀ (C : StepCfg (Fin n → K) K n m) (P : SmoothProgram K n m), C.inertia = p → C.ls = lso → F ≤ C.fuel → IsSmooth C P →
      LibraryBackend C.backend → ∀ (S : Settings K), S.pdalBeta = 1 / 2 →
      ∀ (st : St (Fin n → K) K (Hidden K n m) m), st.rho = 0 → st.setMu = st.mu → 0 < st.mu →
      ∀ h L δ : K, RegularOn P st.xOpt (2 * δ) h L → FastStart P h L δ lso.armijoC1 st.mu st.lamsPrev st.xOpt st.lamsOpt →
      ∀ N : ℕ, 1 ≤ N → h * newtonLength h L δ N ≤ st.innerTol → st.numIters + N < S.maxIters →
      ∃ st' s, innerLoop (concreteCtx C) S st = .ok st' ∧ s ≤ N ∧ st'.numIters = st.numIters + s ∧ st'.converged = st.converged ∧
        InBall st.xOpt (2 * δ) st'.xOpt ∧ ∑ j, P.lagrangian st'.xOpt st'.lamsOpt j ^ 2 ≤ (h * newtonLength h L δ s) ^ 2 ∧
        (((∀ j, |P.lagrangian st'.xOpt st'.lamsOpt j| ≤ st.innerTol) ∧
            ∀ i, |P.shifted st.mu st.lamsPrev st'.xOpt st'.lamsOpt i| ≤ st.innerTol) ∨
          ((∀ j, |P.lagrangian st'.xOpt st'.lamsOpt j| ≤ S.targetTol) ∧ ∀ i, |P.residual st'.xOpt i| ≤ S.targetTol)) := by
  obtain ⟨F, hF⟩ := C72_step_returns (n := n) (m := m) p hp (by rw [hp0]; exact hpm) lso hls
  refine ⟨F, fun C P hCp hCl hf hP hB S hb st hr hm hmu h L δ hR hfs N hN1 hN hn => ?_⟩
  have hbd := fun k => newtonLength_bounds hR.pos hR.lip hfs.nonneg hfs.small k
  obtain ⟨st', s, f1, f2, f3, f4, f5, f6, f7, f8⟩ := sm_inner C P hP
    { params := by rw [hCp]; exact hp, deltaInit := by rw [hCp]; exact hp0, deltaMax := by rw [hCp]; exact hpm, backend := hB
      alphaMin := by rw [hCl]; exact hls.amin1 } (hF C hCp hCl hf hB.entries) st.xOpt h L δ hfs.nonneg hR hfs.small
    (by rw [hCl]; exact hfs.armijo) S hb N N 0 st (Nat.zero_add N) hr hm hmu (NewtonInv.start hfs) (by
      intro x lam hI
      left
      refine max_le ?_ ?_
      · exact le_trans (inftyNorm_le_of_sum (mul_nonneg hR.pos.le (hbd N).1) (hI.lag hR.pos hmu)) hN
      · rw [(inftyNorm_eq_zero_iff _).2 (hI.dual hN1)]
        exact le_trans (mul_nonneg hR.pos.le (hbd N).1) hN) hn
  refine ⟨st', s, f2, f1, f3, f4, ?_, ?_, ?_⟩
  · exact within_mono (by have := hbd (0 + s); linarith) (by have := hbd (0 + s); linarith) f5.near
  · have := f5.lag hR.pos hmu
    rwa [Nat.zero_add] at this
  · rcases f8 with f8 | f8
    · left
      have := max_le_iff.1 f8
      exact ⟨((inftyNorm_le_iff _ _).1 this.1).2, ((inftyNorm_le_iff _ _).1 this.2).2⟩
    · right
      have := max_le_iff.1 f8
      exact ⟨((inftyNorm_le_iff _ _).1 this.2).2, ((inftyNorm_le_iff _ _).1 this.1).2⟩

/-- **C115, unconstrained problems**: started where the gradient is at most `h δ`, `solve` makes at most `N` steps in all its inner loops
together, for every `N` with `h δ_N ≤ target_tol`, and returns a point within `2δ` of the start whose gradient is at most `target_tol` and,
after `s` steps, at most `h δ_s`.  The flag is SUCCESS unless an entry of the gradient equals `target_tol` exactly.  The number of outer
iterations needed is the first `J` for which the inner tolerance is below `target_tol`. -/
theorem C115_solve [Archimedean K] (p : InertiaParams K) (hp : GoodParams p) (hp0 : p.deltaInit = 0) (hpm : 0 ≤ p.deltaMax)
    (lso : LSOptions K) (hls : GoodLS lso) :
    ∃ F, ∀ (C : StepCfg (Fin n → K) K n 0) (P : SmoothProgram K n 0), C.inertia = p → C.ls = lso → F ≤ C.fuel → IsSmooth C P →
      LibraryBackend C.backend → ∀ (S : Settings K), S.pdalBeta = 1 / 2 → S.rhoInit = 0 → 0 < S.muInit → 0 < S.targetTol →
      ∀ (x0 : Fin n → K) (h L δ : K), RegularOn P x0 (2 * δ) h L → 0 ≤ δ → ∑ j, P.grad x0 j ^ 2 ≤ (h * δ) ^ 2 → L * δ ≤ h →
      L * δ ≤ 6 * h * (1 / 2 - lso.armijoC1) →
      ∀ N J : ℕ, h * newtonLength h L δ N ≤ S.targetTol → innerTolAfter S J < S.targetTol → N < S.maxIters → J < S.maxAlIters →
      ∀ (st : St (Fin n → K) K (Hidden K n 0) 0) (l : ℕ) (lams0 : Fin l → K), st.hasSetup = true →
      ∃ st', solve (concreteCtx C) S st x0 l lams0 = .ok st' ∧ st'.numIters ≤ N ∧ (∀ j, |P.grad st'.xOpt j| ≤ S.targetTol) ∧
        InBall x0 (2 * δ) st'.xOpt ∧ ∑ j, P.grad st'.xOpt j ^ 2 ≤ (h * newtonLength h L δ st'.numIters) ^ 2 ∧
        (st'.converged = .success ∨ ∃ j, |P.grad st'.xOpt j| = S.targetTol) := by
  obtain ⟨F, hF⟩ := C72_step_returns (n := n) (m := 0) p hp (by rw [hp0]; exact hpm) lso hls
  refine ⟨F, fun C P hCp hCl hf hP hB S hb hrho hmu ht x0 h L δ hR hδ hg hs hA N J hN hJ hNm hJm st l lams0 hset => ?_⟩
  have hlag : ∀ (x : Fin n → K) (lam : Fin 0 → K), P.lagrangian x lam = P.grad x := by
    intro x lam; funext j; simp [SmoothProgram.lagrangian]
  obtain ⟨-, -, -, -, i0, i1, i2, i3, i4, i5, i6, -, -, -, i7, i8⟩ := initSolve_outerLog S st x0 l lams0
  have hbd := fun k => newtonLength_bounds hR.pos hR.lip hδ hs k
  obtain ⟨st', h1, h2, h3, h4, h5⟩ := sm_outer C P hP
    { params := by rw [hCp]; exact hp, deltaInit := by rw [hCp]; exact hp0, deltaMax := by rw [hCp]; exact hpm, backend := hB
      alphaMin := by rw [hCl]; exact hls.amin1 } (hF C hCp hCl hf hB.entries) x0 h L δ hδ hR hs
    (by rw [hCl]; exact hA) S hb hmu ht N J hN hJ hJm hNm (S.maxAlIters - 0) (initSolve S st x0 l lams0) (by rw [i1]) (by rw [i1]; omega)
    (by rw [i5, hrho]) i4 i3 (by rw [i7]; exact le_max_right _ _) (by rw [i8, i1]; rfl) (by
      rw [i0, i3, i6]
      have hfs : FastStart P h L δ C.ls.armijoC1 S.muInit (initSolve S st x0 l lams0).lamsPrev x0 (initSolve S st x0 l lams0).lamsOpt :=
        ⟨hδ, by
          rw [hlag, Fin.sum_univ_zero, zero_div, add_zero, div_le_iff₀ (pow_pos hR.pos 2), ← mul_pow, mul_comm δ h]
          exact hg, hs, by rw [hCl]; exact hA⟩
      exact NewtonInv.start hfs) (by rw [i0]; exact Nat.zero_le _) (by rw [i1]; exact Or.inl (Nat.zero_le _))
  refine ⟨invokeCallbacks st', ?_, h2, ((inftyNorm_le_iff _ _).1 h3).2, ?_, ?_, ?_⟩
  · unfold solve
    rw [if_neg (by simp [hset]), h1]
  · exact within_mono (by have := hbd st'.numIters; linarith) (by have := hbd st'.numIters; linarith) h4.near
  · have := (NewtonInv.free h4 1 st'.lamsPrev st'.lamsOpt).lag hR.pos one_pos
    rwa [hlag] at this
  · rcases h5 with ⟨h5, -⟩ | ⟨-, h5⟩
    · exact Or.inl h5
    · exact Or.inr (inftyNorm_attained ht h5)

/-- **C115, smooth functions**: over the real numbers the Taylor estimates follow from Lipschitz continuity of the Hessian. -/
theorem C115_regular (P : SmoothProgram ℝ n m) (x0 : Fin n → ℝ) (r h L : ℝ) (hP : LipschitzHessian P x0 r h L) :
    RegularOn P x0 r h L where
  pos := hP.pos
  lip := hP.lip
  symm := hP.symm
  bound := fun x hx v => by rw [← euclid_sq]; exact hP.bound x hx v
  taylor1 := fun x d hx hxd => taylor_grad_sq P x0 r L hP.hessian hP.lipschitz x d hx hxd
  taylor2 := fun x d hx hxd => by
    have h1 := taylor_cost P x0 r L hP.gradient hP.hessian hP.lipschitz x d hx hxd
    have h2 := pow_le_pow_left₀ (abs_nonneg _) h1 2
    rw [sq_abs] at h2
    refine le_trans h2 (le_of_eq ?_)
    rw [← euclid_sq]
    ring

/-! ### A concrete case -/

namespace Demo

/-- `min x²/2 + x³/6`, no constraint -/
def cubic : SmoothProgram ℚ 1 0 where
  f x := x 0 ^ 2 / 2 + x 0 ^ 3 / 6
  grad x _ := x 0 + x 0 ^ 2 / 2
  hess x := fun _ _ => 1 + x 0
  A := Fin.elim0
  b := Fin.elim0

def cubicCfg (B : Backend ℚ 1 0) (fuel : ℕ) : StepCfg (Fin 1 → ℚ) ℚ 1 0 :=
  { qpCfg sqQp .primalDual B fuel with
    eval := fun x => some (cubic.f x, cubic.residual x), grad := cubic.grad, jac := fun _ => cubic.A, objHess := cubic.hess }

theorem cubic_smooth (B : Backend ℚ 1 0) (fuel : ℕ) : IsSmooth (cubicCfg B fuel) cubic where
  eval _ := rfl
  grad _ := rfl
  jac _ := rfl
  hess _ := rfl
  vhp := by intro x l p hp; simp only [cubicCfg, qpCfg, List.mem_singleton] at hp; rw [hp]
  integrate _ _ := rfl
  sets := rfl
  approx := Or.inl rfl
  beta := rfl
  prox := by intro t x; simp [cubicCfg, qpCfg]

theorem cubic_regular : RegularOn cubic ![1 / 10] (2 * (21 / 100)) (1 / 2) 1 where
  pos := by norm_num
  lip := by norm_num
  symm _ _ := by ext i j; rfl
  bound x hx v := by
    have h1 : (x 0 - 1 / 10) ^ 2 ≤ (2 * (21 / 100)) ^ 2 := by simpa [InBall] using hx
    have h2 : -(1 / 2) ≤ x 0 := by nlinarith
    simp only [Fin.sum_univ_one, cubic]
    nlinarith [mul_nonneg (by linarith : 0 ≤ x 0 + 1 / 2) (sq_nonneg (v 0))]
  taylor1 x d _ _ := by
    simp only [Fin.sum_univ_one, cubic, Pi.add_apply]
    apply le_of_eq; ring
  taylor2 x d _ _ := by
    simp only [Fin.sum_univ_one, cubic, Pi.add_apply]
    apply le_of_eq; ring

end Demo

/-- started at `1/10` the solver needs at most four steps to bring the gradient of `x²/2 + x³/6` below `1e-6`, with any linear solver -/
example : ∃ F, ∀ fuel, F ≤ fuel → ∀ B : Backend ℚ 1 0, LibraryBackend B → ∀ st : St (Fin 1 → ℚ) ℚ (Hidden ℚ 1 0) 0, st.hasSetup = true →
    ∃ st', solve (concreteCtx (Demo.cubicCfg B fuel)) Demo.qpSettings st ![1 / 10] 0 Fin.elim0 = .ok st' ∧ st'.numIters ≤ 4 ∧
      ∀ j, |Demo.cubic.grad st'.xOpt j| ≤ 1 / 1000000 := by
  obtain ⟨F, hF⟩ := C115_solve (n := 1) Demo.inertiaDefaults Demo.inertiaDefaults_good rfl
    (by norm_num [Demo.inertiaDefaults]) (Demo.lsOpts .bisection (1 / 10000) (1 / 1000000)) Demo.lsOpts_good
  refine ⟨F, fun fuel hf B hB st hst => ?_⟩
  obtain ⟨st', h1, h2, h3, -⟩ := hF (Demo.cubicCfg B fuel) Demo.cubic rfl rfl hf (Demo.cubic_smooth B fuel) hB Demo.qpSettings rfl rfl
    (by norm_num [Demo.qpSettings]) (by norm_num [Demo.qpSettings]) ![1 / 10] (1 / 2) 1 (21 / 100) Demo.cubic_regular (by norm_num)
    (by simp only [Fin.sum_univ_one, Demo.cubic]; norm_num) (by norm_num) (by norm_num [Demo.lsOpts]) 4 2
    (by norm_num [newtonLength, Demo.qpSettings]) (by norm_num [innerTolAfter, Demo.qpSettings]) (by norm_num [Demo.qpSettings])
    (by norm_num [Demo.qpSettings]) st 0 Fin.elim0 hst
  exact ⟨st', h1, h2, h3⟩

namespace Demo

/-- `min x²/2 + x³/6 + y²/2` subject to `x + y = 0` -/
def cubicEq : SmoothProgram ℚ 2 1 where
  f x := x 0 ^ 2 / 2 + x 0 ^ 3 / 6 + x 1 ^ 2 / 2
  grad x := ![x 0 + x 0 ^ 2 / 2, x 1]
  hess x := !![1 + x 0, 0; 0, 1]
  A := fun _ _ => 1
  b := fun _ => 0

def cubicEqCfg (kkt : KktSys) (B : Backend ℚ 2 1) (fuel : ℕ) : StepCfg (Fin 2 → ℚ) ℚ 2 1 :=
  { qpCfg ⟨1, 0, fun _ _ => 1, fun _ => 0⟩ kkt B fuel with
    eval := fun x => some (cubicEq.f x, cubicEq.residual x), grad := cubicEq.grad, jac := fun _ => cubicEq.A, objHess := cubicEq.hess }

theorem cubicEq_smooth (kkt : KktSys) (B : Backend ℚ 2 1) (fuel : ℕ) : IsSmooth (cubicEqCfg kkt B fuel) cubicEq where
  eval _ := rfl
  grad _ := rfl
  jac _ := rfl
  hess _ := rfl
  vhp := by intro x l p hp; simp only [cubicEqCfg, qpCfg, List.mem_singleton] at hp; rw [hp]
  integrate _ _ := rfl
  sets := rfl
  approx := Or.inl rfl
  beta := rfl
  prox := by intro t x; simp [cubicEqCfg, qpCfg]

theorem cubicEq_regular : RegularOn cubicEq ![1 / 10, -99 / 1000] (2 * (29 / 100)) (1 / 2) 1 where
  pos := by norm_num
  lip := by norm_num
  symm _ _ := by ext i j; fin_cases i <;> fin_cases j <;> rfl
  bound x hx v := by
    have h1 : (x 0 - 1 / 10) ^ 2 + (x 1 - -99 / 1000) ^ 2 ≤ (2 * (29 / 100)) ^ 2 := by simpa [InBall, Fin.sum_univ_two] using hx
    have h2 : -(1 / 2) ≤ x 0 := by nlinarith [sq_nonneg (x 1 - -99 / 1000)]
    simp only [Fin.sum_univ_two, cubicEq, Matrix.of_apply, Matrix.cons_val', Matrix.cons_val_zero, Matrix.cons_val_one]
    nlinarith [mul_nonneg (by linarith : 0 ≤ x 0 + 1 / 2) (sq_nonneg (v 0)), sq_nonneg (v 1)]
  taylor1 x d _ _ := by
    simp only [Fin.sum_univ_two, cubicEq, Matrix.of_apply, Matrix.cons_val', Matrix.cons_val_zero, Matrix.cons_val_one, Pi.add_apply]
    nlinarith [sq_nonneg (d 0 ^ 2), sq_nonneg (d 1 ^ 2), mul_nonneg (sq_nonneg (d 0)) (sq_nonneg (d 1))]
  taylor2 x d _ _ := by
    simp only [Fin.sum_univ_two, cubicEq, Matrix.of_apply, Matrix.cons_val', Matrix.cons_val_zero, Matrix.cons_val_one, Pi.add_apply]
    have h0 := sq_nonneg (d 0)
    have h1 := sq_nonneg (d 1)
    have h2 : (d 0 ^ 2) ^ 3 ≤ (d 0 ^ 2 + d 1 ^ 2) ^ 3 := pow_le_pow_left₀ h0 (by linarith) 3
    refine le_trans (le_of_eq ?_) (mul_le_mul_of_nonneg_left h2 (by norm_num))
    ring

/-- the point `(1/10, -99/1000)` with multiplier zero is a fast start for the subproblem with penalty `1/100` -/
theorem cubicEq_start : FastStart cubicEq (1 / 2) 1 (29 / 100) (1 / 10000) (1 / 100) (fun _ => 0) ![1 / 10, -99 / 1000] (fun _ => 0) where
  nonneg := by norm_num
  first := by
    simp only [SmoothProgram.lagrangian, SmoothProgram.shifted, SmoothProgram.residual, cubicEq, Fin.sum_univ_two, Fin.sum_univ_one,
      Matrix.cons_val_zero, Matrix.cons_val_one]
    norm_num
  small := by norm_num
  armijo := by norm_num

end Demo

/-- with the constraint: at most four steps to an inner tolerance of `1e-5`, both KKT systems, any linear solver -/
example : ∃ F, ∀ fuel, F ≤ fuel → ∀ (kkt : KktSys) (B : Backend ℚ 2 1), LibraryBackend B →
    ∀ st : St (Fin 2 → ℚ) ℚ (Hidden ℚ 2 1) 1, st.rho = 0 → st.setMu = st.mu → st.mu = 1 / 100 → st.lamsPrev = (fun _ => 0) →
      st.lamsOpt = (fun _ => 0) → st.xOpt = ![1 / 10, -99 / 1000] → st.innerTol = 1 / 100000 → st.numIters = 0 →
    ∃ st' s, innerLoop (concreteCtx (Demo.cubicEqCfg kkt B fuel)) Demo.qpSettings st = .ok st' ∧ s ≤ 4 ∧ st'.numIters = 0 + s := by
  obtain ⟨F, hF⟩ := C115_inner_loop (n := 2) (m := 1) Demo.inertiaDefaults Demo.inertiaDefaults_good rfl
    (by norm_num [Demo.inertiaDefaults]) (Demo.lsOpts .bisection (1 / 10000) (1 / 1000000)) Demo.lsOpts_good
  refine ⟨F, fun fuel hf kkt B hB st hr hm hmu hp hl hx ht hn => ?_⟩
  obtain ⟨st', s, h1, h2, h3, -⟩ := hF (Demo.cubicEqCfg kkt B fuel) Demo.cubicEq rfl rfl hf (Demo.cubicEq_smooth kkt B fuel) hB
    Demo.qpSettings rfl st hr hm (by rw [hmu]; norm_num) (1 / 2) 1 (29 / 100) (by rw [hx]; exact Demo.cubicEq_regular)
    (by rw [hx, hmu, hp, hl]; exact Demo.cubicEq_start) 4 (by norm_num) (by rw [ht]; norm_num [newtonLength])
    (by rw [hn]; norm_num [Demo.qpSettings])
  exact ⟨st', s, h1, h2, by rw [h3, hn]⟩

/-- the same start for a single step: it makes the second block zero and brings the gradient of the Lagrangian below `0.0421` -/
example (kkt : KktSys) (B : Backend ℚ 2 1) (hB : LibraryBackend B) (fuel : ℕ) (st : St (Fin 2 → ℚ) ℚ (Hidden ℚ 2 1) 1) (hr : st.rho = 0)
    (hm : st.setMu = st.mu) (hmu : st.mu = 1 / 100) (hp : st.lamsPrev = fun _ => 0) (hl : st.lamsOpt = fun _ => 0)
    (hx : st.xOpt = ![1 / 10, -99 / 1000]) (ev : EvalOut ℚ 2 1)
    (hev : evalAt (concreteCtx (Demo.cubicEqCfg kkt B fuel)) Demo.qpSettings st.mu st.setMu st.rho st.target st.xOpt st.lamsOpt
      st.lamsPrev = some ev)
    (o : StepOut (Fin 2 → ℚ) ℚ (Hidden ℚ 2 1) 1)
    (ho : stepFull (Demo.cubicEqCfg kkt B fuel) (stepIn (afterEval (concreteCtx (Demo.cubicEqCfg kkt B fuel)) st ev) ev) = .ok o) :
    ∑ j, Demo.cubicEq.lagrangian o.x o.lam j ^ 2 ≤ (421 / 10000) ^ 2 ∧ o.x 0 + o.x 1 - 1 / 100 * o.lam 0 = 0 := by
  have hR := Demo.cubicEq_regular
  have hmono : ∀ x : Fin 2 → ℚ, InBall ![1 / 10, -99 / 1000] (29 / 100) x → InBall ![1 / 10, -99 / 1000] (2 * (29 / 100)) x :=
    fun x hx => within_mono (by norm_num) (by norm_num) hx
  obtain ⟨-, h1, h2⟩ := C115_step (Demo.cubicEqCfg kkt B fuel) Demo.cubicEq (Demo.cubicEq_smooth kkt B fuel)
    ⟨Demo.inertiaDefaults_good, rfl, by norm_num [Demo.cubicEqCfg, Demo.qpCfg, Demo.inertiaDefaults], hB, Demo.lsOpts_good.amin1⟩
    Demo.qpSettings rfl st hr hm (by rw [hmu]; norm_num) (1 / 2) 1 (29 / 100)
    (by
      rw [hx]
      exact ⟨hR.pos, hR.lip, fun x hx => hR.symm x (hmono x hx), fun x hx => hR.bound x (hmono x hx),
        fun x d h1 h2 => hR.taylor1 x d (hmono _ h1) (hmono _ h2), fun x d h1 h2 => hR.taylor2 x d (hmono _ h1) (hmono _ h2)⟩)
    (by rw [hx, hmu, hp, hl]; exact Demo.cubicEq_start) ev hev o ho
  refine ⟨le_trans h1 (by norm_num), ?_⟩
  have := h2 0
  rw [hmu, hp] at this
  simp only [SmoothProgram.shifted, SmoothProgram.residual, Demo.cubicEq, Fin.sum_univ_two] at this
  linarith

/-- the real function `x²/2 + x³/6` around `1/10` meets the hypotheses of `C115_regular` -/
example : LipschitzHessian (n := 1) (m := 0) ⟨fun x => x 0 ^ 2 / 2 + x 0 ^ 3 / 6, fun x _ => x 0 + x 0 ^ 2 / 2, fun x => fun _ _ => 1 + x 0,
    Fin.elim0, Fin.elim0⟩ ![1 / 10] (2 * (21 / 100)) (1 / 2) 1 where
  pos := by norm_num
  lip := by norm_num
  gradient y _ d := by
    simp only [Fin.sum_univ_one, Pi.add_apply, Pi.smul_apply, smul_eq_mul]
    have h : HasDerivAt (fun t : ℝ => y 0 + t * d 0) (d 0) 0 := by
      simpa using ((hasDerivAt_id (0 : ℝ)).mul_const (d 0)).const_add (y 0)
    have := ((h.pow 2).div_const 2).add ((h.pow 3).div_const 6)
    refine this.congr_deriv ?_
    simp
    ring
  hessian y _ d j := by
    simp only [Fin.sum_univ_one, Pi.add_apply, Pi.smul_apply, smul_eq_mul]
    have h : HasDerivAt (fun t : ℝ => y 0 + t * d 0) (d 0) 0 := by
      simpa using ((hasDerivAt_id (0 : ℝ)).mul_const (d 0)).const_add (y 0)
    have := h.add ((h.pow 2).div_const 2)
    refine this.congr_deriv ?_
    simp
    ring
  symm _ _ := by ext i j; rfl
  bound x hx v := by
    have h1 : (x 0 - 1 / 10) ^ 2 ≤ (2 * (21 / 100)) ^ 2 := by simpa [InBall] using hx
    have h2 : -(1 / 2) ≤ x 0 := by nlinarith
    rw [euclid_sq]
    simp only [Fin.sum_univ_one]
    nlinarith [mul_nonneg (by linarith : 0 ≤ x 0 + 1 / 2) (sq_nonneg (v 0))]
  lipschitz y z _ _ u v := by
    have e : ∀ w : Fin 1 → ℝ, euclid w = |w 0| := by
      intro w; unfold euclid; rw [Fin.sum_univ_one, Real.sqrt_sq_eq_abs]
    rw [e, e, e]
    simp only [Fin.sum_univ_one, Pi.sub_apply]
    rw [abs_mul, abs_mul]
    apply le_of_eq
    have : (1 + z 0 - (1 + y 0)) = z 0 - y 0 := by ring
    rw [this]; ring

end ProxNLP
