import Verif.Lemmas.Qp
import Verif.Lemmas.SolverOuter

/-! Helper lemmas for C80: contraction of the multipliers and progress of the outer loop on a quadratic program. -/

set_option linter.unusedSectionVars false
namespace ProxNLP

open Spec

variable {K : Type} {n m : ℕ} [Field K] [LinearOrder K] [IsStrictOrderedRing K]

/-- squared distance -/
def errSq (a b : Fin m → K) : K := ∑ i, (a i - b i) ^ 2

theorem errSq_nonneg (a b : Fin m → K) : 0 ≤ errSq a b := Finset.sum_nonneg fun _ _ => sq_nonneg _

theorem sq_sub_le_errSq (a b c : Fin m → K) (i : Fin m) : (a i - b i) ^ 2 ≤ 2 * (errSq a c + errSq b c) := by
  have h1 : (a i - c i) ^ 2 ≤ errSq a c :=
    Finset.single_le_sum (f := fun i => (a i - c i) ^ 2) (fun _ _ => sq_nonneg _) (Finset.mem_univ i)
  have h2 : (b i - c i) ^ 2 ≤ errSq b c :=
    Finset.single_le_sum (f := fun i => (b i - c i) ^ 2) (fun _ _ => sq_nonneg _) (Finset.mem_univ i)
  nlinarith [sq_nonneg (a i - c i + (b i - c i))]

/-- the multipliers of a subproblem are closer to the optimal ones, by a factor bounded away from one -/
theorem qp_contract (q : Qp K n m) (h : K) (hc : q.StronglyConvex h) (B : Fin n → Fin m → K) (hB : q.Independent B)
    (xs : Fin n → K) (ls : Fin m → K) (hopt : q.Optimal xs ls) (I : K) (hI : 0 < I) :
    ∃ th : K, 0 ≤ th ∧ th < 1 ∧ ∀ mu, 0 < mu → mu ≤ I → ∀ prev x lam, q.SubOptimal mu prev x lam →
      errSq lam ls ≤ th * errSq prev ls := by
  set D : Fin n → Fin m → K := fun k i => ∑ j, q.H j k * B j i with hD
  set be : K := ∑ i, ∑ k, D k i ^ 2 with hbe
  have hbe0 : 0 ≤ be := Finset.sum_nonneg fun _ _ => Finset.sum_nonneg fun _ _ => sq_nonneg _
  set sg : K := h / (be + 1) with hsg
  have hsg0 : 0 < sg := div_pos hc.pos (by linarith)
  have hsgb : sg * be ≤ h := by
    rw [hsg, div_mul_eq_mul_div, div_le_iff₀ (by linarith)]
    nlinarith [hc.pos]
  refine ⟨I / (I + 2 * sg), by positivity, by rw [div_lt_one (by positivity)]; linarith, ?_⟩
  intro mu hmu hmI prev x lam hs
  set ex : Fin n → K := fun j => x j - xs j with hex
  set e : Fin m → K := fun i => prev i - ls i with he
  set ep : Fin m → K := fun i => lam i - ls i with hep
  have g1 : ∀ j, ∑ k, q.H j k * ex k + ∑ i, q.A i j * ep i = 0 := by
    intro j
    have a := hs.1 j
    have b := hopt.1 j
    simp only [Qp.lagrangian, Qp.gradient] at a b
    simp only [hex, hep, mul_sub, Finset.sum_sub_distrib]
    linear_combination a - b
  have g2 : ∀ i, ∑ j, q.A i j * ex j = mu * (ep i - e i) := by
    intro i
    have a := hs.2 i
    have b := hopt.2 i
    simp only [Qp.residual] at a b
    simp only [hex, hep, he, mul_sub, Finset.sum_sub_distrib]
    linear_combination a - b
  -- energy identity
  have g3 : ∑ j, ex j * ∑ k, q.H j k * ex k = -∑ i, ep i * (mu * (ep i - e i)) := by
    have s1 : ∑ j, ex j * ∑ k, q.H j k * ex k = ∑ j, ex j * -∑ i, q.A i j * ep i :=
      Finset.sum_congr rfl fun j _ => by rw [eq_neg_of_add_eq_zero_left (g1 j)]
    rw [s1]
    simp only [← g2, mul_neg, Finset.sum_neg_distrib, Finset.mul_sum]
    rw [Finset.sum_comm]
    congr 1
    exact Finset.sum_congr rfl fun i _ => Finset.sum_congr rfl fun j _ => by ring
  -- the multiplier error is controlled by the primal error
  have g4 : ∀ i, ep i = -∑ k, D k i * ex k := by
    intro i
    have s1 : ∑ j, B j i * (∑ k, q.H j k * ex k + ∑ i', q.A i' j * ep i') = 0 :=
      Finset.sum_eq_zero fun j _ => by rw [g1 j, mul_zero]
    have s2 : ∑ j, B j i * ∑ i', q.A i' j * ep i' = ep i := by
      simp only [Finset.mul_sum]
      rw [Finset.sum_comm]
      have : ∀ i', ∑ j, B j i * (q.A i' j * ep i') = (if i' = i then 1 else 0) * ep i' := by
        intro i'
        rw [← hB i' i, Finset.sum_mul]
        exact Finset.sum_congr rfl fun j _ => by ring
      simp only [this, ite_mul, one_mul, zero_mul, Finset.sum_ite_eq', Finset.mem_univ, if_true]
    have s3 : ∑ j, B j i * ∑ k, q.H j k * ex k = ∑ k, D k i * ex k := by
      simp only [hD, Finset.mul_sum, Finset.sum_mul]
      rw [Finset.sum_comm]
      exact Finset.sum_congr rfl fun i _ => Finset.sum_congr rfl fun j _ => by ring
    simp only [mul_add, Finset.sum_add_distrib] at s1
    rw [s2, s3] at s1
    linear_combination s1
  have g5 : ∑ i, ep i ^ 2 ≤ be * ∑ k, ex k ^ 2 := by
    rw [hbe, Finset.sum_mul]
    refine Finset.sum_le_sum fun i _ => ?_
    rw [g4 i, neg_sq]
    exact Finset.sum_mul_sq_le_sq_mul_sq _ _ _
  have g6 : sg * ∑ i, ep i ^ 2 ≤ ∑ j, ex j * ∑ k, q.H j k * ex k := by
    have hx0 : 0 ≤ ∑ k, ex k ^ 2 := Finset.sum_nonneg fun _ _ => sq_nonneg _
    calc sg * ∑ i, ep i ^ 2 ≤ sg * (be * ∑ k, ex k ^ 2) := mul_le_mul_of_nonneg_left g5 hsg0.le
      _ = sg * be * ∑ k, ex k ^ 2 := by ring
      _ ≤ h * ∑ k, ex k ^ 2 := mul_le_mul_of_nonneg_right hsgb hx0
      _ ≤ _ := hc.bound ex
  have g7 : -∑ i, ep i * (mu * (ep i - e i)) ≤ mu / 2 * ∑ i, e i ^ 2 - mu / 2 * ∑ i, ep i ^ 2 := by
    rw [Finset.mul_sum, Finset.mul_sum, ← Finset.sum_sub_distrib, ← Finset.sum_neg_distrib]
    refine Finset.sum_le_sum fun i _ => ?_
    nlinarith [mul_nonneg hmu.le (sq_nonneg (e i - ep i))]
  have g8 : (mu + 2 * sg) * errSq lam ls ≤ mu * errSq prev ls := by
    show (mu + 2 * sg) * ∑ i, ep i ^ 2 ≤ mu * ∑ i, e i ^ 2
    rw [g3] at g6
    linarith
  have hd0 := errSq_nonneg prev ls
  have g9 : errSq lam ls ≤ mu / (mu + 2 * sg) * errSq prev ls := by
    rw [div_mul_eq_mul_div, le_div_iff₀ (by positivity)]
    linarith
  refine le_trans g9 (mul_le_mul_of_nonneg_right ?_ hd0)
  rw [div_le_div_iff₀ (by positivity) (by positivity)]
  nlinarith

/-- residual of a subproblem solution -/
theorem qp_residual_bound (q : Qp K n m) (ls : Fin m → K) (mu : K) (prev : Fin m → K) (x : Fin n → K) (lam : Fin m → K)
    (hs : q.SubOptimal mu prev x lam) (hle : errSq lam ls ≤ errSq prev ls) (i : Fin m) :
    q.residual x i ^ 2 ≤ mu ^ 2 * (4 * errSq prev ls) ∧ (prev i - lam i) ^ 2 ≤ 4 * errSq prev ls := by
  have h1 : (prev i - lam i) ^ 2 ≤ 4 * errSq prev ls := by
    have := sq_sub_le_errSq prev lam ls i
    linarith
  refine ⟨?_, h1⟩
  have e : q.residual x i = -(mu * (prev i - lam i)) := by have := hs.2 i; linarith
  rw [e, neg_sq, mul_pow]
  exact mul_le_mul_of_nonneg_left h1 (sq_nonneg _)

/-- what the solver computes at a point of the program -/
theorem qp_eval (C : StepCfg (Fin n → K) K n m) (q : Qp K n m) (hq : IsQp C q) (S : Settings K) (hb : S.pdalBeta = 1 / 2)
    (mu : K) (hmu : 0 < mu) (t x : Fin n → K) (lam prev : Fin m → K) :
    ∃ ev, evalAt (concreteCtx C) S mu mu 0 t x lam prev = some ev ∧ ev.c = q.residual x ∧ ev.grad = q.gradient x ∧
      ev.jac = q.A ∧ ev.merit = qpMerit q mu prev x lam ∧ ev.prim = inftyNorm (q.residual x) ∧
      ev.dual = inftyNorm (q.lagrangian x lam) ∧
      ev.innerCrit = max (inftyNorm (q.lagrangian x lam)) (inftyNorm fun i => q.residual x i + mu * (prev i - lam i)) := by
  have hmu' := hmu.ne'
  refine ⟨_, by unfold evalAt; rw [show (concreteCtx C).eval x = _ from hq.eval x]; rfl, rfl, hq.grad x, hq.jac x, ?_, ?_, ?_, ?_⟩
  · show (if (0 : K) < 0 then _ else _) = _
    rw [if_neg (lt_irrefl _)]
    unfold qpMerit
    show q.cost x + _ = _
    have hs : (concreteCtx C).sets = _ := hq.sets
    rw [hs]
    have e3 : ∀ z : Fin m → K, (StackedSet.ofLeaves fun _ : Fin m => (LeafSet.equality (K := K), 0)).evaluate mu z = 0 := by
      intro z; simp [StackedSet.ofLeaves]
    rw [e3]
    rfl
  · show primResidual (concreteCtx C).sets mu mu (q.residual x) lam = _
    have hs : (concreteCtx C).sets = _ := hq.sets
    rw [hs]
    unfold primResidual
    simp only [StackedSet.ofLeaves, LeafSet.projAt, sub_zero]
  · show dualResidual (C.grad x) (C.jac x) lam = _
    rw [hq.grad, hq.jac]
    rfl
  · unfold EvalOut.innerCrit
    congr 1
    · show inftyNorm (if (0 : K) < 0 then _ else _) = _
      rw [if_neg (lt_irrefl _)]
      show inftyNorm (fun j => C.grad x j + ∑ i, C.jac x i j * lam i) = _
      rw [hq.grad, hq.jac]
      rfl
    · congr 1
      funext i
      have hs : (concreteCtx C).sets = _ := hq.sets
      cases S.kkt
      · show mu * (1 / mu * (concreteCtx C).sets.normal mu _ i - lam i) = _
        rw [hs]
        show mu * (1 / mu * (q.residual x i + mu * prev i) - lam i) = _
        field_simp
        ring
      · show 1 / 2 * mu * ((concreteCtx C).sets.normal mu _ i * (1 / mu / S.pdalBeta) - lam i) = _
        rw [hs, hb]
        show 1 / 2 * mu * ((q.residual x i + mu * prev i - 1 / 2 * mu * lam i) * (1 / mu / (1 / 2)) - lam i) = _
        field_simp
        ring

/-- the inner criterion on the program -/
def qpCrit (q : Qp K n m) (mu : K) (prev : Fin m → K) (x : Fin n → K) (lam : Fin m → K) : K :=
  max (inftyNorm (q.lagrangian x lam)) (inftyNorm fun i => q.residual x i + mu * (prev i - lam i))

/-- the outer criterion on the program -/
def qpOuter (q : Qp K n m) (x : Fin n → K) (lam : Fin m → K) : K :=
  max (inftyNorm (q.residual x)) (inftyNorm (q.lagrangian x lam))

/-- conditions under which a step solves the subproblem -/
structure QpCfg (C : StepCfg (Fin n → K) K n m) (q : Qp K n m) (h : K) : Prop where
  isQp : IsQp C q
  convex : q.StronglyConvex h
  params : GoodParams C.inertia
  deltaInit : C.inertia.deltaInit = 0
  deltaMax : 0 ≤ C.inertia.deltaMax
  exactOn : ExactOn C.backend q
  alphaMin : C.ls.alphaMin ≤ 1
  armijo : C.ls.armijoC1 ≤ 1 / 2

theorem innerLoop_stop {X H : Type} (P : Ctx X K H n m) (S : Settings K) (st : St X K H m) (ev : EvalOut K n m)
    (hev : evalAt P S st.mu st.setMu st.rho st.target st.xOpt st.lamsOpt st.lamsPrev = some ev)
    (hs : ev.innerCrit ≤ st.innerTol ∨ ev.outerCrit ≤ S.targetTol) : innerLoop P S st = .ok (afterEval P st ev) := by
  rw [innerLoop, hev]
  simp only
  rw [if_pos hs]

/-- the inner loop makes no step, or one that solves the subproblem -/
theorem qp_inner (C : StepCfg (Fin n → K) K n m) (q : Qp K n m) (h : K) (hC : QpCfg C q h) (S : Settings K) (hb : S.pdalBeta = 1 / 2)
    (st st' : St (Fin n → K) K (Hidden K n m) m) (hr : st.rho = 0) (hm : st.setMu = st.mu) (hmu : 0 < st.mu)
    (ht : 0 ≤ st.innerTol) (hn : st.numIters + 1 < S.maxIters) (hin : innerLoop (concreteCtx C) S st = .ok st') :
    st'.converged = st.converged ∧ st'.prim = inftyNorm (q.residual st'.xOpt) ∧
      st'.dual = inftyNorm (q.lagrangian st'.xOpt st'.lamsOpt) ∧ st'.numIters ≤ st.numIters + 1 ∧
      ((st'.xOpt = st.xOpt ∧ st'.lamsOpt = st.lamsOpt ∧
        (qpCrit q st.mu st.lamsPrev st.xOpt st.lamsOpt ≤ st.innerTol ∨ qpOuter q st.xOpt st.lamsOpt ≤ S.targetTol)) ∨
      (q.SubOptimal st.mu st.lamsPrev st'.xOpt st'.lamsOpt ∧ S.targetTol < qpOuter q st.xOpt st.lamsOpt)) := by
  obtain ⟨ev, hev, e1, e2, e3, e4, e5, e6, e7⟩ := qp_eval C q hC.isQp S hb st.mu hmu st.target st.xOpt st.lamsOpt st.lamsPrev
  rw [innerLoop, hm, hr, hev] at hin
  simp only at hin
  have eo : ev.outerCrit = qpOuter q st.xOpt st.lamsOpt := by unfold EvalOut.outerCrit; rw [e5, e6]; rfl
  rw [eo, e7] at hin
  by_cases hc : max (inftyNorm (q.lagrangian st.xOpt st.lamsOpt))
      (inftyNorm fun i => q.residual st.xOpt i + st.mu * (st.lamsPrev i - st.lamsOpt i)) ≤ st.innerTol ∨
      qpOuter q st.xOpt st.lamsOpt ≤ S.targetTol
  · rw [if_pos hc] at hin
    cases hin
    exact ⟨rfl, e5, e6, Nat.le_succ _, Or.inl ⟨rfl, rfl, hc⟩⟩
  · rw [if_neg hc] at hin
    split at hin
    · cases hin
    · rename_i o ho
      rw [if_neg (by omega)] at hin
      have hsub : q.SubOptimal st.mu st.lamsPrev o.x o.lam := by
        have hh : (afterEval (concreteCtx C) st ev).hidden.hess = q.H ∧
            ∀ p ∈ (afterEval (concreteCtx C) st ev).hidden.vhps, p.2 = 0 := by
          show (hessUpdate C st.hidden st.xOpt ev.grad ev.lamsPdal).hess = _ ∧
            ∀ p ∈ (hessUpdate C st.hidden st.xOpt ev.grad ev.lamsPdal).vhps, _
          unfold hessUpdate
          rcases hC.isQp.approx with ha | ha <;> rw [ha] <;> exact ⟨hC.isQp.hess _, hC.isQp.vhp _ _⟩
        exact qp_step C q hC.isQp h hC.convex hC.params hC.deltaInit hC.deltaMax hC.exactOn hC.alphaMin hC.armijo
          (stepIn (afterEval (concreteCtx C) st ev) ev)
          { rho := hr, mu := hmu, setMu := hm, c := e1, grad := e2, jac := e3, merit := e4, hess := hh.1, vhps := hh.2 } o ho
      obtain ⟨ev', hev', -, -, -, -, e5', e6', e7'⟩ := qp_eval C q hC.isQp S hb st.mu hmu st.target o.x o.lam st.lamsPrev
      have hev2 : evalAt (concreteCtx C) S st.mu st.setMu st.rho st.target o.x o.lam st.lamsPrev = some ev' := by
        rw [hm, hr]; exact hev'
      have hstop : ev'.innerCrit ≤ st.innerTol ∨ ev'.outerCrit ≤ S.targetTol := by
        left
        rw [e7']
        refine max_le ?_ ?_
        · rw [(inftyNorm_eq_zero_iff _).2 hsub.1]; exact ht
        · rw [(inftyNorm_eq_zero_iff _).2 hsub.2]; exact ht
      rw [innerLoop_stop (concreteCtx C) S _ ev' (by exact hev2) (by exact hstop)] at hin
      cases hin
      exact ⟨rfl, e5', e6', le_rfl, Or.inr ⟨hsub, not_le.1 fun hx => hc (Or.inr hx)⟩⟩

/-- one outer iteration on the program, in the states the solver goes through -/
structure QpOuterStep (q : Qp K n m) (S : Settings K) (st st2 : St (Fin n → K) K (Hidden K n m) m) : Prop where
  rho : st2.rho = st.rho
  prim : st2.prim = inftyNorm (q.residual st2.xOpt)
  dual : st2.dual = inftyNorm (q.lagrangian st2.xOpt st2.lamsOpt)
  numIters : st2.numIters ≤ st.numIters + 1
  converged : st2.converged = st.converged
  move : (st2.xOpt = st.xOpt ∧ st2.lamsOpt = st.lamsOpt ∧
      (qpCrit q st.mu st.lamsPrev st.xOpt st.lamsOpt ≤ st.innerTol ∨ qpOuter q st.xOpt st.lamsOpt ≤ S.targetTol)) ∨
    (q.SubOptimal st.mu st.lamsPrev st2.xOpt st2.lamsOpt ∧ S.targetTol < qpOuter q st.xOpt st.lamsOpt)
  result : (st2.prim < st.primTol ∧ st2.lamsPrev = st2.lamsOpt ∧ st2.mu = st.mu ∧ st2.setMu = st.mu ∧
      st2.innerTol = max (st.innerTol * S.pow (st.mu / S.muUpper) S.dualBeta) S.innerTolMin ∧
      st2.primTol = max (st.primTol * S.pow (st.mu / S.muUpper) S.primBeta) S.targetTol) ∨
    (st.primTol ≤ st2.prim ∧ st2.lamsPrev = st.lamsPrev ∧
      st2.mu = (if st.mu = S.muLower then S.muInit else max (st.mu * S.muUpdateFactor) S.muLower) ∧ st2.setMu = st2.mu ∧
      st2.innerTol = max (S.innerTol0 * S.pow st2.mu S.dualAlpha) S.innerTolMin ∧
      st2.primTol = max (S.primTol0 * S.pow st2.mu S.primAlpha) S.targetTol)

theorem qp_outer_step (C : StepCfg (Fin n → K) K n m) (q : Qp K n m) (h : K) (hC : QpCfg C q h) (S : Settings K)
    (hb : S.pdalBeta = 1 / 2) (hmode : S.mode = .newton)
    (st st1 : St (Fin n → K) K (Hidden K n m) m) (hr : st.rho = 0) (hm : st.setMu = st.mu) (hmu : 0 < st.mu)
    (ht : 0 ≤ st.innerTol) (hn : st.numIters + 1 < S.maxIters)
    (hin : innerLoop (concreteCtx C) S (startOuter (concreteCtx C) st) = .ok st1) :
    QpOuterStep q S st (afterInner S st1) := by
  obtain ⟨i1, i2, i3, i4, i5⟩ := qp_inner C q h hC S hb _ st1 (by exact hr) (by exact hm) (by exact hmu) (by exact ht)
    (by exact hn) hin
  have fr := innerLoop_frame _ _ _ _ hin
  have f1 : st1.mu = st.mu := fr.mu
  have f2 : st1.lamsPrev = st.lamsPrev := fr.lamsPrev
  have f3 : st1.primTol = st.primTol := fr.primTol
  have f4 : st1.innerTol = st.innerTol := fr.innerTol
  have f5 : st1.setMu = st.mu := fr.setMu.trans hm
  have f6 : st1.rho = st.rho := fr.rho
  have hl : (afterInner S st1).lamsOpt = st1.lamsOpt := by
    unfold afterInner
    simp only
    split_ifs
    · simp [updateToleranceSuccess, tolerancePostUpdate, acceptMultipliers, hmode]
    · simp only [updateToleranceFailure, tolerancePostUpdate, updatePenalty, setPenalty]
      split_ifs <;> rfl
  refine { rho := ?_, prim := ?_, dual := ?_, numIters := ?_, converged := ?_, move := ?_, result := ?_ }
  · rw [afterInner_rho, f6]
  · rw [afterInner_prim, afterInner_xOpt, i2]
  · rw [afterInner_dual, afterInner_xOpt, hl, i3]
  · rw [afterInner_numIters]; exact i4
  · rw [afterInner_converged]; exact i1
  · rw [afterInner_xOpt, hl]; exact i5
  · rw [afterInner_prim]
    by_cases hlt : st1.prim < st1.primTol
    · left
      rw [f3] at hlt
      refine ⟨hlt, ?_⟩
      rw [hl]
      unfold afterInner
      simp only
      rw [if_pos (by rw [f3]; exact hlt)]
      simp only [updateToleranceSuccess, tolerancePostUpdate, acceptMultipliers, hmode, f1, f3, f4, f5, true_and]
    · right
      refine ⟨by rw [← f3]; exact not_lt.1 hlt, ?_⟩
      unfold afterInner
      simp only
      rw [if_neg hlt]
      simp only [updateToleranceFailure, tolerancePostUpdate, updatePenalty, setPenalty, f1]
      split_ifs <;> simp [f2]

end ProxNLP
