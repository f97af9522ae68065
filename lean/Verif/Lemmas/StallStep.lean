import Verif.Lemmas.StallMerit
import Verif.Lemmas.StallLs
import Verif.Lemmas.DescentLoop

/-! Helper lemmas for C93: evaluation, step and inner loop on a quadratic program with inequality constraints, classic KKT system. -/

set_option linter.unusedSectionVars false
namespace ProxNLP

open Spec

variable {K : Type} {n m : ℕ} [Field K] [LinearOrder K] [IsStrictOrderedRing K]

theorem iq_eval (C : StepCfg (Fin n → K) K n m) (q : Qp K n m) (hq : IsIneqQp C q) (S : Settings K)
    (hk : S.kkt = .classic) (mu : K) (t x : Fin n → K) (lam prev : Fin m → K) :
    ∃ ev, evalAt (concreteCtx C) S mu mu 0 t x lam prev = some ev ∧ ev.c = q.residual x ∧ ev.grad = q.gradient x ∧
      ev.jac = q.A ∧ ev.merit = q.merit mu prev x lam ∧ (∀ j, |q.lagrangian x lam j| ≤ ev.innerCrit) ∧
      (∀ i, |mu * (1 / mu * max (q.shifted mu prev x i) 0 - lam i)| ≤ ev.innerCrit) ∧
      (∀ i, |q.residual x i - min (q.residual x i + mu * lam i) 0| ≤ ev.prim) := by
  have hs : (concreteCtx C).sets = _ := hq.sets
  refine ⟨_, by unfold evalAt; rw [show (concreteCtx C).eval x = _ from hq.eval x]; rfl, rfl, hq.grad x, hq.jac x, ?_, ?_, ?_, ?_⟩
  · show (if (0 : K) < 0 then _ else _) = _
    rw [if_neg (lt_irrefl _)]
    show q.cost x + _ = _
    rw [hs]
    have := meritEvaluate_leaves (fun _ : Fin m => (LeafSet.negOrthant (K := K), 0)) mu (q.cost x)
      (fun i => q.residual x i + mu * prev i - 1 / 2 * mu * lam i) lam
    refine Eq.trans this ?_
    unfold Qp.merit
    congr 1
    refine Finset.sum_congr rfl fun i _ => ?_
    simp only [envK, penK, LeafSet.normalAt, Qp.shifted]
    ring
  · intro j
    refine le_trans ?_ (le_max_left _ _)
    refine le_trans (le_of_eq ?_) (abs_le_inftyNorm _ j)
    congr 1
    show _ = (if (0 : K) < 0 then _ else fun j => C.grad x j + ∑ i, C.jac x i j * lam i) j
    rw [if_neg (lt_irrefl _), hq.grad, hq.jac]
    rfl
  · intro i
    refine le_trans ?_ (le_max_right _ _)
    refine le_trans (le_of_eq ?_) (abs_le_inftyNorm _ i)
    congr 1
    rw [hk]
    show _ = mu * (1 / mu * (concreteCtx C).sets.normal mu _ i - lam i)
    rw [hs]
    rfl
  · intro i
    refine le_trans (le_of_eq ?_) (abs_le_inftyNorm _ i)
    congr 1
    show _ = q.residual x i - (concreteCtx C).sets.projection mu _ i
    rw [hs]
    rfl

/-- what the solver knows at a point of the program -/
structure IqInput (C : StepCfg (Fin n → K) K n m) (q : Qp K n m) (i : StepIn (Fin n → K) K (Hidden K n m) n m) : Prop where
  rho : i.rho = 0
  mu : 0 < i.mu
  setMu : i.setMu = i.mu
  c : i.ev.c = q.residual i.x
  grad : i.ev.grad = q.gradient i.x
  jac : i.ev.jac = q.A
  merit : i.ev.merit = q.merit i.mu i.lamPrev i.x i.lam
  hess : i.hidden.hess = q.H
  vhps : ∀ p ∈ i.hidden.vhps, p.2 = 0

theorem iq_hess (C : StepCfg (Fin n → K) K n m) (q : Qp K n m) (hq : IsIneqQp C q) (st : St (Fin n → K) K (Hidden K n m) m)
    (ev : EvalOut K n m) : (afterEval (concreteCtx C) st ev).hidden.hess = q.H ∧
      ∀ p ∈ (afterEval (concreteCtx C) st ev).hidden.vhps, p.2 = 0 := by
  show (hessUpdate C st.hidden st.xOpt ev.grad ev.lamsPdal).hess = q.H ∧
    ∀ p ∈ (hessUpdate C st.hidden st.xOpt ev.grad ev.lamsPdal).vhps, _
  unfold hessUpdate
  rcases hq.approx with ha | ha <;> rw [ha] <;> exact ⟨hq.hess _, hq.vhp _ _⟩

/-- one step: the direction solves the Newton system, the step length is that of the search on the merit function -/
theorem iq_step (C : StepCfg (Fin n → K) K n m) (q : Qp K n m) (hq : IsIneqQp C q) (h : K) (hc : q.StronglyConvex h)
    (hp : GoodParams C.inertia) (h0 : C.inertia.deltaInit = 0) (hmax : 0 ≤ C.inertia.deltaMax) (hB : LibraryBackend C.backend)
    (i : StepIn (Fin n → K) K (Hidden K n m) n m) (hi : IqInput C q i)
    (o : StepOut (Fin n → K) K (Hidden K n m) m) (ho : stepFull C i = .ok o) :
    ∃ d dl r, q.ClassicNewton i.mu i.lamPrev i.x i.lam d dl ∧ o.x = i.x + LSResult.alpha r • d ∧ o.lam = i.lam + LSResult.alpha r • dl ∧
      lsRun C.sqrt C.sing (fun a => some (q.merit i.mu i.lamPrev (i.x + a • d) (i.lam + a • dl))) C.ls
        (q.merit i.mu i.lamPrev i.x i.lam) (q.slope i.mu i.lamPrev i.x i.lam d dl) C.fuel = some r := by
  obtain ⟨d, st, r, hd, hr, hx, hl, -, hhid⟩ := stepFull_ok C i o ho
  set M := computeMultipliers C.sets i.mu i.setMu C.beta i.ev.c i.lam i.lamPrev with hM
  have hmu := hi.mu
  have hmu' := hmu.ne'
  set keep := keptRows C.kkt C.sets i.setMu M with hkeep
  have hmat : stepMatrix C i M = kktMatrix q.H (maskRows keep q.A) (kktDual C.kkt i.mu keep) := by
    unfold stepMatrix
    simp only [← hkeep, hi.jac, hi.rho, hi.hess, kktHessian_zero _ _ _ _ hi.vhps]
  obtain ⟨hsol, -, -⟩ := stepDirection_exact C hp h0 hmax i M (by
    rw [hmat]; exact C79_exact hB _ hc.symm hc.posDef _ _ (kktDual_neg C.kkt i.mu hi.mu _)) d st hd
  set dx : Fin n → K := fun j => d (.inl j) with hdx
  set dl : Fin m → K := fun k => d (.inr k) with hdl
  have he : Sum.elim dx dl = d := by funext a; cases a <;> rfl
  have hN := (C23_symmetric_iff_newton C.kkt C.sets i.mu i.setMu C.beta i.rho hi.mu.ne' q.H i.ev.jac i.ev.grad i.ev.proxGrad
    i.ev.c i.lam i.lamPrev dx dl M hM).1 (by
      rw [he, ← hkeep, hi.jac, ← hmat, hsol]
      unfold stepRhs
      simp only [← hkeep, hi.jac])
  rw [← hkeep] at hN
  have hlp : ∀ k, M.lamsPlus k = 1 / i.mu * max (q.shifted i.mu i.lamPrev i.x k) 0 := by
    intro k
    rw [hM, hq.sets, hi.c]
    rfl
  have hpd : ∀ k, M.lamsPdal k = max (q.shifted i.mu i.lamPrev i.x k - 1 / 2 * i.mu * i.lam k) 0 * (1 / i.mu / (1 / 2)) := by
    intro k
    rw [hM, hq.sets, hi.c, hq.beta]
    rfl
  have hke : ∀ k, keep k = decide (0 < q.shifted i.mu i.lamPrev i.x k) := by
    intro k
    rw [hkeep, hq.classic, hM, hq.sets, hi.c]
    rfl
  have hnew : q.ClassicNewton i.mu i.lamPrev i.x i.lam dx dl := by
    refine ⟨fun j => ?_, fun k => ?_⟩
    · have := hN.1 j
      simp only [rhsPrimal, hi.rho, lt_irrefl, if_false, add_zero, hi.jac, hi.grad] at this
      exact this
    · have h2 := hN.2
      rw [hq.classic] at h2
      have := h2 k
      simp only [rhsDual, hi.jac, hlp, hke, decide_eq_true_eq] at this
      split_ifs with hh
      · rw [if_pos hh, max_eq_left hh.le] at this
        rw [this]
        field_simp
      · rw [if_neg hh, max_eq_right (not_lt.1 hh)] at this
        have h3 : i.mu * (dl k + i.lam k) = 0 := by linear_combination -this
        rcases mul_eq_zero.1 h3 with h4 | h4
        · exact absurd h4 hmu'
        · linarith
  set slope := dmeritDir i.rho C.beta i.setMu i.ev.grad i.ev.proxGrad i.ev.jac i.lam M.lamsPdal dx dl with hslope
  have hs : slope = q.slope i.mu i.lamPrev i.x i.lam dx dl := by
    rw [hslope]
    unfold dmeritDir meritGradient meritDualGradient Qp.slope
    simp only [hi.rho, lt_irrefl, if_false, add_zero, hi.grad, hi.jac, hq.beta, hi.setMu, add_mul, Finset.sum_add_distrib]
    rw [add_assoc]
    congr 1
    have e1 : ∑ j, (∑ k, q.A k j * M.lamsPdal k) * dx j = ∑ k, M.lamsPdal k * ∑ j, q.A k j * dx j := by
      simp only [Finset.sum_mul, Finset.mul_sum]
      rw [Finset.sum_comm]
      exact Finset.sum_congr rfl fun k _ => Finset.sum_congr rfl fun j _ => by ring
    rw [e1, ← Finset.sum_add_distrib, ← Finset.sum_add_distrib]
    refine Finset.sum_congr rfl fun k _ => ?_
    rw [hpd]
    field_simp
    ring
  have hphi : stepPhi C i dx dl = fun a => some (q.merit i.mu i.lamPrev (i.x + a • dx) (i.lam + a • dl)) := by
    funext a
    unfold stepPhi
    have e1 : C.integrate i.x (fun j => a * dx j) = i.x + a • dx := by rw [hq.integrate]; rfl
    have e2 : (fun k => i.lam k + a * dl k) = i.lam + a • dl := rfl
    simp only [e1, e2, hq.eval, hq.sets, hq.beta, hi.setMu, hi.rho, hq.prox, Option.map_some, add_zero]
    rw [meritEvaluate_leaves]
    congr 1
    unfold Qp.merit
    congr 1
    refine Finset.sum_congr rfl fun k _ => ?_
    simp only [envK, penK, LeafSet.normalAt, Qp.shifted, computeMultipliers]
    ring
  refine ⟨dx, dl, r, hnew, by rw [hx, hq.integrate]; rfl, by rw [hl]; rfl, ?_⟩
  rw [← hs, ← hi.merit, ← hphi]
  exact hr

/-- everything that is the same during the inner loop -/
structure IqLoop (C : StepCfg (Fin n → K) K n m) (q : Qp K n m) (h : K) (S : Settings K) : Prop where
  qp : IsIneqQp C q
  convex : q.StronglyConvex h
  params : GoodParams C.inertia
  deltaInit : C.inertia.deltaInit = 0
  deltaMax : 0 ≤ C.inertia.deltaMax
  backend : LibraryBackend C.backend
  ret : ∀ i, ∃ o, stepFull C i = .ok o
  beta : S.pdalBeta = 1 / 2
  kkt : S.kkt = .classic

/-- one pass of the inner loop that does not stop -/
theorem iq_iter (C : StepCfg (Fin n → K) K n m) (q : Qp K n m) (h : K) (S : Settings K) (hC : IqLoop C q h S)
    (st : St (Fin n → K) K (Hidden K n m) m) (hr : st.rho = 0) (hm : st.setMu = st.mu) (hmu : 0 < st.mu)
    (hin : (∃ j, st.innerTol < |q.lagrangian st.xOpt st.lamsOpt j|) ∨
      ∃ i, st.innerTol < |st.mu * (1 / st.mu * max (q.shifted st.mu st.lamsPrev st.xOpt i) 0 - st.lamsOpt i)|)
    (hout : ∃ i, S.targetTol < |q.residual st.xOpt i - min (q.residual st.xOpt i + st.mu * st.lamsOpt i) 0|) :
    ∃ d dl r st2, q.ClassicNewton st.mu st.lamsPrev st.xOpt st.lamsOpt d dl ∧
      lsRun C.sqrt C.sing (fun a => some (q.merit st.mu st.lamsPrev (st.xOpt + a • d) (st.lamsOpt + a • dl))) C.ls
        (q.merit st.mu st.lamsPrev st.xOpt st.lamsOpt) (q.slope st.mu st.lamsPrev st.xOpt st.lamsOpt d dl) C.fuel = some r ∧
      St.xOpt st2 = st.xOpt + r.alpha • d ∧ st2.lamsOpt = st.lamsOpt + r.alpha • dl ∧ st2.rho = 0 ∧ st2.setMu = st.mu ∧ st2.mu = st.mu ∧
      st2.lamsPrev = st.lamsPrev ∧ st2.innerTol = st.innerTol ∧ st2.numIters = st.numIters + 1 ∧ S.targetTol < st2.prim ∧
      innerLoop (concreteCtx C) S st =
        if st.numIters + 1 ≥ S.maxIters then .ok { st2 with converged := .maxIters } else innerLoop (concreteCtx C) S st2 := by
  obtain ⟨ev, hev, e1, e2, e3, e4, e5, e6, e7⟩ := iq_eval C q hC.qp S hC.kkt st.mu st.target st.xOpt st.lamsOpt st.lamsPrev
  have hev' : evalAt (concreteCtx C) S st.mu st.setMu st.rho st.target st.xOpt st.lamsOpt st.lamsPrev = some ev := by
    rw [hm, hr]; exact hev
  have hprim : S.targetTol < ev.prim := by
    obtain ⟨i, hi⟩ := hout
    exact lt_of_lt_of_le hi (e7 i)
  have hns : ¬ (ev.innerCrit ≤ st.innerTol ∨ ev.outerCrit ≤ S.targetTol) := by
    rintro (hx | hx)
    · rcases hin with ⟨j, hj⟩ | ⟨i, hi⟩
      · exact absurd (lt_of_lt_of_le hj (e5 j)) (not_lt.2 hx)
      · exact absurd (lt_of_lt_of_le hi (e6 i)) (not_lt.2 hx)
    · exact absurd (lt_of_lt_of_le hprim (le_max_left _ _)) (not_lt.2 hx)
  have hh := iq_hess C q hC.qp st ev
  obtain ⟨o, ho⟩ := hC.ret (stepIn (afterEval (concreteCtx C) st ev) ev)
  obtain ⟨d, dl, r, hN, hx, hl, hls⟩ := iq_step C q hC.qp h hC.convex hC.params hC.deltaInit hC.deltaMax hC.backend
    (stepIn (afterEval (concreteCtx C) st ev) ev)
    { rho := hr, mu := hmu, setMu := hm, c := e1, grad := e2, jac := e3, merit := e4, hess := hh.1, vhps := hh.2 } o ho
  refine ⟨d, dl, r, { acceptStep (afterEval (concreteCtx C) st ev) o with numIters := st.numIters + 1 }, hN, hls, hx, hl, hr, hm, rfl,
    rfl, rfl, rfl, hprim, ?_⟩
  have ho' : (concreteCtx C).step (stepIn (afterEval (concreteCtx C) st ev) ev) = .ok o := ho
  rw [innerLoop, hev']
  simp only
  rw [if_neg hns, ho']

/-- the step taken from a point where the Newton direction increases the merit function -/
theorem iq_up (C : StepCfg (Fin n → K) K n m) (q : Qp K n m) (h : K) (hc : q.StronglyConvex h) (hls : HalvingLS C.ls C.sqrt)
    (mu : K) (hmu : 0 < mu) (prev : Fin m → K) (x : Fin n → K) (lam : Fin m → K) (d : Fin n → K) (dl : Fin m → K)
    (hs : 0 < q.slope mu prev x lam d dl) (hth : C.ls.dphiThresh ≤ q.slope mu prev x lam d dl) (r : LSResult K)
    (hr : lsRun C.sqrt C.sing (fun a => some (q.merit mu prev (x + a • d) (lam + a • dl))) C.ls
      (q.merit mu prev x lam) (q.slope mu prev x lam d dl) C.fuel = some r) : r.alpha = lastStep C.ls := by
  have hcurv := curv_pos q h hc mu hmu prev x d lam dl hs.ne'
  refine lsRun_up C.sqrt hls.sqrt C.sing C.ls hls.cmin hls.cmax_lo hls.cmax_hi hls.c1
    (fun a => q.merit mu prev (x + a • d) (lam + a • dl)) _ _ hs hth ?_ ?_ C.fuel r hr
  · intro a ha _
    have := merit_above q hc.symm mu hmu prev x d lam dl a
    have h2 : 0 < a ^ 2 * q.curv mu d dl := by positivity
    show 0 < q.merit mu prev (x + a • d) (lam + a • dl) - _ - _
    linarith
  · intro a b ha hab _
    have h1 := merit_above q hc.symm mu hmu prev (x + a • d) d (lam + a • dl) dl (b - a)
    have h2 := slope_mono q mu hmu prev x d lam dl a ha.le (hc.nonneg d)
    have e1 : x + a • d + (b - a) • d = x + b • d := by rw [add_assoc, ← add_smul]; congr 2; ring
    have e2 : lam + a • dl + (b - a) • dl = lam + b • dl := by rw [add_assoc, ← add_smul]; congr 2; ring
    rw [e1, e2] at h1
    have h3 : 0 ≤ (b - a) ^ 2 * q.curv mu d dl := by positivity
    have h4 := mul_le_mul_of_nonneg_left h2 (sub_nonneg.2 hab)
    show q.merit mu prev (x + a • d) (lam + a • dl) - _ - _ ≤ q.merit mu prev (x + b • d) (lam + b • dl) - _ - _
    nlinarith

theorem lastStep_pos {o : LSOptions K} {sqrt : K → K} (h : HalvingLS o sqrt) : 0 < lastStep o := lt_of_lt_of_le h.amin (le_max_right _ _)

theorem lastStep_le {o : LSOptions K} {sqrt : K → K} (h : HalvingLS o sqrt) : lastStep o ≤ 1 :=
  max_le (pow_le_one₀ (by norm_num) (by norm_num)) h.amin_le

/-- the stalled inner loop -/
theorem iq_stall (C : StepCfg (Fin n → K) K n m) (q : Qp K n m) (h : K) (S : Settings K) (hC : IqLoop C q h S)
    (hls : HalvingLS C.ls C.sqrt) (r : Fin m) (k : ℕ) :
    ∀ (st : St (Fin n → K) K (Hidden K n m) m) (d : Fin n → K) (dl : Fin m → K), st.rho = 0 → st.setMu = st.mu → 0 < st.mu →
      q.ClassicNewton st.mu st.lamsPrev st.xOpt st.lamsOpt d dl →
      0 < q.slope st.mu st.lamsPrev st.xOpt st.lamsOpt d dl →
      C.ls.dphiThresh ≤ (1 - lastStep C.ls) ^ k * q.slope st.mu st.lamsPrev st.xOpt st.lamsOpt d dl →
      (∀ t, 0 ≤ t → t ≤ 1 - (1 - lastStep C.ls) ^ k → ∀ i,
        (0 < q.shifted st.mu st.lamsPrev (st.xOpt + t • d) i ↔ 0 < q.shifted st.mu st.lamsPrev st.xOpt i)) →
      q.shifted st.mu st.lamsPrev st.xOpt r ≤ 0 → 0 ≤ st.lamsPrev r →
      st.innerTol < (1 - lastStep C.ls) ^ k * (st.mu * -st.lamsOpt r) → S.targetTol < (1 - lastStep C.ls) ^ k * (st.mu * -st.lamsOpt r) →
      st.lamsOpt r < 0 → 0 < k → lastStep C.ls < 1 → S.maxIters = st.numIters + k →
      ∃ st', innerLoop (concreteCtx C) S st = .ok st' ∧ st'.converged = .maxIters ∧ S.targetTol < st'.prim ∧ st'.numIters = S.maxIters ∧
        st'.xOpt = st.xOpt + (1 - (1 - lastStep C.ls) ^ k) • d ∧ st'.lamsOpt = st.lamsOpt + (1 - (1 - lastStep C.ls) ^ k) • dl := by
  have hpos := lastStep_pos hls
  set al := lastStep C.ls with hal
  induction k with
  | zero => intro st d dl _ _ _ _ _ _ _ _ _ _ _ _ h0; exact absurd h0 (lt_irrefl _)
  | succ k ih =>
    intro st d dl hr hm hmu hN hs hth hrows hrow hprev hit hot hneg _ hal1 hmax
    have hb0 : 0 < 1 - al := by linarith
    have hbk : (1 - al) ^ (k + 1) ≤ 1 := pow_le_one₀ hb0.le (by linarith)
    have hbk0 : 0 < (1 - al) ^ (k + 1) := pow_pos hb0 _
    have hml : 0 < st.mu * -st.lamsOpt r := mul_pos hmu (by linarith)
    have hle : (1 - al) ^ (k + 1) * (st.mu * -st.lamsOpt r) ≤ st.mu * -st.lamsOpt r := mul_le_of_le_one_left hml.le hbk
    obtain ⟨d', dl', res, st2, hN', hrun, g1, g2, g3, g4, g5, g6, g7, g8, g9, g10⟩ := iq_iter C q h S hC st hr hm hmu
      (Or.inr ⟨r, by
        rw [max_eq_right hrow, mul_zero, zero_sub, abs_of_pos hml]
        linarith⟩)
      ⟨r, by
        have hz : q.residual st.xOpt r + st.mu * st.lamsOpt r ≤ 0 := by
          have h1 : q.residual st.xOpt r ≤ 0 := by
            have := mul_nonneg hmu.le hprev
            unfold Qp.shifted at hrow
            linarith
          have h2 := mul_neg_of_pos_of_neg hmu hneg
          linarith
        rw [min_eq_left hz]
        have e : q.residual st.xOpt r - (q.residual st.xOpt r + st.mu * st.lamsOpt r) = st.mu * -st.lamsOpt r := by ring
        rw [e, abs_of_pos hml]
        linarith⟩
    obtain ⟨rfl, rfl⟩ := ClassicNewton.unique q h hC.convex st.mu hmu st.lamsPrev st.xOpt st.lamsOpt d d' dl dl' hN hN'
    have hth' : C.ls.dphiThresh ≤ q.slope st.mu st.lamsPrev st.xOpt st.lamsOpt d dl :=
      le_trans hth (mul_le_of_le_one_left hs.le hbk)
    have hra := iq_up C q h hC.convex hls st.mu hmu st.lamsPrev st.xOpt st.lamsOpt d dl hs hth' res hrun
    rw [← hal] at hra
    rw [hra] at g1 g2
    rcases Nat.eq_zero_or_pos k with hk | hk
    · subst hk
      refine ⟨{ st2 with converged := .maxIters }, ?_, rfl, g9, ?_, ?_, ?_⟩
      · rw [g10, if_pos (by omega)]
      · show st2.numIters = _; omega
      · show st2.xOpt = _
        rw [g1]; congr 2; ring
      · show st2.lamsOpt = _
        rw [g2]; congr 2; ring
    · have hal_in : al ≤ 1 - (1 - al) ^ (k + 1) := by
        have : (1 - al) ^ k ≤ 1 := pow_le_one₀ hb0.le (by linarith)
        rw [pow_succ]
        nlinarith
      have hr1 := hrows al hpos.le hal_in
      have hdl : dl r = -st.lamsOpt r := by
        have := hN.2 r
        rwa [if_neg (not_lt.2 hrow)] at this
      have hl2 : st2.lamsOpt r = (1 - al) * st.lamsOpt r := by
        rw [g2]; simp only [Pi.add_apply, Pi.smul_apply, smul_eq_mul, hdl]; ring
      have hsl : q.slope st2.mu st2.lamsPrev st2.xOpt st2.lamsOpt ((1 - al) • d) ((1 - al) • dl) =
          (1 - al) * q.slope st.mu st.lamsPrev (st.xOpt + al • d) (st.lamsOpt + al • dl) d dl := by
        rw [g5, g6, g1, g2, slope_smul]
      have hsm := slope_mono q st.mu hmu st.lamsPrev st.xOpt d st.lamsOpt dl al hpos.le (hC.convex.nonneg d)
      obtain ⟨st', w1, w2, w3, w4, w5, w6⟩ := ih st2 ((1 - al) • d) ((1 - al) • dl) g3 (by rw [g4, g5]) (by rw [g5]; exact hmu)
        (by rw [g5, g6, g1, g2]; exact ClassicNewton.shrink q st.mu st.lamsPrev st.xOpt st.lamsOpt d dl al hN hr1)
        (by rw [hsl]; exact mul_pos hb0 (lt_of_lt_of_le hs hsm))
        (by
          rw [hsl]
          refine le_trans hth ?_
          rw [pow_succ, mul_assoc]
          exact mul_le_mul_of_nonneg_left (mul_le_mul_of_nonneg_left hsm hb0.le) (pow_pos hb0 _).le)
        (by
          intro t ht0 ht1 i
          rw [g5, g6, g1]
          have e : st.xOpt + al • d + t • (1 - al) • d = st.xOpt + (al + t * (1 - al)) • d := by
            rw [smul_smul, add_assoc, ← add_smul]
          rw [e, hr1 i]
          refine hrows _ (by nlinarith) ?_ i
          rw [pow_succ]
          nlinarith)
        (by rw [g5, g6, g1]; exact not_lt.1 (fun hh => (not_lt.2 hrow) ((hr1 r).1 hh))) (by rw [g6]; exact hprev)
        (by rw [g7, g5, hl2]; refine lt_of_lt_of_le hit (le_of_eq ?_); rw [pow_succ]; ring)
        (by rw [g5, hl2]; refine lt_of_lt_of_le hot (le_of_eq ?_); rw [pow_succ]; ring)
        (by rw [hl2]; exact mul_neg_of_pos_of_neg hb0 hneg) hk hal1 (by omega)
      refine ⟨st', ?_, w2, w3, w4, ?_, ?_⟩
      · rw [g10, if_neg (by omega)]; exact w1
      · rw [w5, g1, add_assoc, smul_smul, ← add_smul]; congr 2; rw [pow_succ]; ring
      · rw [w6, g2, add_assoc, smul_smul, ← add_smul]; congr 2; rw [pow_succ]; ring

end ProxNLP
