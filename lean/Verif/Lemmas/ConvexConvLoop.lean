import Verif.Lemmas.ConvexConv

/-!
Induction over the outer loop for C85.
-/

set_option linter.unusedSectionVars false
namespace ProxNLP

open Spec

variable {K : Type} {n m : ℕ} [Field K] [LinearOrder K] [IsStrictOrderedRing K]

/-- decision after an inner loop that ended by its tolerance: SUCCESS, or the invariant for the rest of the run -/
theorem cvConv_decide (C : StepCfg (Fin n → K) K n m) (f : (Fin n → K) → K) (A : Fin m → Fin n → K) (b : Fin m → K)
    (leaf : Fin m → LeafSet K × ℕ) (k : ConvexConst K) (hC : ConvexSolver C f A b leaf k) (hl : OnlySets leaf) (S : Settings K)
    (hS : ConvexSettings S C.ls k A) (h : K) (hm : StronglyMonotone C.grad h) (xs : Fin n → K) (ls : Fin m → K)
    (hk : KktPoint C.grad A b leaf xs ls) (theta beta R0 R M q : K) (levels rounds : ℕ)
    (hV : ConvexConvergence S A h theta beta R0 R levels rounds) (hq0 : 0 ≤ q) (hq1 : q ≤ 1) (hM : M * q ^ rounds ≤ S.innerTolMin)
    (hsh : ∀ mu, S.muLower ≤ mu → mu ≤ S.muInit → S.innerTol0 * S.pow mu S.dualAlpha ≤ M ∧ S.primTol0 * S.pow mu S.primAlpha ≤ M ∧
      S.pow (mu / S.muUpper) S.dualBeta ≤ q ∧ S.pow (mu / S.muUpper) S.primBeta ≤ q)
    (l a t : ℕ) (st : St (Fin n → K) K (Hidden K n m) m)
    (hst : CvConv C S theta M q R (beta + 2 * (m * theta)) ls levels rounds l a (t + 1) st)
    (ev : EvalOut K n m) (hev : evalSt (concreteCtx C) S st = some ev) (hcrit : ev.innerCrit ≤ st.innerTol)
    (e1 : st.prim = ev.prim) (e2 : st.dual = ev.dual) (hns : ¬ max st.prim st.dual < S.targetTol) (j : ℕ) :
    ∃ l' a', CvConv C S theta M q R (beta + 2 * (m * theta)) ls levels rounds l' a' t
      { setProxParameter (afterInner S st) ((afterInner S st).rho * S.rhoUpdateFactor) with alIters := j } := by
  have hth := hV.theta0
  have hbe := hV.beta0
  have hmt : 0 ≤ (m : K) * theta := by positivity
  have hv := hC.convex.valid
  have hev' : evalAt (concreteCtx C) S st.mu st.mu 0 st.target st.xOpt st.lamsOpt st.lamsPrev = some ev := by
    have := hev
    unfold evalSt at this
    rw [hst.base.setMu, hst.base.rho] at this
    exact this
  obtain ⟨c1, c2, c3⟩ := cv_eval_res C f A b leaf k hC.convex S hS.beta hS.kkt st.mu st.target st.xOpt st.lamsOpt st.lamsPrev ev hev'
  have hcr := hcrit
  rw [c1] at hcr
  obtain ⟨p1, p2⟩ := pd_end S A b leaf hv hl C.grad h hm xs ls hk theta beta R0 R levels rounds hV hS.lower st.mu st.innerTol
    hst.base.lower hst.base.upper hst.acc st.lamsPrev st.lamsOpt st.xOpt hcr _ hst.radius0 hst.radius
  set g := beta + 2 * (m * theta) with hg
  have er : R - ((t + 1 : ℕ) : K) * g + beta + 2 * (m * theta) = R - t * g := by rw [hg]; push_cast; ring
  rw [er] at p1 p2
  have t0 : 0 < S.targetTol := lt_trans hS.tolMin hV.target
  have hdual : st.dual ≤ st.innerTol := by rw [e2]; exact le_trans c2 hcrit
  by_cases hp : st.prim < st.primTol
  · have ha : a < rounds := by
      rcases lt_or_eq_of_le hst.a_le with ha | ha
      · exact ha
      · exfalso
        apply hns
        have i1 := hst.inner
        have i2 := hst.prim
        rw [ha] at i1 i2
        rw [max_eq_right hM] at i1
        rw [max_eq_right (le_trans hM hV.target.le)] at i2
        exact max_lt (lt_of_lt_of_le hp i2) (lt_of_le_of_lt (le_trans hdual i1) hV.target)
    exact ⟨l, a + 1, cvConv_accept C S hS h theta beta R0 R M q levels rounds hV hq0 hq1
      (fun mu h1 h2 => ⟨(hsh mu h1 h2).2.2.1, (hsh mu h1 h2).2.2.2⟩) ls l a t st hst p1 ha hp j⟩
  · have hmu : st.mu ≠ S.muLower := by
      intro hmu
      apply hp
      refine lt_of_lt_of_le ?_ hst.primLow
      have hb : st.prim ≤ 2 * st.mu * (2 * (R - t * g) + theta) := by
        rw [e1, c3]
        have hr0 : 0 ≤ R - t * g := by
          have := hst.radius0
          push_cast at this
          have hg0 : 0 ≤ g := by positivity
          linarith
        have hmu0 : 0 ≤ st.mu := le_trans hS.lower.le hst.base.lower
        exact (inftyNorm_le_iff _ _).2 ⟨by positivity, p2⟩
      have hg0 : 0 ≤ g := by positivity
      have htg : 0 ≤ (t : K) * g := by positivity
      refine lt_of_le_of_lt hb (lt_of_le_of_lt ?_ hV.room)
      rw [hmu]
      exact mul_le_mul_of_nonneg_left (by linarith) (by have := hS.lower; positivity)
    have hl' : l < levels := by
      rcases lt_or_eq_of_le hst.l_le with hl | hl
      · exact hl
      · exfalso
        apply hmu
        have i1 := hst.level
        rw [hl, max_eq_right hV.reach] at i1
        exact le_antisymm i1 hst.base.lower
    exact ⟨l + 1, 0, cvConv_reject C S hS h theta beta R0 R M q levels rounds hV
      (fun mu h1 h2 => ⟨(hsh mu h1 h2).1, (hsh mu h1 h2).2.1⟩) ls l a t st hst hl' hmu hp j⟩

theorem CvConv.congr {C : StepCfg (Fin n → K) K n m} {S : Settings K} {theta M q R g : K} {ls : Fin m → K}
    {levels rounds l a t : ℕ} {st st' : St (Fin n → K) K (Hidden K n m) m} (h : CvConv C S theta M q R g ls levels rounds l a t st)
    (hb : CvOuter C S st') (hc : st'.converged = st.converged) (h1 : st'.mu = st.mu) (h2 : st'.innerTol = st.innerTol)
    (h3 : st'.primTol = st.primTol) (h4 : st'.lamsPrev = st.lamsPrev) : CvConv C S theta M q R g ls levels rounds l a t st' :=
  { base := hb, conv := hc.trans h.conv, acc := by rw [h1, h2]; exact h.acc, level := by rw [h1]; exact h.level, l_le := h.l_le,
    inner := by rw [h2]; exact h.inner, prim := by rw [h3]; exact h.prim, primLow := by rw [h3]; exact h.primLow, a_le := h.a_le,
    radius0 := h.radius0, radius := by rw [h4]; exact h.radius, fuel := h.fuel }

theorem cvConv_outer [Archimedean K] (C : StepCfg (Fin n → K) K n m) (f : (Fin n → K) → K) (A : Fin m → Fin n → K) (b : Fin m → K)
    (leaf : Fin m → LeafSet K × ℕ) (k : ConvexConst K) (hC : ConvexSolver C f A b leaf k) (hret : ∀ i, ∃ o, stepFull C i = .ok o)
    (hl : OnlySets leaf) (S : Settings K) (hS : ConvexSettings S C.ls k A) (h : K) (hm : StronglyMonotone C.grad h) (xs : Fin n → K)
    (ls : Fin m → K) (hk : KktPoint C.grad A b leaf xs ls) (theta beta R0 R M q : K) (levels rounds : ℕ)
    (hV : ConvexConvergence S A h theta beta R0 R levels rounds) (hq0 : 0 ≤ q) (hq1 : q ≤ 1) (hM : M * q ^ rounds ≤ S.innerTolMin)
    (hsh : ∀ mu, S.muLower ≤ mu → mu ≤ S.muInit → S.innerTol0 * S.pow mu S.dualAlpha ≤ M ∧ S.primTol0 * S.pow mu S.primAlpha ≤ M ∧
      S.pow (mu / S.muUpper) S.dualBeta ≤ q ∧ S.pow (mu / S.muUpper) S.primBeta ≤ q) (t : ℕ) :
    ∀ (l a : ℕ) (st : St (Fin n → K) K (Hidden K n m) m), CvConv C S theta M q R (beta + 2 * (m * theta)) ls levels rounds l a t st →
      st.alIters + t ≤ S.maxAlIters →
      ∃ N st', (∀ J, N ≤ J → outerLoop (concreteCtx C) { S with maxIters := J } st = .ok st') ∧ st'.numIters < N ∧
        ((st'.converged = .success ∧ st'.alIters < st.alIters + t) ∨
          ∃ e ∈ st'.endLog, max e.prim e.dual = S.targetTol) := by
  induction t with
  | zero =>
    intro l a st hst _
    exact absurd hst.fuel (by omega)
  | succ t ih =>
    intro l a st hst ht
    have hmu0 : 0 < st.mu := lt_of_lt_of_le hS.lower hst.base.lower
    have htol : 0 < st.innerTol := lt_of_lt_of_le hS.tolMin hst.base.tol
    have hsb := (hS.search st.mu hst.base.lower hst.base.upper).mono hS.tolMin.le hst.base.tol
    have hdec := ConvexConst.decrease_pos k A C.ls hC.ls st.mu st.innerTol hmu0 htol hC.convex.lo0 hC.convex.L0 hC.hi0 hsb
    obtain ⟨w, hw⟩ := Archimedean.arch (cvMerit f A b leaf st.mu st.lamsPrev st.xOpt st.lamsOpt - k.low) hdec
    have hw' : cvMerit f A b leaf st.mu st.lamsPrev st.xOpt st.lamsOpt < k.low + ((w + 1 : ℕ) : K) * k.decrease A C.ls st.mu st.innerTol := by
      rw [nsmul_eq_mul] at hw
      push_cast
      linarith
    obtain ⟨st1, h1, h2, h3, -, -, h6⟩ := cv_inner C f A b leaf k hC hret S hS.beta hS.kkt (w + 1) (startOuter (concreteCtx C) st)
      hst.base.rho hst.base.setMu hmu0 htol hsb (fun ha => hst.base.vhps ha) hw'
    have h1' : ∀ J, st.numIters + (w + 1) ≤ J → innerLoop (concreteCtx C) { S with maxIters := J } (startOuter (concreteCtx C) st) = .ok st1 := h1
    have h2' : st1.numIters < st.numIters + (w + 1) := h2
    have h3' : st1.converged = st.converged := h3
    have hin := h1' _ le_rfl
    have hfr := innerLoop_frame _ _ _ _ hin
    have hb1 : CvOuter C S st1 :=
      { rho := hfr.rho.trans hst.base.rho, setMu := hfr.setMu.trans (hst.base.setMu.trans hfr.mu.symm)
        lower := by rw [hfr.mu]; exact hst.base.lower
        upper := by rw [hfr.mu]; exact hst.base.upper
        tol := by rw [hfr.innerTol]; exact hst.base.tol
        vhps := h6 }
    have hst1 : CvConv C S theta M q R (beta + 2 * (m * theta)) ls levels rounds l a (t + 1) st1 :=
      hst.congr hb1 h3' hfr.mu hfr.innerTol hfr.primTol hfr.lamsPrev
    have hni : (afterInner S st1).numIters = st1.numIters := afterInner_numIters S st1
    have hpr : (afterInner S st1).prim = st1.prim := by
      unfold afterInner; simp only; split_ifs
      · rfl
      · unfold updatePenalty; simp only; split_ifs <;> rfl
    have hdu : (afterInner S st1).dual = st1.dual := by
      unfold afterInner; simp only; split_ifs
      · rfl
      · unfold updatePenalty; simp only; split_ifs <;> rfl
    have hal : (afterInner S st1).alIters = st.alIters := by
      have : (afterInner S st1).alIters = st1.alIters := by
        unfold afterInner; simp only; split_ifs
        · rfl
        · unfold updatePenalty; simp only; split_ifs <;> rfl
      rw [this, hfr.alIters]; rfl
    by_cases hsucc : max (afterInner S st1).prim (afterInner S st1).dual < S.targetTol
    · refine ⟨st.numIters + (w + 1), { afterInner S st1 with converged := .success }, fun J hJ => ?_, ?_, Or.inl ⟨rfl, ?_⟩⟩
      · rw [outerLoop, if_pos (by show st.numIters < J ∧ st.alIters < S.maxAlIters; omega), h1' J hJ]
        simp only
        have e : afterInner { S with maxIters := J } st1 = afterInner S st1 := rfl
        rw [e, if_pos hsucc]
      · show (afterInner S st1).numIters < _
        rw [hni]; exact h2'
      · show (afterInner S st1).alIters < _
        rw [hal]; omega
    · have hstep : ∀ J, st.numIters + (w + 1) ≤ J → outerLoop (concreteCtx C) { S with maxIters := J } st =
          outerLoop (concreteCtx C) { S with maxIters := J }
            { setProxParameter (afterInner S st1) ((afterInner S st1).rho * S.rhoUpdateFactor) with alIters := st.alIters + 1 } := by
        intro J hJ
        rw [outerLoop, if_pos (by show st.numIters < J ∧ st.alIters < S.maxAlIters; omega), h1' J hJ]
        simp only
        have e : afterInner { S with maxIters := J } st1 = afterInner S st1 := rfl
        rw [e, if_neg hsucc]
      rcases innerLoop_exit _ _ _ _ hin with ⟨-, -, ev, hev, hstop, e1, e2, -, -⟩ | ⟨hc, -, -⟩
      · rcases hstop with hstop | hstop
        · obtain ⟨l', a', hnext⟩ := cvConv_decide C f A b leaf k hC hl S hS h hm xs ls hk theta beta R0 R M q levels rounds hV hq0 hq1 hM hsh
            l a t st1 hst1 ev hev hstop e1 e2 (by rw [hpr, hdu] at hsucc; exact hsucc) (st.alIters + 1)
          obtain ⟨N, st', g1, g2, g3⟩ := ih l' a' _ hnext (by show st.alIters + 1 + t ≤ _; omega)
          refine ⟨max N (st.numIters + (w + 1)), st', fun J hJ => ?_, lt_of_lt_of_le g2 (le_max_left _ _), ?_⟩
          · rw [hstep J (le_trans (le_max_right _ _) hJ)]
            exact g1 J (le_trans (le_max_left _ _) hJ)
          · rcases g3 with ⟨g3, g4⟩ | g3
            · have g4' : st'.alIters < st.alIters + 1 + t := g4
              exact Or.inl ⟨g3, by omega⟩
            · exact Or.inr g3
        · -- the outer criterion equals the target tolerance
          obtain ⟨N, st', g1, -, g3, -⟩ := cv_outer C f A b leaf k hC hret S hS (S.maxAlIters - (st.alIters + 1)) _
            (cvOuter_next C S hS st1 hb1 (st.alIters + 1)) (by show _ = st.alIters + 1 + _; omega)
          refine ⟨max N (st.numIters + (w + 1)), st', fun J hJ => ?_, lt_of_lt_of_le g3 (le_max_left _ _), Or.inr ?_⟩
          · rw [hstep J (le_trans (le_max_right _ _) hJ)]
            exact g1 J (le_trans (le_max_left _ _) hJ)
          · refine ⟨⟨st1.prim, st1.dual, st1.xOpt⟩, outerLoop_endLog_mem _ _ _ _ (g1 N le_rfl) _ ?_, ?_⟩
            · show _ ∈ (afterInner S st1).endLog
              rw [afterInner_endLog]
              simp
            · show max st1.prim st1.dual = S.targetTol
              rw [hpr, hdu] at hsucc
              refine le_antisymm ?_ (not_lt.1 hsucc)
              rw [e1, e2]
              exact hstop
      · exfalso
        rw [h3', hst.conv] at hc
        cases hc

end ProxNLP
