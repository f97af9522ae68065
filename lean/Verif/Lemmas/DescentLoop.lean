import Verif.Lemmas.DescentStep
import Verif.Spec.ConvexRun
import Verif.Lemmas.QpSolve
import Verif.Lemmas.SolverOuter
import Verif.Props.Step
import Verif.Props.Qp

/-!
The inner and outer loops of the solver on the problems of C83.
-/

set_option linter.unusedSectionVars false
namespace ProxNLP

open Spec

variable {K : Type} {n m : ℕ} [Field K] [LinearOrder K] [IsStrictOrderedRing K]

/-- the inner criterion on the problem, primal-dual KKT system -/
def cvCrit (g : Fin n → K) (A : Fin m → Fin n → K) (b : Fin m → K) (leaf : Fin m → LeafSet K × ℕ) (mu : K) (prev : Fin m → K)
    (x : Fin n → K) (lam : Fin m → K) : K :=
  max (inftyNorm (fun j => g j + ∑ l, A l j * lam l))
    (inftyNorm (fun l => 1 / 2 * mu * ((leaf l).1.normalAt mu (leaf l).2
      (∑ j, A l j * x j - b l + mu * prev l - 1 / 2 * mu * lam l) * (1 / mu / (1 / 2)) - lam l)))

theorem cv_eval (C : StepCfg (Fin n → K) K n m) (f : (Fin n → K) → K) (A : Fin m → Fin n → K) (b : Fin m → K)
    (leaf : Fin m → LeafSet K × ℕ) (k : ConvexConst K) (hC : IsConvex C f A b leaf k) (S : Settings K) (hb : S.pdalBeta = 1 / 2)
    (hk : S.kkt = .primalDual) (mu : K) (t x : Fin n → K) (lam prev : Fin m → K) :
    ∃ ev, evalAt (concreteCtx C) S mu mu 0 t x lam prev = some ev ∧ (ev.c = fun i => ∑ j, A i j * x j - b i) ∧
      ev.grad = C.grad x ∧ ev.jac = A ∧ ev.merit = cvMerit f A b leaf mu prev x lam ∧
      ev.innerCrit = cvCrit (C.grad x) A b leaf mu prev x lam := by
  have hs : (concreteCtx C).sets = StackedSet.ofLeaves leaf := hC.sets
  refine ⟨_, by unfold evalAt; rw [show (concreteCtx C).eval x = _ from hC.eval x]; rfl, rfl, rfl, hC.jac x, ?_, ?_⟩
  · show (if (0 : K) < 0 then _ else _) = _
    rw [if_neg (lt_irrefl _)]
    show f x + _ = _
    rw [hs]
    have := meritEvaluate_leaves leaf mu (f x) (fun i => ∑ j, A i j * x j - b i + mu * prev i - 1 / 2 * mu * lam i) lam
    exact this
  · unfold EvalOut.innerCrit cvCrit
    congr 1
    · show inftyNorm (if (0 : K) < 0 then _ else _) = _
      rw [if_neg (lt_irrefl _)]
      show inftyNorm (fun j => C.grad x j + ∑ i, C.jac x i j * lam i) = _
      rw [hC.jac]
    · congr 1
      funext i
      rw [hk]
      show 1 / 2 * mu * ((concreteCtx C).sets.normal mu _ i * (1 / mu / S.pdalBeta) - lam i) = _
      rw [hs, hb]
      rfl

theorem ConvexConst.decrease_pos (k : ConvexConst K) (A : Fin m → Fin n → K) (o : LSOptions K) (ho : GoodLS o) (mu tol : K) (hmu : 0 < mu)
    (htol : 0 < tol) (h0 : 0 < k.lo) (hL : 0 ≤ k.L) (hhi : 0 ≤ k.hi) (hsb : SearchBudget o k A mu tol) :
    0 < k.decrease A o mu tol := by
  have hkap := ConvexConst.kappa_pos k A mu hmu h0 hL
  have hgain := ConvexConst.gain_pos k A mu hmu hhi
  have habar : 0 < k.abar A o.armijoC1 mu := div_pos (by linarith [hsb.c1]) hkap
  have := ho.cmin
  have := hsb.c1pos
  unfold Spec.ConvexConst.decrease
  have h1 : 0 < min 1 (o.contractionMin * k.abar A o.armijoC1 mu) := lt_min one_pos (by positivity)
  positivity

/-- the Hessian block used at a point of the problem -/
theorem cv_hess (C : StepCfg (Fin n → K) K n m) (f : (Fin n → K) → K) (A : Fin m → Fin n → K) (b : Fin m → K)
    (leaf : Fin m → LeafSet K × ℕ) (k : ConvexConst K) (hC : IsConvex C f A b leaf k) (st : St (Fin n → K) K (Hidden K n m) m)
    (ev : EvalOut K n m) (hv : C.approx = .identity → ∀ p ∈ st.hidden.vhps, p.2 = 0) :
    Between (afterEval (concreteCtx C) st ev).hidden.hess k.lo k.hi ∧
      ∀ p ∈ (afterEval (concreteCtx C) st ev).hidden.vhps, p.2 = 0 := by
  show Between (hessUpdate C st.hidden st.xOpt ev.grad ev.lamsPdal).hess k.lo k.hi ∧
    ∀ p ∈ (hessUpdate C st.hidden st.xOpt ev.grad ev.lamsPdal).vhps, _
  unfold hessUpdate
  rcases hC.hess with ⟨ha, h1, h2⟩ | ⟨ha | ha, h3⟩
  · rw [ha]
    refine ⟨⟨Matrix.isSymm_one, fun v => ?_, fun v => ?_⟩, hv ha⟩
    · have e : quad (1 : Matrix (Fin n) (Fin n) K) v = ∑ j, v j ^ 2 := by
        unfold quad; simp [Matrix.one_apply, sq]
      rw [e]
      have : 0 ≤ ∑ j, v j ^ 2 := Finset.sum_nonneg fun _ _ => sq_nonneg _
      nlinarith
    · have e : quad (1 : Matrix (Fin n) (Fin n) K) v = ∑ j, v j ^ 2 := by
        unfold quad; simp [Matrix.one_apply, sq]
      rw [e]
      have : 0 ≤ ∑ j, v j ^ 2 := Finset.sum_nonneg fun _ _ => sq_nonneg _
      nlinarith
  · rw [ha]; exact ⟨h3 _, hC.vhp _ _⟩
  · rw [ha]; exact ⟨h3 _, hC.vhp _ _⟩

/-- the inner loop stops by its own test, at a point that does not depend on the iteration limit -/
theorem cv_inner (C : StepCfg (Fin n → K) K n m) (f : (Fin n → K) → K) (A : Fin m → Fin n → K) (b : Fin m → K)
    (leaf : Fin m → LeafSet K × ℕ) (k : ConvexConst K) (hC : ConvexSolver C f A b leaf k) (hret : ∀ i, ∃ o, stepFull C i = .ok o)
    (S : Settings K) (hb : S.pdalBeta = 1 / 2) (hk : S.kkt = .primalDual) (t : ℕ) :
    ∀ st : St (Fin n → K) K (Hidden K n m) m, st.rho = 0 → st.setMu = st.mu → 0 < st.mu → 0 < st.innerTol →
      SearchBudget C.ls k A st.mu st.innerTol → (C.approx = .identity → ∀ p ∈ st.hidden.vhps, p.2 = 0) →
      cvMerit f A b leaf st.mu st.lamsPrev st.xOpt st.lamsOpt < k.low + t * k.decrease A C.ls st.mu st.innerTol →
      ∃ st', (∀ N, st.numIters + t ≤ N → innerLoop (concreteCtx C) { S with maxIters := N } st = .ok st') ∧
        st'.numIters < st.numIters + t ∧ st'.converged = st.converged ∧
        ((st'.numIters : K) - st.numIters) * k.decrease A C.ls st.mu st.innerTol ≤
          cvMerit f A b leaf st.mu st.lamsPrev st.xOpt st.lamsOpt - k.low ∧
        (∃ ev, evalSt (concreteCtx C) S st' = some ev ∧ stopTest S st' ev) ∧
        (C.approx = .identity → ∀ p ∈ st'.hidden.vhps, p.2 = 0) := by
  induction t with
  | zero =>
    intro st _ _ hmu _ _ _ hlt
    have := cvMerit_low f A b leaf st.mu hmu st.lamsPrev st.xOpt st.lamsOpt k.low (hC.convex.below _)
    simp only [Nat.cast_zero, zero_mul, add_zero] at hlt
    exact absurd hlt (not_lt.2 this)
  | succ t ih =>
    intro st hr hm hmu ht hsb hv hlt
    obtain ⟨ev, hev, e1, e2, e3, e4, e5⟩ := cv_eval C f A b leaf k hC.convex S hb hk st.mu st.target st.xOpt st.lamsOpt st.lamsPrev
    have hev' : evalAt (concreteCtx C) S st.mu st.setMu st.rho st.target st.xOpt st.lamsOpt st.lamsPrev = some ev := by
      rw [hm, hr]; exact hev
    have hh := cv_hess C f A b leaf k hC.convex st ev hv
    have hdec := ConvexConst.decrease_pos k A C.ls hC.ls st.mu st.innerTol hmu ht hC.convex.lo0 hC.convex.L0 hC.hi0 hsb
    have hlow := cvMerit_low f A b leaf st.mu hmu st.lamsPrev st.xOpt st.lamsOpt k.low (hC.convex.below _)
    by_cases hst : stopTest S st ev
    · refine ⟨afterEval (concreteCtx C) st ev, fun N _ => ?_, ?_, rfl, ?_, ⟨ev, hev', hst⟩, fun ha => hh.2⟩
      · exact innerLoop_stop _ _ _ ev hev' hst
      · show st.numIters < st.numIters + (t + 1); omega
      · show ((st.numIters : K) - st.numIters) * _ ≤ _
        rw [sub_self, zero_mul]; linarith
    · obtain ⟨o, ho⟩ := hret (stepIn (afterEval (concreteCtx C) st ev) ev)
      obtain ⟨hd, hvo⟩ := cv_step C f A b leaf k hC.convex hC.hi0 hC.params hC.deltaInit hC.deltaMax hC.backend hC.ls hC.sing
        (stepIn (afterEval (concreteCtx C) st ev) ev)
        { rho := hr, mu := hmu, setMu := hm, c := e1, grad := e2, jac := e3, merit := e4, hess := hh.1, vhps := hh.2 }
        st.innerTol ht hsb (by
          have : ¬ ev.innerCrit ≤ st.innerTol := fun hx => hst (Or.inl hx)
          rw [e5] at this
          exact not_le.1 this) o ho
      have hd' : cvMerit f A b leaf st.mu st.lamsPrev o.x o.lam ≤
          cvMerit f A b leaf st.mu st.lamsPrev st.xOpt st.lamsOpt - k.decrease A C.ls st.mu st.innerTol := by
        rw [← e4]; exact hd
      have ho' : (concreteCtx C).step (stepIn (afterEval (concreteCtx C) st ev) ev) = .ok o := ho
      obtain ⟨st', h1, h2, h3, h4, h5, h6⟩ := ih (nextIter (concreteCtx C) st ev o) hr hm hmu ht hsb
        (fun _ => by
          show ∀ p ∈ o.hidden.vhps, _
          rw [hvo]; exact hh.2)
        (by
          refine lt_of_le_of_lt hd' ?_
          push_cast at hlt
          show _ < k.low + t * k.decrease A C.ls st.mu st.innerTol
          linarith)
      have ht0 : t ≠ 0 := by
        rintro rfl
        have := cvMerit_low f A b leaf st.mu hmu st.lamsPrev o.x o.lam k.low (hC.convex.below _)
        push_cast at hlt
        linarith
      refine ⟨st', fun N hN => ?_, ?_, h3, ?_, h5, h6⟩
      · rw [innerLoop]
        have hev2 : evalAt (concreteCtx C) { S with maxIters := N } st.mu st.setMu st.rho st.target st.xOpt st.lamsOpt st.lamsPrev = some ev :=
          hev'
        rw [hev2]
        simp only
        rw [if_neg hst, ho']
        simp only
        rw [if_neg (by show ¬ st.numIters + 1 ≥ N; omega)]
        exact h1 N (by show st.numIters + 1 + t ≤ N; omega)
      · have : st'.numIters < st.numIters + 1 + t := h2
        omega
      · have h4' : ((st'.numIters : K) - ((st.numIters + 1 : ℕ) : K)) * k.decrease A C.ls st.mu st.innerTol ≤
            cvMerit f A b leaf st.mu st.lamsPrev o.x o.lam - k.low := h4
        push_cast at h4'
        linarith

theorem innerLoop_numIters_le {X H : Type} (P : Ctx X K H n m) (S : Settings K) (st st' : St X K H m)
    (h : innerLoop P S st = .ok st') : st.numIters ≤ st'.numIters := by
  refine innerLoop_ind P S (R := fun a b => a.numIters ≤ b.numIters) ?_ ?_ ?_ st st' h
  · intro st ev _ _; exact le_rfl
  · intro st ev o _ _ _ _; exact Nat.le_succ _
  · intro st st' ev o _ _ _ _ _ h
    exact le_trans (Nat.le_succ _) h

/-- what the outer loop keeps -/
structure CvOuter (C : StepCfg (Fin n → K) K n m) (S : Settings K) (st : St (Fin n → K) K (Hidden K n m) m) : Prop where
  rho : st.rho = 0
  setMu : st.setMu = st.mu
  lower : S.muLower ≤ st.mu
  upper : st.mu ≤ S.muInit
  tol : S.innerTolMin ≤ st.innerTol
  vhps : C.approx = .identity → ∀ p ∈ st.hidden.vhps, p.2 = 0

theorem Spec.SearchBudget.mono {o : LSOptions K} {k : ConvexConst K} {A : Fin m → Fin n → K} {mu tol tol' : K}
    (h : SearchBudget o k A mu tol) (h0 : 0 ≤ tol) (hle : tol ≤ tol') : SearchBudget o k A mu tol' :=
  { h with tol := le_trans h.tol (pow_le_pow_left₀ h0 hle 2) }

theorem cvOuter_next (C : StepCfg (Fin n → K) K n m) (S : Settings K) {A : Fin m → Fin n → K} {k : ConvexConst K}
    (hS : ConvexSettings S C.ls k A) (st : St (Fin n → K) K (Hidden K n m) m) (h : CvOuter C S st) (j : ℕ) :
    CvOuter C S { setProxParameter (afterInner S st) ((afterInner S st).rho * S.rhoUpdateFactor) with alIters := j } := by
  have hr : (afterInner S st).rho = 0 := by rw [afterInner_rho]; exact h.rho
  have hmu0 : 0 < st.mu := lt_of_lt_of_le hS.lower h.lower
  have key : (afterInner S st).setMu = (afterInner S st).mu ∧ S.muLower ≤ (afterInner S st).mu ∧ (afterInner S st).mu ≤ S.muInit ∧
      S.innerTolMin ≤ (afterInner S st).innerTol ∧ (afterInner S st).hidden = st.hidden := by
    unfold afterInner
    simp only
    split_ifs
    · exact ⟨h.setMu, h.lower, h.upper, le_max_right _ _, rfl⟩
    · simp only [updateToleranceFailure, tolerancePostUpdate, updatePenalty, setPenalty]
      split_ifs
      · exact ⟨rfl, hS.lower_le, le_rfl, le_max_right _ _, rfl⟩
      · refine ⟨rfl, le_max_right _ _, max_le ?_ hS.lower_le, le_max_right _ _, rfl⟩
        refine le_trans ?_ h.upper
        exact mul_le_of_le_one_right hmu0.le hS.factor_le
  obtain ⟨k1, k2, k3, k4, k5⟩ := key
  refine ⟨?_, k1, k2, k3, k4, fun ha => ?_⟩
  · show (afterInner S st).rho * _ = 0
    rw [hr, zero_mul]
  · show ∀ p ∈ (afterInner S st).hidden.vhps, _
    rw [k5]; exact h.vhps ha

theorem cv_outer [Archimedean K] (C : StepCfg (Fin n → K) K n m) (f : (Fin n → K) → K) (A : Fin m → Fin n → K) (b : Fin m → K)
    (leaf : Fin m → LeafSet K × ℕ) (k : ConvexConst K) (hC : ConvexSolver C f A b leaf k) (hret : ∀ i, ∃ o, stepFull C i = .ok o)
    (S : Settings K) (hS : ConvexSettings S C.ls k A) (t : ℕ) :
    ∀ st : St (Fin n → K) K (Hidden K n m) m, CvOuter C S st → S.maxAlIters = st.alIters + t →
      ∃ N st', (∀ M, N ≤ M → outerLoop (concreteCtx C) { S with maxIters := M } st = .ok st') ∧
        (st'.converged = st.converged ∨ st'.converged = .success) ∧ st'.numIters < N ∧
        (st'.converged ≠ .success → st'.alIters = S.maxAlIters) := by
  induction t with
  | zero =>
    intro st hst ht
    refine ⟨st.numIters + 1, st, fun M hM => ?_, Or.inl rfl, Nat.lt_succ_self _, fun _ => by omega⟩
    rw [outerLoop, if_neg (by show ¬ (st.numIters < M ∧ st.alIters < S.maxAlIters); omega)]
  | succ t ih =>
    intro st hst ht
    have hmu0 : 0 < st.mu := lt_of_lt_of_le hS.lower hst.lower
    have htol : 0 < st.innerTol := lt_of_lt_of_le hS.tolMin hst.tol
    have hsb := (hS.search st.mu hst.lower hst.upper).mono hS.tolMin.le hst.tol
    have hdec := ConvexConst.decrease_pos k A C.ls hC.ls st.mu st.innerTol hmu0 htol hC.convex.lo0 hC.convex.L0 hC.hi0 hsb
    obtain ⟨q, hq⟩ := Archimedean.arch (cvMerit f A b leaf st.mu st.lamsPrev st.xOpt st.lamsOpt - k.low) hdec
    have hq' : cvMerit f A b leaf st.mu st.lamsPrev st.xOpt st.lamsOpt < k.low + ((q + 1 : ℕ) : K) * k.decrease A C.ls st.mu st.innerTol := by
      rw [nsmul_eq_mul] at hq
      push_cast
      linarith
    obtain ⟨st1, h1, h2, h3, -, -, h6⟩ := cv_inner C f A b leaf k hC hret S hS.beta hS.kkt (q + 1) (startOuter (concreteCtx C) st)
      hst.rho hst.setMu hmu0 htol hsb (fun ha => hst.vhps ha) hq'
    have h1' : ∀ M, st.numIters + (q + 1) ≤ M → innerLoop (concreteCtx C) { S with maxIters := M } (startOuter (concreteCtx C) st) = .ok st1 := h1
    have h2' : st1.numIters < st.numIters + (q + 1) := h2
    have hfr := innerLoop_frame _ _ _ _ (h1' _ le_rfl)
    have hst1 : CvOuter C S st1 :=
      { rho := hfr.rho.trans hst.rho, setMu := hfr.setMu.trans (hst.setMu.trans hfr.mu.symm)
        lower := by rw [hfr.mu]; exact hst.lower
        upper := by rw [hfr.mu]; exact hst.upper
        tol := by rw [hfr.innerTol]; exact hst.tol
        vhps := h6 }
    have hni : (afterInner S st1).numIters = st1.numIters := afterInner_numIters S st1
    have hcv : (afterInner S st1).converged = st.converged := (afterInner_converged S st1).trans h3
    by_cases hsucc : max (afterInner S st1).prim (afterInner S st1).dual < S.targetTol
    · refine ⟨st.numIters + (q + 1), { afterInner S st1 with converged := .success }, fun M hM => ?_, Or.inr rfl, ?_, fun hc => absurd rfl hc⟩
      · rw [outerLoop, if_pos (by show st.numIters < M ∧ st.alIters < S.maxAlIters; omega), h1' M hM]
        simp only
        have e : afterInner { S with maxIters := M } st1 = afterInner S st1 := rfl
        rw [e, if_pos hsucc]
      · show (afterInner S st1).numIters < _
        rw [hni]; exact h2'
    · obtain ⟨N, st', g1, g2, g3, g4⟩ := ih _ (cvOuter_next C S hS st1 hst1 (st.alIters + 1)) (by show _ = st.alIters + 1 + t; omega)
      refine ⟨max N (st.numIters + (q + 1)), st', fun M hM => ?_, ?_, lt_of_lt_of_le g3 (le_max_left _ _), g4⟩
      · rw [outerLoop, if_pos (by
          have := le_trans (le_max_right _ _) hM
          show st.numIters < M ∧ st.alIters < S.maxAlIters; omega), h1' M (le_trans (le_max_right _ _) hM)]
        simp only
        have e : afterInner { S with maxIters := M } st1 = afterInner S st1 := rfl
        rw [e, if_neg hsucc]
        exact g1 M (le_trans (le_max_left _ _) hM)
      · rcases g2 with g2 | g2
        · left; rw [g2]; exact hcv
        · exact Or.inr g2

end ProxNLP
