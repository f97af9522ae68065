import Verif.Lemmas.QpSolve

/-! Helper lemmas for C80: a rank that decreases with every outer iteration on a quadratic program. -/

set_option linter.unusedSectionVars false
namespace ProxNLP

open Spec

variable {K : Type} {n m : ℕ} [Field K] [LinearOrder K] [IsStrictOrderedRing K]

/-- constants of the convergence proof -/
structure QpRates (q : Qp K n m) (S : Settings K) (ls : Fin m → K) (R th r M ep E0 : K) (F Sn : ℕ) : Prop where
  settings : ConvergentSettings S R
  th0 : 0 ≤ th
  th1 : th < 1
  contract : ∀ mu, 0 < mu → mu ≤ S.muInit → ∀ prev x lam, q.SubOptimal mu prev x lam → errSq lam ls ≤ th * errSq prev ls
  small : S.muInit ^ 2 * (4 * ep) < S.targetTol ^ 2
  start : ∀ mu, S.muLower ≤ mu → mu ≤ S.muInit → 0 ≤ S.innerTol0 * S.pow mu S.dualAlpha ∧
    S.innerTol0 * S.pow mu S.dualAlpha < S.primTol0 * S.pow mu S.primAlpha ∧ S.innerTol0 * S.pow mu S.dualAlpha ≤ M
  r1 : r < 1
  shrink : ∀ mu, S.muLower ≤ mu → mu ≤ S.muInit → 0 ≤ S.pow (mu / S.muUpper) S.dualBeta ∧
    S.pow (mu / S.muUpper) S.dualBeta ≤ r ∧ S.pow (mu / S.muUpper) S.dualBeta ≤ S.pow (mu / S.muUpper) S.primBeta ∧
    0 < S.pow (mu / S.muUpper) S.primBeta
  hF : S.muUpdateFactor ^ F * S.muInit ≤ S.muLower
  hSn : r ^ Sn * max M S.innerTolMin ≤ S.targetTol
  R0 : 0 ≤ R
  hR : 4 * E0 ≤ R ^ 2

variable {q : Qp K n m} {S : Settings K} {ls : Fin m → K} {R th r M ep E0 : K} {F Sn : ℕ}

/-- what holds in every state of the outer loop -/
structure QpState (S : Settings K) (ls : Fin m → K) (M E0 : K) (st : St (Fin n → K) K (Hidden K n m) m) : Prop where
  rho : st.rho = 0
  setMu : st.setMu = st.mu
  lo : S.muLower ≤ st.mu
  hi : st.mu ≤ S.muInit
  tol0 : 0 ≤ st.innerTol
  tols : st.innerTol < st.primTol
  tolM : st.innerTol ≤ max M S.innerTolMin
  err : errSq st.lamsPrev ls ≤ E0

/-- the multipliers were just accepted -/
structure QpClassA (S : Settings K) (ls : Fin m → K) (th r ep : K) (j s : ℕ) (st : St (Fin n → K) K (Hidden K n m) m) : Prop where
  same : st.lamsOpt = st.lamsPrev
  err : th ^ j * errSq st.lamsPrev ls ≤ ep
  tol : r ^ s * st.innerTol ≤ S.targetTol

/-- the penalty parameter was just decreased -/
structure QpClassB (q : Qp K n m) (S : Settings K) (ls : Fin m → K) (th ep : K) (j f : ℕ)
    (st : St (Fin n → K) K (Hidden K n m) m) : Prop where
  sub : ∃ mu, 0 < mu ∧ mu ≤ S.muInit ∧ q.SubOptimal mu st.lamsPrev st.xOpt st.lamsOpt
  err : th ^ j * errSq st.lamsPrev ls ≤ ep
  inner : st.innerTol = max (S.innerTol0 * S.pow st.mu S.dualAlpha) S.innerTolMin
  prim : st.primTol = max (S.primTol0 * S.pow st.mu S.primAlpha) S.targetTol
  mu : S.muUpdateFactor ^ f * st.mu ≤ S.muLower

/-- rank of a state -/
def QpRank (q : Qp K n m) (S : Settings K) (ls : Fin m → K) (th r ep : K) (F Sn k : ℕ)
    (st : St (Fin n → K) K (Hidden K n m) m) : Prop :=
  (∃ j s, QpClassA S ls th r ep j s st ∧ k = j * (F + Sn + 2) + F + 2 + s) ∨
  ∃ j f, QpClassB q S ls th ep j f st ∧ f ≤ F ∧ k = j * (F + Sn + 2) + f + 1

theorem QpRates.r0 (hD : QpRates q S ls R th r M ep E0 F Sn) : 0 ≤ r :=
  have h := hD.shrink S.muLower le_rfl hD.settings.lower_le
  h.1.trans h.2.1

theorem QpRates.target0 (hD : QpRates q S ls R th r M ep E0 F Sn) : 0 < S.targetTol :=
  lt_of_le_of_lt hD.settings.tolMin hD.settings.target

theorem QpRates.contract' (hD : QpRates q S ls R th r M ep E0 F Sn) {mu : K} (h0 : 0 < mu) (h1 : mu ≤ S.muInit) {prev x lam}
    (hs : q.SubOptimal mu prev x lam) : errSq lam ls ≤ errSq prev ls :=
  (hD.contract mu h0 h1 prev x lam hs).trans (mul_le_of_le_one_left (errSq_nonneg _ _) hD.th1.le)

theorem qpOuter_sub {mu : K} {prev x lam} (hs : q.SubOptimal mu prev x lam) : qpOuter q x lam = inftyNorm (q.residual x) := by
  unfold qpOuter
  rw [(inftyNorm_eq_zero_iff _).2 hs.1]
  exact max_eq_left (inftyNorm_nonneg _)

theorem qp_sub_small (hD : QpRates q S ls R th r M ep E0 F Sn) {mu : K} (h0 : 0 < mu) (h1 : mu ≤ S.muInit) {prev x lam}
    (hs : q.SubOptimal mu prev x lam) (he : errSq prev ls ≤ ep) : qpOuter q x lam < S.targetTol := by
  rw [qpOuter_sub hs, inftyNorm_lt_iff]
  refine ⟨hD.target0, fun i => abs_lt_of_sq_lt_sq ?_ hD.target0.le⟩
  refine lt_of_le_of_lt ((qp_residual_bound q ls mu prev x lam hs (hD.contract' h0 h1 hs) i).1) (lt_of_le_of_lt ?_ hD.small)
  have hd := errSq_nonneg prev ls
  have : mu ^ 2 ≤ S.muInit ^ 2 := pow_le_pow_left₀ h0.le h1 2
  exact mul_le_mul this (by linarith) (by linarith) (sq_nonneg _)

/-- at the smallest penalty parameter, with fresh tolerances, the iteration is a success -/
theorem qp_room (hD : QpRates q S ls R th r M ep E0 F Sn) {st st2 : St (Fin n → K) K (Hidden K n m) m} (hst : QpState S ls M E0 st)
    (ho : QpOuterStep q S st st2) {j f : ℕ} (hB : QpClassB q S ls th ep j f st) (hmu : st.mu = S.muLower)
    (hT : S.targetTol < qpOuter q st2.xOpt st2.lamsOpt) : st2.prim < st.primTol := by
  have hS := hD.settings
  have hR0 := hD.R0
  have hd : ∀ {mu : K}, 0 < mu → mu ≤ S.muInit → q.SubOptimal mu st.lamsPrev st2.xOpt st2.lamsOpt → ∀ i,
      |st.lamsPrev i - st2.lamsOpt i| ≤ R := by
    intro mu h0 h1 hs i
    refine abs_le_of_sq_le_sq ?_ hR0
    have := (qp_residual_bound q ls mu _ _ _ hs (hD.contract' h0 h1 hs) i).2
    have := hst.err
    have := hD.hR
    linarith
  have hmR : ∀ a : K, |a| ≤ R → |st.mu * a| ≤ S.muLower * R := by
    intro a ha
    rw [abs_mul, hmu, abs_of_pos hS.lower]
    exact mul_le_mul_of_nonneg_left ha hS.lower.le
  have hbound : ∀ i, |q.residual st2.xOpt i| ≤ st.innerTol + S.muLower * R := by
    intro i
    rcases ho.move with ⟨hx, hl, hc⟩ | ⟨hs, -⟩
    · rcases hc with hc | hc
      · obtain ⟨mu, h0, h1, hs⟩ := hB.sub
        rw [← hx, ← hl] at hs hc
        have hi := hmR _ (hd h0 h1 hs i)
        have hr : |q.residual st2.xOpt i + st.mu * (st.lamsPrev i - st2.lamsOpt i)| ≤ st.innerTol :=
          ((inftyNorm_le_iff _ _).1 ((le_max_right _ _).trans hc)).2 i
        rw [abs_le] at hi hr ⊢
        constructor <;> linarith [hi.1, hi.2, hr.1, hr.2]
      · rw [← hx, ← hl] at hc
        exact absurd hc (not_le.2 hT)
    · have hi := hmR _ (hd (lt_of_lt_of_le hS.lower hst.lo) hst.hi hs i)
      have e : q.residual st2.xOpt i = -(st.mu * (st.lamsPrev i - st2.lamsOpt i)) := by have := hs.2 i; linarith
      rw [e, abs_neg]
      exact hi.trans (le_add_of_nonneg_left hst.tol0)
  rw [ho.prim]
  have hroom := hS.room
  rw [← hmu] at hroom
  rw [← hB.inner, hmu] at hroom
  refine lt_of_le_of_lt ((inftyNorm_le_iff _ _).2 ⟨?_, hbound⟩) (lt_of_lt_of_le hroom ?_)
  · exact add_nonneg hst.tol0 (mul_nonneg hS.lower.le hR0)
  · rw [hB.prim, hmu]; exact le_max_left _ _

theorem qpState_success (hD : QpRates q S ls R th r M ep E0 F Sn) {st st2 : St (Fin n → K) K (Hidden K n m) m}
    (hst : QpState S ls M E0 st) (hrho : st2.rho = st.rho)
    (hr : st2.prim < st.primTol ∧ st2.lamsPrev = st2.lamsOpt ∧ st2.mu = st.mu ∧ st2.setMu = st.mu ∧
      st2.innerTol = max (st.innerTol * S.pow (st.mu / S.muUpper) S.dualBeta) S.innerTolMin ∧
      st2.primTol = max (st.primTol * S.pow (st.mu / S.muUpper) S.primBeta) S.targetTol)
    (he : errSq st2.lamsOpt ls ≤ E0) :
    QpState S ls M E0 st2 ∧ ∀ s, r ^ (s + 1) * st.innerTol ≤ S.targetTol → r ^ s * st2.innerTol ≤ S.targetTol := by
  obtain ⟨-, h1, h2, h3, h4, h5⟩ := hr
  obtain ⟨s1, s2, s3, s4⟩ := hD.shrink st.mu hst.lo hst.hi
  have hS := hD.settings
  have hr0 := hD.r0
  refine ⟨{ rho := hrho.trans hst.rho, setMu := by rw [h3, h2], lo := by rw [h2]; exact hst.lo, hi := by rw [h2]; exact hst.hi
            tol0 := ?_, tols := ?_, tolM := ?_, err := by rw [h1]; exact he }, ?_⟩
  · rw [h4]; exact le_max_of_le_right hS.tolMin
  · rw [h4, h5]
    refine max_lt (lt_max_of_lt_left ?_) (lt_max_of_lt_right hS.target)
    exact lt_of_le_of_lt (mul_le_mul_of_nonneg_left s3 hst.tol0) (mul_lt_mul_of_pos_right hst.tols s4)
  · rw [h4]
    refine max_le (le_trans ?_ hst.tolM) (le_max_right _ _)
    exact mul_le_of_le_one_right hst.tol0 (s2.trans hD.r1.le)
  · intro s hs
    rw [h4, mul_max_of_nonneg _ _ (pow_nonneg hr0 s)]
    refine max_le (le_trans ?_ hs) ?_
    · rw [pow_succ, mul_assoc]
      refine mul_le_mul_of_nonneg_left ?_ (pow_nonneg hr0 s)
      rw [mul_comm]
      exact mul_le_mul_of_nonneg_right s2 hst.tol0
    · exact (mul_le_of_le_one_left hS.tolMin (pow_le_one₀ hr0 hD.r1.le)).trans hS.target.le

theorem qpState_failure (hD : QpRates q S ls R th r M ep E0 F Sn) {st st2 : St (Fin n → K) K (Hidden K n m) m}
    (hst : QpState S ls M E0 st) (hrho : st2.rho = st.rho)
    (hr : st.primTol ≤ st2.prim ∧ st2.lamsPrev = st.lamsPrev ∧
      st2.mu = (if st.mu = S.muLower then S.muInit else max (st.mu * S.muUpdateFactor) S.muLower) ∧ st2.setMu = st2.mu ∧
      st2.innerTol = max (S.innerTol0 * S.pow st2.mu S.dualAlpha) S.innerTolMin ∧
      st2.primTol = max (S.primTol0 * S.pow st2.mu S.primAlpha) S.targetTol) :
    QpState S ls M E0 st2 ∧ (∀ f, S.muUpdateFactor ^ (f + 1) * st.mu ≤ S.muLower → st.mu ≠ S.muLower →
      S.muUpdateFactor ^ f * st2.mu ≤ S.muLower) ∧ S.muUpdateFactor ^ F * st2.mu ≤ S.muLower := by
  obtain ⟨-, h1, h2, h3, h4, h5⟩ := hr
  have hS := hD.settings
  have hmu0 := lt_of_lt_of_le hS.lower hst.lo
  have hlo : S.muLower ≤ st2.mu := by
    rw [h2]; split_ifs
    · exact hS.lower_le
    · exact le_max_right _ _
  have hhi : st2.mu ≤ S.muInit := by
    rw [h2]; split_ifs
    · exact le_rfl
    · exact max_le ((mul_le_of_le_one_right hmu0.le hS.factor_lt.le).trans hst.hi) hS.lower_le
  obtain ⟨s1, s2, s3⟩ := hD.start st2.mu hlo hhi
  refine ⟨{ rho := hrho.trans hst.rho, setMu := h3, lo := hlo, hi := hhi, tol0 := ?_, tols := ?_, tolM := ?_
            err := by rw [h1]; exact hst.err }, ?_, ?_⟩
  · rw [h4]; exact le_max_of_le_right hS.tolMin
  · rw [h4, h5]; exact max_lt (lt_max_of_lt_left s2) (lt_max_of_lt_right hS.target)
  · rw [h4]; exact max_le_max_right _ s3
  · intro f hf hne
    rw [h2, if_neg hne, mul_max_of_nonneg _ _ (pow_nonneg hS.factor_nonneg f)]
    refine max_le (le_of_eq_of_le ?_ hf) (mul_le_of_le_one_left hS.lower.le (pow_le_one₀ hS.factor_nonneg hS.factor_lt.le))
    rw [pow_succ]; ring
  · exact (mul_le_mul_of_nonneg_left hhi (pow_nonneg hS.factor_nonneg F)).trans hD.hF

/-- every outer iteration reaches the tolerance or lowers the rank -/
theorem qp_progress (hD : QpRates q S ls R th r M ep E0 F Sn) {st st2 : St (Fin n → K) K (Hidden K n m) m} (hst : QpState S ls M E0 st)
    {k : ℕ} (hk : QpRank q S ls th r ep F Sn k st) (ho : QpOuterStep q S st st2) :
    qpOuter q st2.xOpt st2.lamsOpt ≤ S.targetTol ∨
      QpState S ls M E0 st2 ∧ ∃ k' < k, QpRank q S ls th r ep F Sn k' st2 := by
  by_cases hT : qpOuter q st2.xOpt st2.lamsOpt ≤ S.targetTol
  · exact Or.inl hT
  right
  have hT' := not_le.1 hT
  have hmu0 := lt_of_lt_of_le hD.settings.lower hst.lo
  -- contraction of the error
  have hcon : ∀ {mu : K} {j : ℕ}, 0 < mu → mu ≤ S.muInit → q.SubOptimal mu st.lamsPrev st2.xOpt st2.lamsOpt →
      th ^ j * errSq st.lamsPrev ls ≤ ep → ∃ j', j = j' + 1 ∧ th ^ j' * errSq st2.lamsOpt ls ≤ ep := by
    intro mu j h0 h1 hs he
    cases j with
    | zero => exact absurd (qp_sub_small hD h0 h1 hs (by simpa using he)) (not_lt.2 hT'.le)
    | succ j =>
      refine ⟨j, rfl, le_trans ?_ he⟩
      rw [pow_succ, mul_assoc]
      exact mul_le_mul_of_nonneg_left (hD.contract mu h0 h1 _ _ _ hs) (pow_nonneg hD.th0 j)
  have hSn : ∀ {t : K}, t ≤ max M S.innerTolMin → r ^ Sn * t ≤ S.targetTol := fun ht =>
    (mul_le_mul_of_nonneg_left ht (pow_nonneg hD.r0 Sn)).trans hD.hSn
  rcases hk with ⟨j, s, hA, rfl⟩ | ⟨j, f, hB, hf, rfl⟩
  · rcases ho.move with ⟨hx, hl, hc⟩ | ⟨hs, -⟩
    · have hle : qpOuter q st2.xOpt st2.lamsOpt ≤ st.innerTol := by
        rcases hc with hc | hc
        · rw [hx, hl, hA.same]
          rw [hA.same] at hc
          unfold qpCrit at hc
          simp only [sub_self, mul_zero, add_zero] at hc
          unfold qpOuter
          rw [max_comm]
          exact hc
        · rw [← hx, ← hl] at hc
          exact absurd hc hT
      have hprim : st2.prim < st.primTol := by
        rw [ho.prim]
        exact lt_of_le_of_lt ((le_max_left _ _).trans hle) hst.tols
      rcases ho.result with hr | hr
      · obtain ⟨g1, g2⟩ := qpState_success hD hst ho.rho hr (by rw [hl, hA.same]; exact hst.err)
        refine ⟨g1, ?_⟩
        cases s with
        | zero => exact absurd (hle.trans (by simpa using hA.tol)) hT
        | succ s =>
          refine ⟨_, ?_, Or.inl ⟨j, s, { same := hr.2.1.symm, err := ?_, tol := g2 s hA.tol }, rfl⟩⟩
          · omega
          · rw [hr.2.1, hl, hA.same]; exact hA.err
      · exact absurd hr.1 (not_le.2 hprim)
    · rcases ho.result with hr | hr
      · obtain ⟨j', rfl, he⟩ := hcon hmu0 hst.hi hs hA.err
        obtain ⟨g1, g2⟩ := qpState_success hD hst ho.rho hr ((hD.contract' hmu0 hst.hi hs).trans hst.err)
        refine ⟨g1, _, ?_, Or.inl ⟨j', Sn, { same := hr.2.1.symm, err := by rw [hr.2.1]; exact he, tol := hSn g1.tolM }, rfl⟩⟩
        rw [Nat.succ_mul]; omega
      · obtain ⟨g1, g2, g3⟩ := qpState_failure hD hst ho.rho hr
        refine ⟨g1, _, ?_, Or.inr ⟨j, F, { sub := ⟨st.mu, hmu0, hst.hi, by rw [hr.2.1]; exact hs⟩, err := by rw [hr.2.1]; exact hA.err
                                           inner := hr.2.2.2.2.1, prim := hr.2.2.2.2.2, mu := g3 }, le_rfl, rfl⟩⟩
        omega
  · obtain ⟨mu, h0, h1, hs⟩ : ∃ mu, 0 < mu ∧ mu ≤ S.muInit ∧ q.SubOptimal mu st.lamsPrev st2.xOpt st2.lamsOpt := by
      rcases ho.move with ⟨hx, hl, -⟩ | ⟨hs, -⟩
      · rw [hx, hl]; exact hB.sub
      · exact ⟨st.mu, hmu0, hst.hi, hs⟩
    rcases ho.result with hr | hr
    · obtain ⟨j', rfl, he⟩ := hcon h0 h1 hs hB.err
      obtain ⟨g1, g2⟩ := qpState_success hD hst ho.rho hr ((hD.contract' h0 h1 hs).trans hst.err)
      refine ⟨g1, _, ?_, Or.inl ⟨j', Sn, { same := hr.2.1.symm, err := by rw [hr.2.1]; exact he, tol := hSn g1.tolM }, rfl⟩⟩
      rw [Nat.succ_mul]; omega
    · have hne : st.mu ≠ S.muLower := fun hmu => absurd hr.1 (not_le.2 (qp_room hD hst ho hB hmu hT'))
      obtain ⟨g1, g2, g3⟩ := qpState_failure hD hst ho.rho hr
      cases f with
      | zero => exact absurd (le_antisymm (by simpa using hB.mu) hst.lo) hne
      | succ f =>
        refine ⟨g1, _, ?_, Or.inr ⟨j, f, { sub := ⟨mu, h0, h1, by rw [hr.2.1]; exact hs⟩, err := by rw [hr.2.1]; exact hB.err
                                           inner := hr.2.2.2.2.1, prim := hr.2.2.2.2.2, mu := g2 f hB.mu hne }, by omega, rfl⟩⟩
        omega

/-- state with which the next outer iteration starts -/
abbrev qpNext (S : Settings K) (st2 : St (Fin n → K) K (Hidden K n m) m) (k : ℕ) : St (Fin n → K) K (Hidden K n m) m :=
  { setProxParameter st2 (st2.rho * S.rhoUpdateFactor) with alIters := k }

/-- once the residual equals the tolerance the solver stays where it is -/
theorem qp_stall (C : StepCfg (Fin n → K) K n m) (h : K) (hC : QpCfg C q h) (hS : ConvergentSettings S R)
    (st st' : St (Fin n → K) K (Hidden K n m) m) (hr : st.rho = 0) (hm : st.setMu = st.mu) (hlo : S.muLower ≤ st.mu)
    (he : qpOuter q st.xOpt st.lamsOpt = S.targetTol) (hout : outerLoop (concreteCtx C) S st = .ok st') :
    qpOuter q st'.xOpt st'.lamsOpt = S.targetTol := by
  generalize hk : S.maxAlIters - st.alIters = k
  induction k using Nat.strong_induction_on generalizing st with
  | _ k ih =>
    rw [outerLoop] at hout
    split_ifs at hout with hg
    · have hmu0 := lt_of_lt_of_le hS.lower hlo
      obtain ⟨ev, hev, -, -, -, -, e5, e6, -⟩ := qp_eval C q hC.isQp S hS.beta st.mu hmu0 st.target st.xOpt st.lamsOpt st.lamsPrev
      have hin := innerLoop_stop (concreteCtx C) S (startOuter (concreteCtx C) st) ev (by
        show evalAt (concreteCtx C) S st.mu st.setMu st.rho st.target st.xOpt st.lamsOpt st.lamsPrev = some ev
        rw [hm, hr]; exact hev) (Or.inr (by
          have : ev.outerCrit = qpOuter q st.xOpt st.lamsOpt := by unfold EvalOut.outerCrit; rw [e5, e6]; rfl
          rw [this, he]))
      rw [hin] at hout
      simp only at hout
      generalize hst1 : afterEval (concreteCtx C) (startOuter (concreteCtx C) st) ev = st1 at hout
      have f1 : st1.mu = st.mu := by rw [← hst1]; rfl
      have f2 : st1.setMu = st1.mu := by rw [← hst1]; exact hm
      have f3 : st1.rho = 0 := by rw [← hst1]; exact hr
      have f4 : st1.xOpt = st.xOpt := by rw [← hst1]; rfl
      have f5 : st1.lamsOpt = st.lamsOpt := by rw [← hst1]; rfl
      have f6 : st1.prim = inftyNorm (q.residual st.xOpt) := by rw [← hst1]; exact e5
      have f7 : st1.dual = inftyNorm (q.lagrangian st.xOpt st.lamsOpt) := by rw [← hst1]; exact e6
      rw [afterInner_prim, afterInner_dual, f6, f7] at hout
      rw [if_neg (by
        show ¬ qpOuter q st.xOpt st.lamsOpt < S.targetTol
        rw [he]; exact lt_irrefl _)] at hout
      have hl : (afterInner S st1).lamsOpt = st.lamsOpt := by
        rw [← f5]
        unfold afterInner
        simp only
        split_ifs
        · simp [updateToleranceSuccess, tolerancePostUpdate, acceptMultipliers, hS.newton]
        · simp only [updateToleranceFailure, tolerancePostUpdate, updatePenalty, setPenalty]
          split_ifs <;> rfl
      refine ih (S.maxAlIters - (st.alIters + 1)) (by omega) (qpNext S (afterInner S st1) (st.alIters + 1)) ?_ ?_ ?_ ?_ hout rfl
      · show (afterInner S st1).rho * S.rhoUpdateFactor = 0
        rw [afterInner_rho, f3, zero_mul]
      · exact afterInner_setMu S st1 f2
      · show S.muLower ≤ (afterInner S st1).mu
        rw [afterInner_mu]
        split_ifs
        · rw [f1]; exact hlo
        · exact hS.lower_le
        · exact le_max_right _ _
      · show qpOuter q (afterInner S st1).xOpt (afterInner S st1).lamsOpt = _
        rw [afterInner_xOpt, hl, f4, he]
    · cases hout; exact he

/-- the outer loop reaches the tolerance when the limits exceed the rank -/
theorem qp_outer (C : StepCfg (Fin n → K) K n m) (h : K) (hC : QpCfg C q h) (hD : QpRates q S ls R th r M ep E0 F Sn) (k : ℕ)
    (st st' : St (Fin n → K) K (Hidden K n m) m) (hst : QpState S ls M E0 st) (hk : QpRank q S ls th r ep F Sn k st)
    (hal : st.alIters + k < S.maxAlIters) (hnum : st.numIters + k + 1 < S.maxIters)
    (hout : outerLoop (concreteCtx C) S st = .ok st') :
    (st'.converged = .success ∧ qpOuter q st'.xOpt st'.lamsOpt < S.targetTol) ∨
      qpOuter q st'.xOpt st'.lamsOpt = S.targetTol := by
  induction k using Nat.strong_induction_on generalizing st with
  | _ k ih =>
    have hS := hD.settings
    rw [outerLoop, if_pos ⟨by omega, by omega⟩] at hout
    split at hout
    · cases hout
    · rename_i st1 hin
      have ho := qp_outer_step C q h hC S hS.beta hS.newton st st1 hst.rho hst.setMu (lt_of_lt_of_le hS.lower hst.lo) hst.tol0
        (by omega) hin
      have hal2 : (afterInner S st1).alIters = st.alIters := by
        rw [afterInner_alIters]; exact (innerLoop_frame _ _ _ _ hin).alIters
      simp only at hout
      generalize hst2 : afterInner S st1 = st2 at hout ho hal2
      have hqo : max st2.prim st2.dual = qpOuter q st2.xOpt st2.lamsOpt := by rw [ho.prim, ho.dual]; rfl
      rw [hqo] at hout
      by_cases hlt : qpOuter q st2.xOpt st2.lamsOpt < S.targetTol
      · rw [if_pos hlt] at hout
        cases hout
        exact Or.inl ⟨rfl, hlt⟩
      · rw [if_neg hlt] at hout
        have hrho : st2.rho * S.rhoUpdateFactor = 0 := by rw [ho.rho, hst.rho, zero_mul]
        rcases qp_progress hD hst hk ho with hle | ⟨g, k', hk', hrank⟩
        · right
          refine qp_stall C h hC hS (qpNext S st2 (st.alIters + 1)) st' hrho ?_ ?_ (le_antisymm hle (not_lt.1 hlt)) hout
          · show st2.setMu = st2.mu
            rcases ho.result with hr | hr
            · rw [hr.2.2.2.1, hr.2.2.1]
            · exact hr.2.2.2.1
          · show S.muLower ≤ st2.mu
            rcases ho.result with hr | hr
            · rw [hr.2.2.1]; exact hst.lo
            · exact (qpState_failure hD hst ho.rho hr).1.lo
        · refine ih k' hk' (qpNext S st2 (st.alIters + 1)) ?_ ?_ ?_ ?_ hout
          · exact { rho := hrho, setMu := g.setMu, lo := g.lo, hi := g.hi, tol0 := g.tol0, tols := g.tols, tolM := g.tolM, err := g.err }
          · rcases hrank with ⟨j, s, hA, e⟩ | ⟨j, f, hB, hf, e⟩
            · exact Or.inl ⟨j, s, { same := hA.same, err := hA.err, tol := hA.tol }, e⟩
            · exact Or.inr ⟨j, f, { sub := hB.sub, err := hB.err, inner := hB.inner, prim := hB.prim, mu := hB.mu }, hf, e⟩
          · show st.alIters + 1 + k' < _
            omega
          · show st2.numIters + k' + 1 < _
            have := ho.numIters
            omega

end ProxNLP
